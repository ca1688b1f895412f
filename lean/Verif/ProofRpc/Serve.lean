import Verif.ProofRpc.Props

/-! # C208: proofs stay available -/

namespace Verif.ProofRpc

open Witness (Chain Wit Proof Signed SI CI PosSt authIndex)

/-! ## Non-vacuity of C207 and C208: a calm history with a change of validators and proofs for both chains -/

/-- Reachable by a calm history. -/
def calmOps : List Op :=
  [.enter 2 true, .request 0 .ethereum 1000 (some (500, 1500)), vote 0 1000 700, vote 0 1000 100, .enter 3 false,
   .request 1 .xrpl 50 none, vote 1 50 600, vote 1 50 100, vote 1 50 500]

/-- Calm along the way, decidably: whenever blocks are entered nothing changes, but for the first. -/
theorem exec_calm {c : Cfg} : ∀ (ops : List Op) {s s' : St}, Reach c (Calm c) s →
    (∀ op ∈ ops, ∀ b ch, op = .enter b ch → ∀ t, Reach c (Calm c) t → Calm c t op) → exec c s ops = .ok s' → Reach c (Calm c) s'
  | [], _, _, h, _, e => by cases e; exact h
  | op :: ops, s, s', h, hc, e => by
    unfold exec at e
    rw [bind_ok] at e
    obtain ⟨s1, h1, h2⟩ := e
    refine exec_calm ops (h.step ?_ h1) (fun o ho => hc o (List.mem_cons_of_mem _ ho)) h2
    cases op with
    | enter b ch => exact hc _ List.mem_cons_self b ch rfl s h
    | request _ _ _ _ => trivial
    | gossip _ => trivial
    | prune _ => trivial

/-- The state after a list of operations, or the start. -/
def after (c : Cfg) (s : St) (ops : List Op) : St := (exec c s ops).toOption.getD s

theorem exec_append {c : Cfg} : ∀ (l l' : List Op) (s : St), exec c s (l ++ l') = (exec c s l >>= fun t => exec c t l')
  | [], _, _ => rfl
  | op :: l, l', s => by
    simp only [List.cons_append, exec]
    cases step c s op with
    | error _ => rfl
    | ok s1 => exact exec_append l l' s1

/-- `calmOps` is a calm history. -/
theorem calm_reach : ∃ s, Reach cfg1 (Calm cfg1) s ∧
    getEventProof cfg1 s 0 = some ⟨0, [1500, 0, 1700, 1100], [507, 607, 707, 107], 2, 2⟩ ∧
    getXrplProof cfg1 s 1 = some ⟨1, [550, 650], [500, 600], 2, 3⟩ ∧
    s.told = [⟨1, [550, 650, 0, 150], [507, 607, 707, 107], 2, 3⟩, ⟨0, [1500, 0, 1700, 1100], [507, 607, 707, 107], 2, 2⟩] ∧
    getEventProof cfg1 s 1 = none := by
  have h1 : Reach cfg1 (Calm cfg1) (after cfg1 start [.enter 2 true]) := by
    refine (Reach.init start1).step (op := .enter 2 true) (.inr ⟨rfl, by decide, fun _ => rfl⟩) ?_
    rfl
  have go : ∀ (l : List Op) (s s' : St), Reach cfg1 (Calm cfg1) s → (∀ op ∈ l, ∀ b ch, op ≠ .enter b ch) → exec cfg1 s l = .ok s' →
      Reach cfg1 (Calm cfg1) s' := fun l s s' h hn e =>
    exec_calm l h (fun op ho b ch he => absurd he (hn op ho b ch)) e
  have h2 : Reach cfg1 (Calm cfg1) (after cfg1 start (calmOps.take 4)) := by
    refine go ((calmOps.take 4).drop 1) _ _ h1 ?_ rfl
    intro op ho b ch he
    subst he
    simp [calmOps, vote] at ho
  have h3 : Reach cfg1 (Calm cfg1) (after cfg1 start (calmOps.take 5)) := by
    refine h2.step (op := .enter 3 false) (.inl ⟨rfl, rfl⟩) ?_
    rfl
  refine ⟨after cfg1 start calmOps, go (calmOps.drop 5) _ _ h3 ?_ rfl, ?_, ?_, ?_, ?_⟩
  · intro op ho b ch he
    subst he
    simp [calmOps, vote] at ho
  · decide +kernel
  · decide +kernel
  · decide +kernel
  · decide +kernel

/-! ## At most one proof per event -/

theorem takeSets_CI {c : Cfg} {s : St} (h : CI s.rcd) (b : Nat) (ch : Bool) : CI (takeSets c s b ch).rcd := by
  unfold takeSets
  split
  · exact ⟨h.sorted, h.rej, h.sub, h.fresh, h.unvEv, h.once, h.made⟩
  · exact h

theorem advance_rcd {c : Cfg} {s : St} {r : Witness.St}
    (h : r.proofs = s.rcd.proofs ∨ ∃ p : Proof, r.proofs = p :: s.rcd.proofs) : (advance c s r).rcd = r := by
  rcases advance_cases c s r h with ⟨_, e⟩ | ⟨p, _, e⟩ <;> rw [e]
  rfl

/-- What a request or a vote does to the node: the record makes a step, with at most one new proof. -/
theorem record_step {c : Cfg} {s s' : St} {op : Op} (h : step c s op = .ok s') :
    (∃ b ch, op = .enter b ch) ∨ (∃ b, op = .prune b) ∨ ∃ (o : Witness.Op) (r : Witness.St) (q : Nat → Option (Nat × Chain × Nat)),
      Ordinary o ∧ Witness.step c.crypto s.rcd o = .ok r ∧ s' = advance c { s with req := q } r ∧
      (∀ e, e ∈ s.rcd.finalised → q e = s.req e) ∧
      (r.proofs = s.rcd.proofs ∨ ∃ p : Proof, r.proofs = p :: s.rcd.proofs) := by
  cases op with
  | enter b ch => exact .inl ⟨b, ch, rfl⟩
  | prune b => exact .inr (.inl ⟨b, rfl⟩)
  | request e ch data own =>
    right; right
    obtain ⟨_, hn, g, r0, h0, hm, _⟩ := request_split h
    simp only [step, bind_ok, ensure_ok, pure_ok] at h
    obtain ⟨_, _, r, hr, rfl⟩ := h
    have hq : ∀ x, x ∈ s.rcd.finalised → upd s.req e (some (s.best, ch, data)) x = s.req x := by
      intro x hx
      exact upd_ne _ _ (fun hxe => hn (hxe ▸ hx))
    cases own with
    | none =>
      refine ⟨_, r, _, ?_, hr, rfl, hq, ?_⟩
      · trivial
      · simp only [Witness.step, bind_ok, ensure_ok, pure_ok] at hr
        obtain ⟨_, _, rfl⟩ := hr
        have := (tryMakeProof_made' (c := c.crypto) (Witness.noteMeta { s.rcd with finalised := e :: s.rcd.finalised } e ch data) e).proofs
        exact this.imp id (fun ⟨p, e, _⟩ => ⟨p, e⟩)
    | some k =>
      refine ⟨_, r, _, ?_, hr, rfl, hq, ?_⟩
      · trivial
      · simp only [Witness.step, bind_ok, ensure_ok] at hr
        obtain ⟨_, _, hr⟩ := hr
        split at hr
        · simp only [pure_ok] at hr
          subst hr
          exact .inl rfl
        · rename_i d hd
          simp only [pure_ok] at hr
          subst hr
          have := (handleWitness_made' (c := c.crypto) (Witness.noteMeta { s.rcd with finalised := e :: s.rcd.finalised } e ch data)
            ⟨e, k.1, d, k.2⟩).proofs
          exact this.imp id (fun ⟨p, e, _⟩ => ⟨p, e⟩)
  | gossip w =>
    right; right
    simp only [step, bind_ok, pure_ok] at h
    obtain ⟨r, hr, rfl⟩ := h
    refine ⟨.gossip w, r, s.req, trivial, hr, rfl, fun _ _ => rfl, ?_⟩
    cases hr
    exact (handleWitness_made' (c := c.crypto) s.rcd w).proofs.imp id (fun ⟨p, e, _⟩ => ⟨p, e⟩)

theorem Reach.ci {c : Cfg} (hp : Positive c) {s : St} (h : Reach c (Calm c) s) : CI s.rcd := by
  induction h with
  | @init s g =>
    exact (Witness.reach_CI (c := c.crypto) (.init g.rcd ⟨by rw [g.held.thr]; exact (hp _).1, by rw [g.held.xthr]; exact (hp _).2⟩)).1
  | @step s s' op hr hc hs ih =>
    have hpos : PosSt s.rcd := ⟨by rw [hr.ni.held.thr]; exact (hp _).1, by rw [hr.ni.held.xthr]; exact (hp _).2⟩
    rcases record_step hs with ⟨b, ch, rfl⟩ | ⟨b, rfl⟩ | ⟨o, r, q, ho, h1, rfl, _, h2⟩
    · simp only [ProofRpc.step, bind_ok, ensure_ok, pure_ok] at hs
      obtain ⟨_, _, rfl⟩ := hs
      exact takeSets_CI ih b ch
    · cases hs
      exact ih
    · rw [advance_rcd (s := { s with req := q }) h2]
      exact (Witness.step_CI ih hpos (by cases o <;> first | trivial | exact absurd ho (by simp [Ordinary])) h1).1

/-! ## C208 -/

/-- The proof of this event for this chain has been made. -/
def ProvedFor (s : St) (ch : Chain) (e : Nat) : Prop := ∃ p ∈ s.rcd.proofs, p.event = e ∧ p.chain = ch

/-- **C208, in part** — once a proof is made, asking for it by its id and chain gives an answer, with that id, as long as the node
has the state of the block that requested it; asking before, or for the other chain, gives none. -/
theorem C208_served_partial {c : Cfg} {s : St} (h : Reach c (Calm c) s) {e : Nat} (he : e < 2 ^ 64)
    (hs : ∀ b ch data, s.req e = some (b, ch, data) → s.pruned b = false) :
    ((∃ r, getEventProof c s e = some r) ↔ ProvedFor s .ethereum e) ∧
    ((∃ r, getXrplProof c s e = some r) ↔ ProvedFor s .xrpl e) := by
  have hn := h.ni
  constructor <;> constructor
  · rintro ⟨r, hr⟩
    unfold getEventProof at hr
    rw [Option.bind_eq_some_iff] at hr
    obtain ⟨t, ht, _⟩ := hr
    obtain ⟨p, hp, _, h1, h2, _⟩ := found hn he ht
    exact ⟨p, hp, h2, h1⟩
  · rintro ⟨p, hp, rfl, hch⟩
    obtain ⟨t, ht⟩ := hn.all p hp
    rw [hch] at ht
    obtain ⟨_, _, b, _, _, h3, rfl, _⟩ := found hn he ht
    refine Option.isSome_iff_exists.mp ?_
    unfold getEventProof
    rw [ht]
    show (ethResponse c s _).isSome = true
    unfold ethResponse
    rw [if_neg (by rw [hs _ _ _ h3]; simp)]
    rfl
  · rintro ⟨r, hr⟩
    unfold getXrplProof at hr
    rw [Option.bind_eq_some_iff] at hr
    obtain ⟨t, ht, _⟩ := hr
    obtain ⟨p, hp, _, h1, h2, _⟩ := found hn he ht
    exact ⟨p, hp, h2, h1⟩
  · rintro ⟨p, hp, rfl, hch⟩
    obtain ⟨t, ht⟩ := hn.all p hp
    rw [hch] at ht
    obtain ⟨_, _, b, _, _, h3, rfl, _⟩ := found hn he ht
    refine Option.isSome_iff_exists.mp ?_
    unfold getXrplProof
    rw [ht]
    show (xrplResponse c s _).isSome = true
    unfold xrplResponse
    rw [if_neg (by rw [hs _ _ _ h3]; simp)]
    rfl

/-- What is stored for an event stays. -/
theorem db_kept {c : Cfg} (hp : Positive c) {s s' : St} (h : Reach c (Calm c) s) {op : Op} (hc : Calm c s op)
    (hs : step c s op = .ok s') {ch : Chain} {e : Nat} (he : e < 2 ^ 64) {t : Stored} (ht : s.db (proofKey ch e) = some t) :
    s'.db (proofKey ch e) = some t := by
  have hci' : CI s'.rcd := (h.step hc hs).ci hp
  have hn := h.ni
  obtain ⟨p, hpp, b, h1, h2, h3, rfl, _⟩ := found hn he ht
  rcases record_step hs with ⟨b, chg, rfl⟩ | ⟨b, rfl⟩ | ⟨o, r, q, ho, hst, rfl, _, hpr⟩
  · simp only [step, bind_ok, ensure_ok, pure_ok] at hs
    obtain ⟨_, _, rfl⟩ := hs
    dsimp only
    unfold takeSets
    split <;> exact ht
  · cases hs
    exact ht
  · rw [advance_rcd (s := { s with req := q }) hpr] at hci'
    rcases advance_cases c { s with req := q } r hpr with ⟨_, e1⟩ | ⟨p', e0, e1⟩ <;> rw [e1]
    · exact ht
    · show upd s.db (proofKey p'.chain p'.event) _ (proofKey ch e) = _
      by_cases hk : proofKey ch e = proofKey p'.chain p'.event
      · exfalso
        have hn' := (h.step hc hs).ni
        rw [e1] at hn'
        have hp' : p' ∈ r.proofs := by rw [e0]; exact List.mem_cons_self
        obtain ⟨_, _, _, _, _, hlt⟩ := hn'.proofs p' hp'
        obtain ⟨_, rfl⟩ := proofKey_inj he hlt hk
        have hnd := hci'.once
        rw [← hci'.made, e0] at hnd
        have hnd := (List.nodup_cons.mp (by rw [List.map_cons] at hnd; exact hnd)).1
        exact hnd (List.mem_map.mpr ⟨p, hpp, h2⟩)
      · rw [upd_ne _ _ hk]
        exact ht

theorem pruned_kept {c : Cfg} {s s' : St} {op : Op} (hs : step c s op = .ok s') {b : Nat} (hb : op ≠ .prune b) : s'.pruned b = s.pruned b := by
  rcases record_step hs with ⟨b', chg, rfl⟩ | ⟨b', rfl⟩ | ⟨o, r, q, ho, hst, rfl, _, hpr⟩
  · simp only [step, bind_ok, ensure_ok, pure_ok] at hs
    obtain ⟨_, _, rfl⟩ := hs
    dsimp only
    unfold takeSets
    split <;> rfl
  · cases hs
    exact upd_ne _ _ (fun e => hb (by rw [e]))
  · rcases advance_cases c { s with req := q } r hpr with ⟨_, e1⟩ | ⟨p', e0, e1⟩ <;> rw [e1] <;> rfl

/-- **C208, in part** — the answer never changes: whatever happens later, the same question gets the same answer, until the node
drops the state of the block that requested the proof. For sets that need at least one signature. -/
theorem C208_stable_partial {c : Cfg} (hp : Positive c) {s s' : St} (h : Reach c (Calm c) s) {op : Op} (hc : Calm c s op)
    (hs : step c s op = .ok s') {e : Nat} (he : e < 2 ^ 64) :
    (∀ r, getEventProof c s e = some r → op ≠ .prune r.block → getEventProof c s' e = some r) ∧
    (∀ r, getXrplProof c s e = some r → op ≠ .prune r.block → getXrplProof c s' e = some r) := by
  constructor
  · intro r hr hop
    unfold getEventProof at hr ⊢
    rw [Option.bind_eq_some_iff] at hr ⊢
    obtain ⟨t, ht, hr⟩ := hr
    refine ⟨t, db_kept hp h hc hs he ht, ?_⟩
    unfold ethResponse at hr ⊢
    split at hr
    · cases hr
    · rename_i hnp
      cases hr
      rw [pruned_kept hs hop, if_neg hnp]
  · intro r hr hop
    unfold getXrplProof at hr ⊢
    rw [Option.bind_eq_some_iff] at hr ⊢
    obtain ⟨t, ht, hr⟩ := hr
    refine ⟨t, db_kept hp h hc hs he ht, ?_⟩
    unfold xrplResponse at hr ⊢
    split at hr
    · cases hr
    · rename_i hnp
      cases hr
      rw [pruned_kept hs hop, if_neg hnp]

example : Positive cfg1 := fun b => by
  unfold cfg1
  dsimp only
  constructor <;> split <;> decide

/-- **C208, subscribers** — when a node makes a proof, it sends its subscribers the answer that asking would give. -/
theorem C208_subscribers {c : Cfg} {s s' : St} (h : Reach c (Calm c) s) {op : Op} (hc : Calm c s op) (hs : step c s op = .ok s') :
    s'.rcd.proofs = s.rcd.proofs ∧ s'.told = s.told ∨ ∃ p : Proof, s'.rcd.proofs = p :: s.rcd.proofs ∧
      (p.chain = .ethereum → s'.told = (getEventProof c s' p.event).toList ++ s.told) := by
  rcases record_step hs with ⟨b, chg, rfl⟩ | ⟨b, rfl⟩ | ⟨o, r, q, ho, hst, rfl, _, hpr⟩
  · left
    simp only [step, bind_ok, ensure_ok, pure_ok] at hs
    obtain ⟨_, _, rfl⟩ := hs
    dsimp only
    unfold takeSets
    split <;> exact ⟨rfl, rfl⟩
  · cases hs
    exact .inl ⟨rfl, rfl⟩
  · rcases advance_cases c { s with req := q } r hpr with ⟨e0, e1⟩ | ⟨p', e0, e1⟩ <;> rw [e1]
    · exact .inl ⟨e0, rfl⟩
    · refine .inr ⟨p', e0, ?_⟩
      intro hch
      unfold getEventProof publish
      dsimp only
      rw [hch, upd_same]
      rfl

/-! ## C208 fails -/

/-- **C208 fails** — a node that drops old state stops giving out the proofs it has made and still has in its database. -/
theorem C208_pruned_refuted : ∃ s s', Reach cfg1 (Calm cfg1) s ∧ Reach cfg1 (Calm cfg1) s' ∧ (∃ r, getEventProof cfg1 s 0 = some r) ∧
    ProvedFor s' .ethereum 0 ∧ (s'.db (proofKey .ethereum 0)).isSome = true ∧ getEventProof cfg1 s' 0 = none := by
  obtain ⟨s, h, h1, _⟩ := calm_reach
  have h0 := h1
  have hn := h.ni
  unfold getEventProof at h1
  rw [Option.bind_eq_some_iff] at h1
  obtain ⟨t, ht, hr⟩ := h1
  obtain ⟨p, hp, b, k1, k2, k3, k4, _⟩ := found hn (by decide) ht
  refine ⟨s, { s with pruned := upd s.pruned t.block true }, h, h.step (op := .prune t.block) trivial rfl, ⟨_, h0⟩, ⟨p, hp, k2, k1⟩, ?_, ?_⟩
  · dsimp only
    rw [ht]
    rfl
  · unfold getEventProof
    dsimp only
    rw [ht]
    show ethResponse _ _ t = none
    unfold ethResponse
    rw [if_pos]
    exact upd_same _ _ _

/-- **C208 fails** — subscribers to Ethereum proofs are sent the proofs of XRPL transactions as well, in the same form, with all
signatures for XRPL at the validators' positions; asking for such a proof gives none. -/
theorem C208_chain_refuted : ∃ s, Reach cfg1 (Calm cfg1) s ∧ ∃ r ∈ s.told, r.event = 1 ∧ r.sigs ≠ [] ∧
    getEventProof cfg1 s 1 = none := by
  obtain ⟨s, h, _, _, ht, hn⟩ := calm_reach
  refine ⟨s, h, ⟨1, [550, 650, 0, 150], [507, 607, 707, 107], 2, 3⟩, ?_, rfl, by simp, hn⟩
  rw [ht]
  exact List.mem_cons_self

end Verif.ProofRpc
