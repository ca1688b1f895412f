import Verif.ProofRpc.Model

/-! # What holds of a node that serves proofs -/

namespace Verif.ProofRpc

open Witness (Chain Wit Proof Signed SI CI PosSt authIndex)

/-! ## Signatures and the set they were collected for -/

/-- Signatures are by the validators at their indices: for open events of the set held, for proofs of the set they name. -/
structure EI (c : Witness.Cfg) (s : Witness.St) : Prop where
  ver : ∀ e, ∀ q ∈ s.wit e, ∃ m, s.evMeta e = some m ∧ Signed c (fun i a => authIndex s.vals a = some i) m q
  proofs : ∀ p ∈ s.proofs, ∀ q ∈ p.sigs, Signed c (fun i a => authIndex p.vals a = some i) (p.chain, p.data) q

theorem note_EI {c : Witness.Cfg} {s s' : Witness.St} {w : Wit} (h : EI c s) (hn : Witness.note c s w = .ok s') : EI c s' := by
  obtain ⟨_, _, ⟨_, rfl⟩ | ⟨m, i, hm, hd, hv, hi, rfl⟩⟩ := Witness.note_ok hn
  · exact ⟨h.ver, h.proofs⟩
  · refine ⟨?_, h.proofs⟩
    intro e q hq
    dsimp only at hq ⊢
    by_cases he : e = w.event
    · subst he
      rw [upd_same] at hq
      rcases Witness.mem_insertIdx hq with rfl | hq
      · exact ⟨m, hm, w.auth, w.digest, hd, hv, hi⟩
      · exact h.ver _ q hq
    · rw [upd_ne _ _ he] at hq
      exact h.ver e q hq

theorem processUnverified_EI {c : Witness.Cfg} {s : Witness.St} (h : EI c s) (e : Nat) : EI c (Witness.processUnverified c s e) :=
  Witness.processUnverified_ind (Q := EI c) ⟨h.ver, h.proofs⟩ (fun _ _ _ ht _ hn => note_EI ht hn)

theorem tryMakeProof_EI {c : Witness.Cfg} {s : Witness.St} (h : EI c s) (e : Nat) : EI c (Witness.tryMakeProof c s e) := by
  have hf := Witness.processUnverified_frame (c := c) s e
  have h1 := processUnverified_EI h e
  rcases Witness.tryMakeProof_cases c s e with ⟨_, e1⟩ | ⟨m, hm, ⟨_, e1⟩ | ⟨hc, e1⟩⟩ <;> rw [e1]
  · exact h
  · exact h1
  · refine ⟨?_, ?_⟩
    · intro x p hp
      unfold Witness.markComplete at hp ⊢
      dsimp only at hp ⊢
      by_cases hx : x = e
      · subst hx; rw [upd_same] at hp; cases hp
      · rw [upd_ne _ _ hx] at hp ⊢; exact h1.ver x p hp
    · intro p hp
      unfold Witness.markComplete at hp
      dsimp only at hp
      rcases List.mem_cons.mp hp with rfl | hp
      · intro q hq
        obtain ⟨m', hm', hs⟩ := h1.ver e q hq
        rw [hf.evMeta, hm] at hm'
        cases hm'
        exact hs
      · exact h1.proofs p hp

theorem handleWitness_EI {c : Witness.Cfg} {s : Witness.St} (h : EI c s) (w : Wit) : EI c (Witness.handleWitness c s w) := by
  unfold Witness.handleWitness
  split
  · rename_i s1 hn
    exact tryMakeProof_EI (note_EI h hn) _
  · exact h

theorem noteMeta_EI {c : Witness.Cfg} {s : Witness.St} (h : EI c s) (e : Nat) (ch : Chain) (data : Nat)
    (f : List Nat) : EI c (Witness.noteMeta { s with finalised := f } e ch data) := by
  refine ⟨?_, h.proofs⟩
  intro x p hp
  obtain ⟨m, hm, hs⟩ := h.ver x p hp
  refine ⟨m, ?_, hs⟩
  unfold Witness.noteMeta
  dsimp only
  by_cases hx : x = e
  · subst hx; rw [upd_same, hm]; rfl
  · rw [upd_ne _ _ hx]; exact hm

/-- An operation other than a change of sets. -/
def Ordinary : Witness.Op → Prop
  | .setVals _ _ _ _ => False
  | _ => True

theorem step_EI {c : Witness.Cfg} {s s' : Witness.St} {op : Witness.Op} (h : EI c s) (ho : Ordinary op)
    (hs : Witness.step c s op = .ok s') : EI c s' := by
  cases op with
  | finalPassive e ch data =>
    simp only [Witness.step, bind_ok, ensure_ok, pure_ok] at hs
    obtain ⟨_, hn, rfl⟩ := hs
    exact tryMakeProof_EI (noteMeta_EI h e ch data _) e
  | finalActive e ch data auth sig =>
    simp only [Witness.step, bind_ok, ensure_ok] at hs
    obtain ⟨_, hn, hs⟩ := hs
    split at hs
    · simp only [pure_ok] at hs
      subst hs
      exact ⟨h.ver, h.proofs⟩
    · simp only [pure_ok] at hs
      subst hs
      exact handleWitness_EI (noteMeta_EI h e ch data _) _
  | gossip w => cases hs; exact handleWitness_EI h w
  | setVals vals thr xvals xthr => exact absurd ho (by simp [Ordinary])

/-! ## What one operation of the record does -/

/-- The sets stay; at most one proof is made, for an event with known request; requests are only forgotten. -/
structure Made (s s' : Witness.St) : Prop where
  vals : s'.vals = s.vals
  thr : s'.thr = s.thr
  xvals : s'.xvals = s.xvals
  xthr : s'.xthr = s.xthr
  fin : s'.finalised = s.finalised
  evMeta : ∀ e m, s'.evMeta e = some m → s.evMeta e = some m
  proofs : s'.proofs = s.proofs ∨ ∃ p : Proof, s'.proofs = p :: s.proofs ∧ s.evMeta p.event = some (p.chain, p.data) ∧
    p.vals = s.vals ∧ p.xvals = s.xvals ∧ p.need = Witness.threshold s p.chain

theorem tryMakeProof_made' {c : Witness.Cfg} (s : Witness.St) (e : Nat) : Made s (Witness.tryMakeProof c s e) := by
  have hf := Witness.processUnverified_frame (c := c) s e
  rcases Witness.tryMakeProof_cases c s e with ⟨_, e1⟩ | ⟨m, hm, ⟨_, e1⟩ | ⟨hc, e1⟩⟩ <;> rw [e1]
  · exact ⟨rfl, rfl, rfl, rfl, rfl, fun _ _ h => h, .inl rfl⟩
  · exact ⟨hf.vals, hf.thr, hf.xvals, hf.xthr, hf.finalised, fun e m h => by rw [hf.evMeta] at h; exact h, .inl hf.proofs⟩
  · refine ⟨hf.vals, hf.thr, hf.xvals, hf.xthr, hf.finalised, ?_,
      .inr ⟨⟨e, m.1, m.2, (Witness.processUnverified c s e).vals, (Witness.processUnverified c s e).xvals,
        Witness.threshold (Witness.processUnverified c s e) m.1, (Witness.processUnverified c s e).wit e⟩, ?_, hm, hf.vals,
        hf.xvals, ?_⟩⟩
    · intro x m' hx
      unfold Witness.markComplete at hx
      dsimp only at hx
      by_cases hxe : x = e
      · subst hxe; rw [upd_same] at hx; cases hx
      · rw [upd_ne _ _ hxe, hf.evMeta] at hx; exact hx
    · unfold Witness.markComplete
      dsimp only
      rw [hf.proofs]
    · dsimp only
      unfold Witness.threshold
      cases m.1 with
      | ethereum => exact hf.thr
      | xrpl => exact hf.xthr

theorem handleWitness_made' {c : Witness.Cfg} (s : Witness.St) (w : Wit) : Made s (Witness.handleWitness c s w) := by
  unfold Witness.handleWitness
  split
  · rename_i s1 hn
    have hf := Witness.note_frame hn
    have h := tryMakeProof_made' (c := c) s1 w.event
    refine ⟨h.vals.trans hf.vals, h.thr.trans hf.thr, h.xvals.trans hf.xvals, h.xthr.trans hf.xthr, h.fin.trans hf.finalised, ?_, ?_⟩
    · intro e m he
      have := h.evMeta e m he
      rw [hf.evMeta] at this
      exact this
    · rcases h.proofs with h1 | ⟨p, h1, h2, h3, h4, h5⟩
      · exact .inl (h1.trans hf.proofs)
      · rw [hf.proofs] at h1
        rw [hf.evMeta] at h2
        refine .inr ⟨p, h1, h2, h3.trans hf.vals, h4.trans hf.xvals, h5.trans ?_⟩
        unfold Witness.threshold
        cases p.chain with
        | ethereum => exact hf.thr
        | xrpl => exact hf.xthr
  · exact ⟨rfl, rfl, rfl, rfl, rfl, fun _ _ h => h, .inl rfl⟩

/-! ## The node -/

/-- All validator sets need at least one signature. -/
def Positive (c : Cfg) : Prop := ∀ b, 1 ≤ (c.vals b).thr ∧ 1 ≤ (c.xrpl b).thr

/-- The sets held before and after are the same. -/
structure Same (s t : St) : Prop where
  vals : t.rcd.vals = s.rcd.vals
  thr : t.rcd.thr = s.rcd.thr
  xvals : t.rcd.xvals = s.rcd.xvals
  xthr : t.rcd.xthr = s.rcd.xthr
  id : t.setId = s.setId

/-- Calm histories: the sets of a block are those of the one before, or the block logs the change, the set of validators has a
new id, and all requested proofs have been made. -/
def Calm (c : Cfg) (s : St) : Op → Prop
  | .enter b change => c.vals b = c.vals s.best ∧ c.xrpl b = c.xrpl s.best ∨
      change = true ∧ (c.vals b).id ≠ (c.vals s.best).id ∧ ∀ e, s.rcd.evMeta e = none
  | _ => True

/-- The threshold of a chain in a block. -/
def need (c : Cfg) (b : Nat) : Chain → Nat
  | .ethereum => (c.vals b).thr
  | .xrpl => (c.xrpl b).thr

structure NI (c : Cfg) (s : St) : Prop where
  ei : EI c.crypto s.rcd
  si : SI c.crypto (fun _ _ => True) s.rcd
  held : Held c s s.best
  fin : ∀ e, e ∉ s.rcd.finalised → s.req e = none
  evMeta : ∀ e m, s.rcd.evMeta e = some m → ∃ b, s.req e = some (b, m) ∧ Held c s b ∧ e < 2 ^ 64 ∧ e ∈ s.rcd.finalised
  proofs : ∀ p ∈ s.rcd.proofs, ∃ b, s.req p.event = some (b, p.chain, p.data) ∧ p.vals = (c.vals b).keys ∧
    p.xvals = (c.xrpl b).keys ∧ p.need = need c b p.chain ∧ p.event < 2 ^ 64
  db : ∀ k t, s.db k = some t → ∃ p ∈ s.rcd.proofs, ∃ b, k = proofKey p.chain p.event ∧ s.req p.event = some (b, p.chain, p.data) ∧
    t = ⟨p.event, b, p.sigs⟩
  all : ∀ p ∈ s.rcd.proofs, ∃ t, s.db (proofKey p.chain p.event) = some t

theorem Held.threshold {c : Cfg} {s : St} {b : Nat} (h : Held c s b) (ch : Chain) : Witness.threshold s.rcd ch = need c b ch := by
  cases ch with
  | ethereum => exact h.thr
  | xrpl => exact h.xthr

/-- Taking over a record that made at most one proof. -/
theorem advance_cases (c : Cfg) (s : St) (r : Witness.St) (h : r.proofs = s.rcd.proofs ∨ ∃ p : Proof, r.proofs = p :: s.rcd.proofs) :
    (r.proofs = s.rcd.proofs ∧ advance c s r = { s with rcd := r }) ∨
    (∃ p : Proof, r.proofs = p :: s.rcd.proofs ∧ advance c s r = publish c { s with rcd := r } p) := by
  rcases h with h | ⟨p, h⟩
  · left
    refine ⟨h, ?_⟩
    unfold advance
    rw [h, Nat.sub_self]
    rfl
  · right
    refine ⟨p, h, ?_⟩
    unfold advance
    have : (p :: s.rcd.proofs).length - s.rcd.proofs.length = 1 := by
      rw [List.length_cons]; omega
    rw [h, this]
    rfl

/-- The record moves on and what it proved is stored. -/
theorem advance_NI {c : Cfg} {s : St} {r : Witness.St} (h : NI c s) (hm : Made s.rcd r) (he : EI c.crypto r)
    (hsi : SI c.crypto (fun _ _ => True) r) : NI c (advance c s r) := by
  have hh : ∀ b, Held c s b → Held c { s with rcd := r } b := fun b k =>
    ⟨hm.vals.trans k.vals, hm.thr.trans k.thr, hm.xvals.trans k.xvals, hm.xthr.trans k.xthr, k.id⟩
  have hev : ∀ e m, r.evMeta e = some m → ∃ b, s.req e = some (b, m) ∧ Held c { s with rcd := r } b ∧ e < 2 ^ 64 ∧ e ∈ r.finalised := by
    intro e m hem
    obtain ⟨b, h1, h2, h3, h4⟩ := h.evMeta e m (hm.evMeta e m hem)
    exact ⟨b, h1, hh b h2, h3, by rw [hm.fin]; exact h4⟩
  have hpr : ∀ p ∈ r.proofs, ∃ b, s.req p.event = some (b, p.chain, p.data) ∧ p.vals = (c.vals b).keys ∧
    p.xvals = (c.xrpl b).keys ∧ p.need = need c b p.chain ∧ p.event < 2 ^ 64 := by
    intro p hp
    rcases hm.proofs with e | ⟨p', e, h2, h3, h4, h5⟩
    · exact h.proofs p (e ▸ hp)
    · rw [e] at hp
      rcases List.mem_cons.mp hp with rfl | hp
      · obtain ⟨b, k1, k2, k3, _⟩ := h.evMeta _ _ h2
        exact ⟨b, k1, h3.trans k2.vals, h4.trans k2.xvals, h5.trans (k2.threshold _), k3⟩
      · exact h.proofs p hp
  have hfin : ∀ e, e ∉ r.finalised → s.req e = none := fun e hn => h.fin e (by rw [← hm.fin]; exact hn)
  rcases advance_cases c s r (hm.proofs.imp id (fun ⟨p, e, _⟩ => ⟨p, e⟩)) with ⟨e, ha⟩ | ⟨p, e, ha⟩ <;> rw [ha]
  · refine ⟨he, hsi, hh _ h.held, hfin, hev, hpr, ?_, ?_⟩
    · intro k t hk
      obtain ⟨p, hp, b, hb⟩ := h.db k t hk
      exact ⟨p, (by rw [e]; exact hp : p ∈ r.proofs), b, hb⟩
    · intro p hp
      have hp : p ∈ r.proofs := hp
      rw [e] at hp
      exact h.all p hp
  · have hpin : p ∈ r.proofs := by rw [e]; exact List.mem_cons_self
    refine ⟨he, hsi, ⟨(hh _ h.held).vals, (hh _ h.held).thr, (hh _ h.held).xvals, (hh _ h.held).xthr, (hh _ h.held).id⟩, hfin, ?_, hpr, ?_, ?_⟩
    · intro x m hx
      obtain ⟨b, h1, h2, h3, h4⟩ := hev x m hx
      exact ⟨b, h1, ⟨h2.vals, h2.thr, h2.xvals, h2.xthr, h2.id⟩, h3, h4⟩
    · intro k t hk
      unfold publish at hk
      dsimp only at hk
      by_cases hkk : k = proofKey p.chain p.event
      · subst hkk
        rw [upd_same, Option.some.injEq] at hk
        obtain ⟨b, k1, _⟩ := hpr p hpin
        refine ⟨p, hpin, b, rfl, k1, ?_⟩
        rw [← hk, k1]
        rfl
      · rw [upd_ne _ _ hkk] at hk
        obtain ⟨q, hq, b, hb⟩ := h.db k t hk
        exact ⟨q, (by rw [e]; exact List.mem_cons_of_mem _ hq : q ∈ r.proofs), b, hb⟩
    · intro q hq
      have hq : q ∈ r.proofs := hq
      rw [e] at hq
      show ∃ t, upd s.db (proofKey p.chain p.event) _ (proofKey q.chain q.event) = some t
      by_cases hkk : proofKey q.chain q.event = proofKey p.chain p.event
      · rw [hkk, upd_same]
        exact ⟨_, rfl⟩
      · rw [upd_ne _ _ hkk]
        rcases List.mem_cons.mp hq with rfl | hq
        · exact absurd rfl hkk
        · exact h.all q hq

/-- A request is noted. -/
theorem request_NI {c : Cfg} {s : St} (h : NI c s) {e : Nat} (he : e < 2 ^ 64) (hn : e ∉ s.rcd.finalised) (ch : Chain) (data : Nat)
    (g : Bool) : NI c { s with
      req := upd s.req e (some (s.best, ch, data))
      rcd := if g then Witness.noteMeta { s.rcd with finalised := e :: s.rcd.finalised } e ch data
        else { s.rcd with finalised := e :: s.rcd.finalised } } := by
  have hne : ∀ x m, s.rcd.evMeta x = some m → x ≠ e := by
    rintro x m hx rfl
    obtain ⟨_, _, _, _, h4⟩ := h.evMeta _ m hx
    exact hn h4
  have hnp : ∀ p ∈ s.rcd.proofs, p.event ≠ e := by
    intro p hp hpe
    obtain ⟨b, h1, _⟩ := h.proofs p hp
    rw [hpe, h.fin e hn] at h1
    cases h1
  have hbase : ∀ (r : Witness.St), r.vals = s.rcd.vals → r.thr = s.rcd.thr → r.xvals = s.rcd.xvals → r.xthr = s.rcd.xthr →
      r.proofs = s.rcd.proofs → r.finalised = e :: s.rcd.finalised → EI c.crypto r → SI c.crypto (fun _ _ => True) r →
      (∀ x m, r.evMeta x = some m → x = e ∧ m = (ch, data) ∨ s.rcd.evMeta x = some m) →
      NI c { s with
        req := upd s.req e (some (s.best, ch, data))
        rcd := r } := by
    intro r r1 r2 r3 r4 r5 r6 r7 r8 r9
    have hh : ∀ b, Held c s b → Held c { s with
        req := upd s.req e (some (s.best, ch, data))
        rcd := r } b := fun b k => ⟨r1.trans k.vals, r2.trans k.thr, r3.trans k.xvals, r4.trans k.xthr, k.id⟩
    refine ⟨r7, r8, ⟨(hh _ h.held).vals, (hh _ h.held).thr, (hh _ h.held).xvals, (hh _ h.held).xthr, (hh _ h.held).id⟩, ?_, ?_, ?_, ?_, ?_⟩
    · intro x hx
      dsimp only at hx ⊢
      rw [r6] at hx
      have : x ≠ e := fun hxe => hx (by rw [hxe]; exact List.mem_cons_self)
      rw [upd_ne _ _ this]
      exact h.fin x (fun hm => hx (List.mem_cons_of_mem _ hm))
    · intro x m hx
      dsimp only at hx ⊢
      rcases r9 x m hx with ⟨rfl, rfl⟩ | hx
      · exact ⟨s.best, by rw [upd_same], hh _ h.held, he, by rw [r6]; exact List.mem_cons_self⟩
      · obtain ⟨b, h1, h2, h3, h4⟩ := h.evMeta x m hx
        exact ⟨b, by rw [upd_ne _ _ (hne x m hx)]; exact h1, hh b h2, h3, by rw [r6]; exact List.mem_cons_of_mem _ h4⟩
    · intro p hp
      dsimp only at hp ⊢
      rw [r5] at hp
      rw [upd_ne _ _ (hnp p hp)]
      exact h.proofs p hp
    · intro k t hk
      dsimp only at hk ⊢
      obtain ⟨p, hp, b, h1, h2, h3⟩ := h.db k t hk
      exact ⟨p, by rw [r5]; exact hp, b, h1, by rw [upd_ne _ _ (hnp p hp)]; exact h2, h3⟩
    · intro p hp
      dsimp only at hp ⊢
      rw [r5] at hp
      exact h.all p hp
  cases g with
  | true =>
    refine hbase _ rfl rfl rfl rfl rfl rfl (noteMeta_EI h.ei e ch data _) (Witness.noteMeta_SI h.si e ch data _) ?_
    intro x m hx
    have hx : upd s.rcd.evMeta e (some ((s.rcd.evMeta e).getD (ch, data))) x = some m := hx
    by_cases hxe : x = e
    · subst hxe
      rw [upd_same, Option.some.injEq] at hx
      cases hv : s.rcd.evMeta x with
      | none => rw [hv] at hx; exact .inl ⟨rfl, hx.symm⟩
      | some m' => exact absurd rfl (hne x m' hv)
    · rw [upd_ne _ _ hxe] at hx
      exact .inr hx
  | false => exact hbase _ rfl rfl rfl rfl rfl rfl ⟨h.ei.ver, h.ei.proofs⟩ ⟨h.si.sorted, h.si.ver, h.si.proofs⟩ (fun x m hx => .inr hx)

/-- In calm histories the node follows the sets of the latest block. -/
theorem calm_held {c : Cfg} {s : St} (h : Held c s s.best) {b : Nat} {change : Bool} (hc : Calm c s (.enter b change)) :
    Held c (takeSets c s b change) b ∧ ((∀ e, s.rcd.evMeta e = none) ∨ Same s (takeSets c s b change)) := by
  rcases hc with ⟨h1, h2⟩ | ⟨h1, h2, h3⟩
  · have hs : Same s (takeSets c s b change) := by
      unfold takeSets
      rw [h1, h2]
      split
      · exact ⟨h.vals.symm, h.thr.symm, h.xvals.symm, h.xthr.symm, h.id.symm⟩
      · exact ⟨rfl, rfl, rfl, rfl, rfl⟩
    exact ⟨⟨by rw [hs.vals, h.vals, h1], by rw [hs.thr, h.thr, h1], by rw [hs.xvals, h.xvals, h2], by rw [hs.xthr, h.xthr, h2],
      by rw [hs.id, h.id, h1]⟩, .inr hs⟩
  · refine ⟨?_, .inl h3⟩
    unfold takeSets
    rw [if_pos ⟨.inl h1, .inl (by rw [h.id]; exact h2)⟩]
    exact ⟨rfl, rfl, rfl, rfl, rfl⟩

theorem enter_NI {c : Cfg} {s : St} (h : NI c s) {b : Nat} {change : Bool} (hc : Calm c s (.enter b change)) :
    NI c { takeSets c s b change with best := b } := by
  obtain ⟨h1, h2⟩ := calm_held h.held hc
  have hfr : (takeSets c s b change).rcd.evMeta = s.rcd.evMeta ∧ (takeSets c s b change).rcd.wit = s.rcd.wit ∧
      (takeSets c s b change).rcd.proofs = s.rcd.proofs ∧ (takeSets c s b change).rcd.finalised = s.rcd.finalised ∧
      (takeSets c s b change).req = s.req ∧ (takeSets c s b change).db = s.db := by
    unfold takeSets
    split <;> exact ⟨rfl, rfl, rfl, rfl, rfl, rfl⟩
  obtain ⟨f1, f2, f3, f4, f5, f6⟩ := hfr
  refine ⟨⟨?_, ?_⟩, ⟨?_, ?_, ?_⟩, ⟨h1.vals, h1.thr, h1.xvals, h1.xthr, h1.id⟩, ?_, ?_, ?_, ?_, ?_⟩
  · intro e q hq
    dsimp only at hq ⊢
    rw [f2] at hq
    obtain ⟨m, hm, hs⟩ := h.ei.ver e q hq
    rcases h2 with h2 | h2
    · rw [h2 e] at hm; cases hm
    · exact ⟨m, by rw [f1]; exact hm, by rw [h2.vals]; exact hs⟩
  · intro p hp
    dsimp only at hp
    rw [f3] at hp
    exact h.ei.proofs p hp
  · intro e
    dsimp only
    rw [f2]
    exact h.si.sorted e
  · intro e q hq
    dsimp only at hq ⊢
    rw [f2] at hq
    rw [f1]
    exact h.si.ver e q hq
  · intro p hp
    dsimp only at hp
    rw [f3] at hp
    exact h.si.proofs p hp
  · intro e he
    dsimp only at he ⊢
    rw [f4] at he
    rw [f5]
    exact h.fin e he
  · intro e m hm
    dsimp only at hm ⊢
    rw [f1] at hm
    rcases h2 with h2 | h2
    · rw [h2 e] at hm; cases hm
    · obtain ⟨b', k1, k2, k3, k4⟩ := h.evMeta e m hm
      exact ⟨b', by rw [f5]; exact k1, ⟨h2.vals.trans k2.vals, h2.thr.trans k2.thr, h2.xvals.trans k2.xvals,
        h2.xthr.trans k2.xthr, h2.id.trans k2.id⟩, k3, by rw [f4]; exact k4⟩
  · intro p hp
    dsimp only at hp ⊢
    rw [f3] at hp
    rw [f5]
    exact h.proofs p hp
  · intro k t hk
    dsimp only at hk ⊢
    rw [f6] at hk
    rw [f3, f5]
    exact h.db k t hk
  · intro p hp
    dsimp only at hp ⊢
    rw [f3] at hp
    rw [f6]
    exact h.all p hp

/-- A request as two steps: it is noted, then the record moves on. -/
theorem request_split {c : Cfg} {s s' : St} {e : Nat} {ch : Chain} {data : Nat} {own : Option (Nat × Nat)}
    (h : step c s (.request e ch data own) = .ok s') : e < 2 ^ 64 ∧ e ∉ s.rcd.finalised ∧ ∃ (g : Bool) (r : Witness.St),
    (let t : St := { s with
        req := upd s.req e (some (s.best, ch, data))
        rcd := if g then Witness.noteMeta { s.rcd with finalised := e :: s.rcd.finalised } e ch data
          else { s.rcd with finalised := e :: s.rcd.finalised } }
     s' = advance c t r ∧ Made t.rcd r ∧ (EI c.crypto t.rcd → EI c.crypto r) ∧
       (SI c.crypto (fun _ _ => True) t.rcd → SI c.crypto (fun _ _ => True) r)) := by
  simp only [step, bind_ok, ensure_ok, pure_ok] at h
  obtain ⟨_, he, r, hr, rfl⟩ := h
  cases own with
  | none =>
    simp only [Witness.step, bind_ok, ensure_ok, pure_ok] at hr
    obtain ⟨_, hn, rfl⟩ := hr
    refine ⟨he, hn, true, _, rfl, tryMakeProof_made' _ _, fun k => tryMakeProof_EI k _,
      fun k => Witness.tryMakeProof_SI k (fun _ _ _ => trivial) _⟩
  | some k =>
    simp only [Witness.step, bind_ok, ensure_ok] at hr
    obtain ⟨_, hn, hr⟩ := hr
    split at hr
    · simp only [pure_ok] at hr
      subst hr
      exact ⟨he, hn, false, _, rfl, ⟨rfl, rfl, rfl, rfl, rfl, fun _ _ h => h, .inl rfl⟩, fun k => k, fun k => k⟩
    · simp only [pure_ok] at hr
      subst hr
      exact ⟨he, hn, true, _, rfl, handleWitness_made' _ _, fun k => handleWitness_EI k _,
        fun k => Witness.handleWitness_SI k (fun _ _ _ => trivial) _⟩

theorem step_NI {c : Cfg} {s s' : St} {op : Op} (h : NI c s) (hc : Calm c s op) (hs : step c s op = .ok s') : NI c s' := by
  cases op with
  | enter b change =>
    simp only [step, bind_ok, ensure_ok, pure_ok] at hs
    obtain ⟨_, _, rfl⟩ := hs
    exact enter_NI h hc
  | request e ch data own =>
    obtain ⟨he, hn, g, r, rfl, hm, h1, h2⟩ := request_split hs
    have h0 := request_NI h he hn ch data g
    exact advance_NI h0 hm (h1 h0.ei) (h2 h0.si)
  | gossip w =>
    simp only [step, Witness.step, bind_ok, pure_ok] at hs
    obtain ⟨r, hr, rfl⟩ := hs
    cases hr
    exact advance_NI h (handleWitness_made' _ _) (handleWitness_EI h.ei _) (Witness.handleWitness_SI h.si (fun _ _ _ => trivial) _)
  | prune b =>
    cases hs
    exact ⟨h.ei, h.si, ⟨h.held.vals, h.held.thr, h.held.xvals, h.held.xthr, h.held.id⟩, h.fin,
      fun e m hm => by
        obtain ⟨b, k1, k2, k3⟩ := h.evMeta e m hm
        exact ⟨b, k1, ⟨k2.vals, k2.thr, k2.xvals, k2.xthr, k2.id⟩, k3⟩, h.proofs, h.db, h.all⟩

theorem Reach.ni {c : Cfg} {s : St} (h : Reach c (Calm c) s) : NI c s := by
  induction h with
  | init g =>
    refine ⟨⟨?_, ?_⟩, Witness.genesis_SI g.rcd, g.held, fun e _ => g.req e, ?_, ?_, ?_, ?_⟩
    · intro e q hq; rw [g.rcd.wit] at hq; cases hq
    · rw [g.rcd.proofs]; simp
    · intro e m hm; rw [g.rcd.evMeta] at hm; cases hm
    · rw [g.rcd.proofs]; simp
    · intro k t hk; rw [g.db] at hk; cases hk
    · rw [g.rcd.proofs]; simp
  | step _ hc hs ih => exact step_NI ih hc hs

end Verif.ProofRpc
