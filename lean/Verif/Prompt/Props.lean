import Verif.Gossip.Count
import Verif.Witness.Props
import Mathlib.Data.List.Nodup
import Mathlib.Data.List.Perm.Subperm

/-!
# C269: a proof is made as soon as there are enough signatures

About the model of /repo/ethy-gadget/src/witness_record.rs and worker.rs in `Verif.Witness`.
-/

namespace Verif.Prompt

open Verif.Witness
open Verif.Gossip (Has Genuine UE Same handleWitness_same tryMakeProof_same note_genuine note_has note_UE processUnverified_has)

/-! ## Specification -/

/-- The signature of validator number `i` counts for the chain: any validator's for Ethereum, for the XRP
Ledger only that of a validator who is among the signers there. -/
def Counts (s : St) (ch : Chain) (i : Nat) : Prop :=
  match ch with
  | .ethereum => True
  | .xrpl => ∃ a, s.vals[i]? = some a ∧ a ∈ s.xvals

/-- So many signatures are needed for the chain. -/
def Needed (s : St) (ch : Chain) (n : Nat) : Prop :=
  match ch with
  | .ethereum => n = s.thr
  | .xrpl => n = s.xthr

/-! ## Counting -/

theorem authIndex_isSome {l : List Nat} {a : Nat} (h : a ∈ l) : (authIndex l a).isSome = true := by
  unfold authIndex
  rw [List.findIdx?_isSome]
  exact List.any_eq_true.mpr ⟨a, h, by simp⟩

theorem mem_support {s : St} {ch : Chain} {l : List (Nat × Nat)} {i sig : Nat} (h : (i, sig) ∈ l)
    (hc : Counts s ch i) : (i, sig) ∈ support s.vals s.xvals ch l := by
  cases ch with
  | ethereum => exact h
  | xrpl =>
    obtain ⟨a, h1, h2⟩ := hc
    refine List.mem_filter.mpr ⟨h, ?_⟩
    dsimp only
    rw [h1]
    exact authIndex_isSome h2

theorem needed_threshold {s : St} {ch : Chain} {n : Nat} (h : Needed s ch n) : n = threshold s ch := by
  cases ch <;> exact h

/-- Different validators on record make that many signatures. -/
theorem enough {s : St} {e : Nat} {ch : Chain} {n : Nat} {L : List Nat} (hL : L.Nodup) (hn : Needed s ch n)
    (hl : n ≤ L.length) (h : ∀ i ∈ L, Has s e i ∧ Counts s ch i) : hasConsensus s e ch := by
  have hsub : L ⊆ (support s.vals s.xvals ch (s.wit e)).map Prod.fst := by
    intro i hi
    obtain ⟨⟨g, hg⟩, hc⟩ := h i hi
    exact List.mem_map.mpr ⟨(i, g), mem_support hg hc, rfl⟩
  have := (hL.subperm hsub).length_le
  rw [List.length_map] at this
  unfold hasConsensus
  rw [← needed_threshold hn]
  omega

/-! ## The invariant -/

/-- No known request has enough signatures on record. -/
def NoneWaiting (s : St) : Prop := ∀ e m, s.evMeta e = some m → ¬ hasConsensus s e m.1

theorem consensus_same {s s' : St} {e : Nat} {ch : Chain} (hw : s'.wit e = s.wit e) (h1 : s'.thr = s.thr)
    (h2 : s'.xthr = s.xthr) (h3 : s'.vals = s.vals) (h4 : s'.xvals = s.xvals) :
    hasConsensus s' e ch ↔ hasConsensus s e ch := by
  unfold hasConsensus
  rw [hw, h3, h4]
  cases ch
  · show s'.thr ≤ _ ↔ _; rw [h1]; rfl
  · show s'.xthr ≤ _ ↔ _; rw [h2]; rfl

theorem empty_none {s : St} (hp : PosSt s) {e : Nat} (hw : s.wit e = []) (ch : Chain) : ¬ hasConsensus s e ch := by
  unfold hasConsensus
  rw [hw, support_nil]
  obtain ⟨h1, h2⟩ := hp
  cases ch <;> simp only [threshold, List.length_nil] <;> omega

/-- After an attempt to make the proof of `e`, `e` is not waiting. -/
theorem tryMakeProof_self {c : Cfg} {s : St} {e : Nat} {m : Chain × Nat}
    (hm : (tryMakeProof c s e).evMeta e = some m) : ¬ hasConsensus (tryMakeProof c s e) e m.1 := by
  rcases tryMakeProof_cases c s e with ⟨h0, e1⟩ | ⟨m', hm', ⟨hc, e1⟩ | ⟨hc, e1⟩⟩
  · rw [e1, h0] at hm; cases hm
  · rw [e1, (processUnverified_frame (c := c) s e).evMeta, hm'] at hm
    cases hm
    rw [e1]; exact hc
  · rw [e1] at hm
    change upd _ e none e = some m at hm
    rw [upd_same] at hm; cases hm

theorem tryMakeProof_waiting {c : Cfg} {s : St} (hu : UE s) {e : Nat}
    (h : ∀ x m, x ≠ e → s.evMeta x = some m → ¬ hasConsensus s x m.1) : NoneWaiting (tryMakeProof c s e) := by
  intro x m hm
  by_cases hx : x = e
  · subst hx; exact tryMakeProof_self hm
  · have hs := tryMakeProof_same (c := c) hu (e := x) (x := e) (Ne.symm hx)
    obtain ⟨h1, h2, h3, h4⟩ := tryMakeProof_thr (c := c) s e
    rw [consensus_same hs.wit h1 h2 h3 h4]
    rw [hs.evMeta] at hm
    exact h x m hx hm

theorem handleWitness_waiting {c : Cfg} {s : St} (hu : UE s) {w : Wit} (h : NoneWaiting s) :
    NoneWaiting (handleWitness c s w) := by
  unfold handleWitness
  split
  · rename_i s1 hn
    refine tryMakeProof_waiting (note_UE hu hn) ?_
    intro x m hx hm
    have hf := note_frame hn
    have hs := Gossip.note_same hn (Ne.symm hx)
    rw [consensus_same hs.wit hf.thr hf.xthr hf.vals hf.xvals]
    rw [hf.evMeta] at hm
    exact h x m hm
  · exact h

theorem fixed_pos {c : Cfg} {s : St} (h : ReachP c FixedOp PosSt s) : ReachP c PosOp PosSt s := by
  induction h with
  | init g hp => exact .init g hp
  | @step s s' op _ ho hs ih => exact ih.step (by cases op <;> first | trivial | exact ho.elim) hs

theorem noteMeta_waiting {s : St} (hc : CI s) (hp : PosSt s) (h : NoneWaiting s) {e : Nat} (he : e ∉ s.finalised)
    (ch : Chain) (data : Nat) : NoneWaiting (noteMeta { s with finalised := e :: s.finalised } e ch data) := by
  intro x m hm
  by_cases hx : x = e
  · subst hx
    exact empty_none (s := noteMeta { s with finalised := x :: s.finalised } x ch data) hp (hc.fresh x he).2 m.1
  · change upd s.evMeta e _ x = some m at hm
    rw [upd_ne _ _ hx] at hm
    exact h x m hm

theorem step_waiting {c : Cfg} {s s' : St} {op : Op} (hc : CI s) (hp : PosSt s) (h : NoneWaiting s) (ho : FixedOp op)
    (hs : step c s op = .ok s') : NoneWaiting s' := by
  have hu : UE s := hc.unvEv
  cases op with
  | finalPassive e ch data =>
    simp only [step, bind_ok, ensure_ok, pure_ok] at hs
    obtain ⟨_, hn, rfl⟩ := hs
    exact tryMakeProof_waiting (noteMeta_CI hc e ch data).unvEv
      (fun x m _ hm => noteMeta_waiting hc hp h hn ch data x m hm)
  | finalActive e ch data auth sig =>
    simp only [step, bind_ok, ensure_ok] at hs
    obtain ⟨_, hn, hs⟩ := hs
    split at hs
    · simp only [pure_ok] at hs
      subst hs
      exact h
    · simp only [pure_ok] at hs
      subst hs
      exact handleWitness_waiting (noteMeta_CI hc e ch data).unvEv (noteMeta_waiting hc hp h hn ch data)
  | gossip w => cases hs; exact handleWitness_waiting hu h
  | setVals vals thr xvals xthr => exact ho.elim

theorem reach_waiting {c : Cfg} {s : St} (h : ReachP c FixedOp PosSt s) : NoneWaiting s := by
  induction h with
  | init g hp => intro e m hm; rw [g.evMeta e] at hm; cases hm
  | @step s s' op hr ho hs ih =>
    obtain ⟨hc, hp⟩ := reach_CI (fixed_pos hr)
    exact step_waiting hc hp ih ho hs

/-! ## Theorems -/

/-- C269, part: while the validators do not change, at no moment does a request known to the node wait with
enough signatures on record: any different validators whose signatures are on record and count are fewer than
needed. Missing: changes of validators (see `C269_change_refuted`). -/
theorem C269_none_waiting_partial {c : Cfg} {s : St} (h : ReachP c FixedOp PosSt s) {e data n : Nat} {ch : Chain}
    (hm : s.evMeta e = some (ch, data)) (hn : Needed s ch n) {L : List Nat} (hL : L.Nodup)
    (hs : ∀ i ∈ L, Has s e i ∧ Counts s ch i) : L.length < n := by
  by_contra hl
  exact reach_waiting h e (ch, data) hm (enough hL hn (by omega) hs)

/-- C269: whatever changes of validators came before, the vote that completes the number needed makes the
proof at once. -/
theorem C269_last_vote {c : Cfg} {s s' : St} (h : ReachP c PosOp PosSt s) {w : Wit} {ch : Chain} {data i n : Nat}
    (hm : s.evMeta w.event = some (ch, data)) (hg : Genuine c w ch data) (hi : authIndex s.vals w.auth = some i)
    (hc : ¬ isCompleted s w.event) (hs : w.auth ∉ s.seen w.event) (hn : Needed s ch n) {L : List Nat}
    (hL : L.Nodup) (hl : n ≤ L.length) (hv : ∀ j ∈ L, (j = i ∨ Has s w.event j) ∧ Counts s ch j)
    (hst : step c s (.gossip w) = .ok s') :
    w.event ∉ s.done ∧ w.event ∈ s'.done ∧
    ∃ p, s'.proofs = p :: s.proofs ∧ p.event = w.event ∧ p.chain = ch ∧ p.data = data ∧
      (∀ j ∈ L, ∃ g, (j, g) ∈ p.sigs) := by
  cases hst
  obtain ⟨s1, hn1, hh⟩ := note_genuine hm hg hi hc hs
  have hf := note_frame hn1
  have hf2 := processUnverified_frame (c := c) s1 w.event
  have hall : ∀ j ∈ L, Has (processUnverified c s1 w.event) w.event j := by
    intro j hj
    refine processUnverified_has ?_
    rcases (hv j hj).1 with rfl | h1
    · exact hh
    · exact note_has hn1 h1
  have hcons : hasConsensus (processUnverified c s1 w.event) w.event ch := by
    refine enough hL (n := n) ?_ hl (fun j hj => ⟨hall j hj, ?_⟩)
    · unfold Needed at hn ⊢
      rw [hf2.thr, hf2.xthr, hf.thr, hf.xthr]; exact hn
    · have := (hv j hj).2
      unfold Counts at this ⊢
      rw [hf2.vals, hf2.xvals, hf.vals, hf.xvals]; exact this
  refine ⟨fun hd => hc ((reach_CI h).1.rej _ hd), ?_⟩
  unfold handleWitness
  rw [hn1]
  dsimp only
  rcases tryMakeProof_cases c s1 w.event with ⟨e0, e1⟩ | ⟨m, hm', ⟨hc', e1⟩ | ⟨_, e1⟩⟩
  · rw [hf.evMeta, hm] at e0; cases e0
  · rw [hf.evMeta, hm] at hm'
    cases hm'
    exact absurd hcons hc'
  · rw [hf.evMeta, hm] at hm'
    cases hm'
    rw [e1]
    refine ⟨List.mem_cons_self, ⟨w.event, ch, data, (processUnverified c s1 w.event).vals,
      (processUnverified c s1 w.event).xvals, threshold (processUnverified c s1 w.event) ch,
      (processUnverified c s1 w.event).wit w.event⟩, ?_, rfl, rfl, rfl, hall⟩
    show _ :: (processUnverified c s1 w.event).proofs = _
    rw [hf2.proofs, hf.proofs]

/-! ## Votes that came before the request -/

/-- Only for known requests does the node remember who voted. -/
def SeenKnown (s : St) : Prop := ∀ e, s.evMeta e = none → s.seen e = []

theorem note_seen {c : Cfg} {s s' : St} {w : Wit} (h : SeenKnown s) (hn : note c s w = .ok s') : SeenKnown s' := by
  obtain ⟨_, _, ⟨_, rfl⟩ | ⟨m, i, hm, _, _, _, rfl⟩⟩ := note_ok hn
  · exact h
  · intro e he
    show upd s.seen w.event _ e = []
    have hne : e ≠ w.event := by
      rintro rfl
      rw [show s.evMeta w.event = none from he] at hm; cases hm
    rw [upd_ne _ _ hne]
    exact h e he

theorem tryMakeProof_seen {c : Cfg} {s : St} (h : SeenKnown s) (e : Nat) : SeenKnown (tryMakeProof c s e) := by
  have hp : SeenKnown (processUnverified c s e) :=
    processUnverified_ind (Q := SeenKnown) h (fun _ _ _ ht _ hn => note_seen ht hn)
  rcases tryMakeProof_cases c s e with ⟨_, e1⟩ | ⟨m, hm, ⟨_, e1⟩ | ⟨hc, e1⟩⟩ <;> rw [e1]
  · exact h
  · exact hp
  · intro x hx
    change upd (processUnverified c s e).evMeta e none x = none at hx
    show upd (processUnverified c s e).seen e [] x = []
    by_cases hxe : x = e
    · subst hxe; rw [upd_same]
    · rw [upd_ne _ _ hxe] at hx ⊢
      exact hp x hx

theorem handleWitness_seen {c : Cfg} {s : St} (h : SeenKnown s) (w : Wit) : SeenKnown (handleWitness c s w) := by
  unfold handleWitness
  split
  · rename_i s1 hn; exact tryMakeProof_seen (note_seen h hn) _
  · exact h

theorem noteMeta_seen {s : St} (h : SeenKnown s) (e : Nat) (ch : Chain) (data : Nat) :
    SeenKnown (noteMeta { s with finalised := e :: s.finalised } e ch data) := by
  intro x hx
  change upd s.evMeta e _ x = none at hx
  by_cases hxe : x = e
  · subst hxe; rw [upd_same] at hx; cases hx
  · rw [upd_ne _ _ hxe] at hx; exact h x hx

theorem reach_seen {c : Cfg} {P : Op → Prop} {G : St → Prop} {s : St} (h : ReachP c P G s) : SeenKnown s := by
  induction h with
  | init g _ => intro e _; exact g.seen e
  | @step s s' op _ _ hs ih =>
    cases op with
    | finalPassive e ch data =>
      simp only [step, bind_ok, ensure_ok, pure_ok] at hs
      obtain ⟨_, _, rfl⟩ := hs
      exact tryMakeProof_seen (noteMeta_seen ih e ch data) _
    | finalActive e ch data auth sig =>
      simp only [step, bind_ok, ensure_ok] at hs
      obtain ⟨_, _, hs⟩ := hs
      split at hs <;> simp only [pure_ok] at hs <;> subst hs
      · exact ih
      · exact handleWitness_seen (noteMeta_seen ih e ch data) _
    | gossip w => cases hs; exact handleWitness_seen ih w
    | setVals vals thr xvals xthr => cases hs; exact ih

/-- C269: if enough genuine votes came before the request, a node that does not sign itself makes the proof at
the moment it sees the request, and whatever else was sent for the event does not prevent it. -/
theorem C269_early {c : Cfg} {s s' : St} (h : ReachP c PosOp PosSt s) {e data n : Nat} {ch : Chain}
    (he : e ∉ s.finalised) (hc : ¬ isCompleted s e) (hn : Needed s ch n) {L : List Nat}
    (hL : L.Nodup) (hl : n ≤ L.length)
    (hv : ∀ j ∈ L, Counts s ch j ∧ ∃ w ∈ s.unv e, Genuine c w ch data ∧ authIndex s.vals w.auth = some j)
    (hst : step c s (.finalPassive e ch data) = .ok s') :
    e ∉ s.done ∧ e ∈ s'.done ∧
    ∃ p, s'.proofs = p :: s.proofs ∧ p.event = e ∧ p.chain = ch ∧ p.data = data ∧
      (∀ j ∈ L, ∃ g, (j, g) ∈ p.sigs) := by
  have hci := (reach_CI h).1
  simp only [step, bind_ok, ensure_ok, pure_ok] at hst
  obtain ⟨_, _, rfl⟩ := hst
  have hs1 : (noteMeta { s with finalised := e :: s.finalised } e ch data).evMeta e = some (ch, data) := by
    show upd s.evMeta e _ e = _
    rw [upd_same, show ({ s with finalised := e :: s.finalised } : St).evMeta e = none from (hci.fresh e he).1]
    rfl
  have hsv : (noteMeta { s with finalised := e :: s.finalised } e ch data).vals = s.vals := rfl
  have hsx : (noteMeta { s with finalised := e :: s.finalised } e ch data).xvals = s.xvals := rfl
  have hst : (noteMeta { s with finalised := e :: s.finalised } e ch data).thr = s.thr := rfl
  have hsxt : (noteMeta { s with finalised := e :: s.finalised } e ch data).xthr = s.xthr := rfl
  have hsp : (noteMeta { s with finalised := e :: s.finalised } e ch data).proofs = s.proofs := rfl
  have hsu : (noteMeta { s with finalised := e :: s.finalised } e ch data).unv = s.unv := rfl
  have hss : (noteMeta { s with finalised := e :: s.finalised } e ch data).seen e = [] :=
    reach_seen h e (hci.fresh e he).1
  have hsc : ¬ isCompleted (noteMeta { s with finalised := e :: s.finalised } e ch data) e := hc
  generalize noteMeta { s with finalised := e :: s.finalised } e ch data = s1 at *
  have hf2 := processUnverified_frame (c := c) s1 e
  have hall : ∀ j ∈ L, Has (processUnverified c s1 e) e j := by
    intro j hj
    obtain ⟨_, w, hw, hg, hi⟩ := hv j hj
    have hwe := hci.unvEv e w hw
    subst hwe
    unfold processUnverified
    refine Gossip.fold_counted (m := (ch, data)) hg _ { s1 with unv := upd s1.unv w.event [] } ?_ hs1 ?_ hsc ?_ ?_
    · intro v hv'; rw [hsu] at hv'; exact hci.unvEv _ v hv'
    · show authIndex s1.vals w.auth = some j; rw [hsv]; exact hi
    · intro hx
      change w.auth ∈ s1.seen w.event at hx
      rw [hss] at hx; cases hx
    · rw [hsu]; exact Or.inl hw
  have hcons : hasConsensus (processUnverified c s1 e) e ch := by
    refine enough hL (n := n) ?_ hl (fun j hj => ⟨hall j hj, ?_⟩)
    · unfold Needed at hn ⊢
      rw [hf2.thr, hf2.xthr, hst, hsxt]; exact hn
    · have := (hv j hj).1
      unfold Counts at this ⊢
      rw [hf2.vals, hf2.xvals, hsv, hsx]; exact this
  refine ⟨fun hd => hc (hci.rej _ hd), ?_⟩
  rcases tryMakeProof_cases c s1 e with ⟨e0, e1⟩ | ⟨m, hm', ⟨hc', e1⟩ | ⟨_, e1⟩⟩
  · rw [hs1] at e0; cases e0
  · rw [hs1] at hm'
    cases hm'
    exact absurd hcons hc'
  · rw [hs1] at hm'
    cases hm'
    rw [e1]
    refine ⟨List.mem_cons_self, ⟨e, ch, data, (processUnverified c s1 e).vals, (processUnverified c s1 e).xvals,
      threshold (processUnverified c s1 e) ch, (processUnverified c s1 e).wit e⟩, ?_, rfl, rfl, rfl, hall⟩
    show _ :: (processUnverified c s1 e).proofs = _
    rw [hf2.proofs, hsp]

/-- C269: the same on a node that signs itself with a key of the present validators (that it uses no other key
is `Verif.SignKeys.C267_only_own_partial`); its own vote counts too. -/
theorem C269_early_signer {c : Cfg} {s s' : St} (h : ReachP c PosOp PosSt s) {e data n d auth sig i : Nat} {ch : Chain}
    (he : e ∉ s.finalised) (hc : ¬ isCompleted s e) (hd : c.digestOf ch data auth = some d)
    (hsig : c.verify auth sig d = true) (hi : authIndex s.vals auth = some i) (hn : Needed s ch n) {L : List Nat}
    (hL : L.Nodup) (hl : n ≤ L.length)
    (hv : ∀ j ∈ L, Counts s ch j ∧
      (j = i ∨ ∃ w ∈ s.unv e, Genuine c w ch data ∧ authIndex s.vals w.auth = some j))
    (hst : step c s (.finalActive e ch data auth sig) = .ok s') :
    e ∉ s.done ∧ e ∈ s'.done ∧
    ∃ p, s'.proofs = p :: s.proofs ∧ p.event = e ∧ p.chain = ch ∧ p.data = data ∧
      (∀ j ∈ L, ∃ g, (j, g) ∈ p.sigs) := by
  have hci := (reach_CI h).1
  simp only [step, bind_ok, ensure_ok] at hst
  obtain ⟨_, _, hst⟩ := hst
  rw [hd] at hst
  simp only [pure_ok] at hst
  subst hst
  have hs1 : (noteMeta { s with finalised := e :: s.finalised } e ch data).evMeta e = some (ch, data) := by
    show upd s.evMeta e _ e = _
    rw [upd_same, show ({ s with finalised := e :: s.finalised } : St).evMeta e = none from (hci.fresh e he).1]
    rfl
  have hsv : (noteMeta { s with finalised := e :: s.finalised } e ch data).vals = s.vals := rfl
  have hsx : (noteMeta { s with finalised := e :: s.finalised } e ch data).xvals = s.xvals := rfl
  have hst : (noteMeta { s with finalised := e :: s.finalised } e ch data).thr = s.thr := rfl
  have hsxt : (noteMeta { s with finalised := e :: s.finalised } e ch data).xthr = s.xthr := rfl
  have hsp : (noteMeta { s with finalised := e :: s.finalised } e ch data).proofs = s.proofs := rfl
  have hsu : (noteMeta { s with finalised := e :: s.finalised } e ch data).unv = s.unv := rfl
  have hss : (noteMeta { s with finalised := e :: s.finalised } e ch data).seen e = [] :=
    reach_seen h e (hci.fresh e he).1
  have hsc : ¬ isCompleted (noteMeta { s with finalised := e :: s.finalised } e ch data) e := hc
  generalize noteMeta { s with finalised := e :: s.finalised } e ch data = s1 at *
  obtain ⟨s2, hn2, hh⟩ := note_genuine (c := c) (w := ⟨e, auth, d, sig⟩) hs1 ⟨hd, hsig⟩
    (by rw [hsv]; exact hi) hsc (by show auth ∉ s1.seen e; rw [hss]; exact List.not_mem_nil)
  have hf := note_frame hn2
  have hseen : ∀ a, a ∈ s2.seen e → a = auth := by
    intro a ha
    obtain ⟨_, _, ⟨h0, _⟩ | ⟨m, k, _, _, _, _, rfl⟩⟩ := note_ok hn2
    · rw [hs1] at h0; cases h0
    · change a ∈ upd s1.seen e _ e at ha
      rw [upd_same, hss] at ha
      rcases Ethy.mem_insertSorted.mp ha with ha | ha
      · exact ha
      · cases ha
  have hunv : s2.unv = s.unv := by
    obtain ⟨_, _, ⟨h0, _⟩ | ⟨m, k, _, _, _, _, rfl⟩⟩ := note_ok hn2
    · rw [hs1] at h0; cases h0
    · exact hsu
  have hf2 := processUnverified_frame (c := c) s2 e
  have hall : ∀ j ∈ L, Has (processUnverified c s2 e) e j := by
    intro j hj
    obtain ⟨_, rfl | ⟨w, hw, hg, hj'⟩⟩ := hv j hj
    · exact processUnverified_has hh
    have hwe := hci.unvEv e w hw
    subst hwe
    unfold processUnverified
    refine Gossip.fold_counted (m := (ch, data)) hg _ { s2 with unv := upd s2.unv w.event [] } ?_ ?_ ?_ ?_ ?_ ?_
    · intro v hv'; rw [hunv] at hv'; exact hci.unvEv _ v hv'
    · show s2.evMeta w.event = _; rw [hf.evMeta]; exact hs1
    · show authIndex s2.vals w.auth = some j; rw [hf.vals, hsv]; exact hj'
    · intro hx
      change isCompleted s2 w.event at hx
      rw [hf.isCompleted] at hx
      exact hsc hx
    · intro hx
      have ha := hseen _ hx
      rw [ha, hi] at hj'
      cases hj'
      exact hh
    · rw [hunv]; exact Or.inl hw
  have hcons : hasConsensus (processUnverified c s2 e) e ch := by
    refine enough hL (n := n) ?_ hl (fun j hj => ⟨hall j hj, ?_⟩)
    · unfold Needed at hn ⊢
      rw [hf2.thr, hf2.xthr, hf.thr, hf.xthr, hst, hsxt]; exact hn
    · have := (hv j hj).1
      unfold Counts at this ⊢
      rw [hf2.vals, hf2.xvals, hf.vals, hf.xvals, hsv, hsx]; exact this
  refine ⟨fun hd => hc (hci.rej _ hd), ?_⟩
  unfold handleWitness
  rw [hn2]
  dsimp only
  rcases tryMakeProof_cases c s2 e with ⟨e0, e1⟩ | ⟨m, hm', ⟨hc', e1⟩ | ⟨_, e1⟩⟩
  · rw [hf.evMeta, hs1] at e0; cases e0
  · rw [hf.evMeta, hs1] at hm'
    cases hm'
    exact absurd hcons hc'
  · rw [hf.evMeta, hs1] at hm'
    cases hm'
    rw [e1]
    refine ⟨List.mem_cons_self, ⟨e, ch, data, (processUnverified c s2 e).vals, (processUnverified c s2 e).xvals,
      threshold (processUnverified c s2 e) ch, (processUnverified c s2 e).wit e⟩, ?_, rfl, rfl, rfl, hall⟩
    show _ :: (processUnverified c s2 e).proofs = _
    rw [hf2.proofs, hf.proofs, hsp]

/-! ## Cases -/

/-- Votes of two signers of the XRP Ledger, and a false one, before the request. -/
def earlyOps : List Op := [.gossip (sgn 9 50 300), .gossip ⟨9, 200, 50, 1⟩, .gossip (sgn 9 50 400)]

def early : St := exec cfg0 g0 earlyOps

theorem early_reach : ReachP cfg0 PosOp PosSt early :=
  exec_reach _ (.init genesis_g0 ⟨by decide, by decide⟩) (by
    intro op h
    simp only [earlyOps, List.mem_cons, List.not_mem_nil, or_false] at h
    rcases h with rfl | rfl | rfl <;> trivial)

/-- The request makes the proof. -/
example : ∃ s', step cfg0 early (.finalPassive 9 .xrpl 50) = .ok s' ∧ 9 ∉ early.done ∧ 9 ∈ s'.done := by
  have hu : early.unv 9 = [sgn 9 50 300, ⟨9, 200, 50, 1⟩, sgn 9 50 400] := by decide +kernel
  refine ⟨tryMakeProof cfg0 (noteMeta { early with finalised := 9 :: early.finalised } 9 .xrpl 50) 9, rfl, ?_⟩
  have := C269_early early_reach (e := 9) (ch := .xrpl) (data := 50) (n := 2) (L := [2, 3]) (by decide +kernel)
    (by decide +kernel) rfl (by decide) (by decide) (by
      intro j hj
      rw [hu]
      simp only [List.mem_cons, List.not_mem_nil, or_false] at hj
      rcases hj with rfl | rfl
      · exact ⟨⟨300, by decide +kernel, by decide +kernel⟩, sgn 9 50 300, by simp, ⟨rfl, by decide⟩, by decide +kernel⟩
      · exact ⟨⟨400, by decide +kernel, by decide +kernel⟩, sgn 9 50 400, by simp, ⟨rfl, by decide⟩, by decide +kernel⟩)
    rfl
  exact ⟨this.1, this.2.1⟩

/-- A node that signs as validator 200 makes it too. -/
example : ∃ s', step cfg0 early (.finalActive 9 .xrpl 50 200 250) = .ok s' ∧ 9 ∉ early.done ∧ 9 ∈ s'.done := by
  have hu : early.unv 9 = [sgn 9 50 300, ⟨9, 200, 50, 1⟩, sgn 9 50 400] := by decide +kernel
  refine ⟨handleWitness cfg0 (noteMeta { early with finalised := 9 :: early.finalised } 9 .xrpl 50)
    ⟨9, 200, 50, 250⟩, rfl, ?_⟩
  have := C269_early_signer early_reach (e := 9) (ch := .xrpl) (data := 50) (d := 50) (auth := 200) (sig := 250)
    (i := 1) (n := 2) (L := [1, 3]) (by decide +kernel) (by decide +kernel) rfl rfl (by decide +kernel) rfl (by decide)
    (by decide) (by
      intro j hj
      rw [hu]
      simp only [List.mem_cons, List.not_mem_nil, or_false] at hj
      rcases hj with rfl | rfl
      · exact ⟨⟨200, by decide +kernel, by decide +kernel⟩, Or.inl rfl⟩
      · exact ⟨⟨400, by decide +kernel, by decide +kernel⟩, Or.inr ⟨sgn 9 50 400, by simp, ⟨rfl, by decide⟩,
          by decide +kernel⟩⟩)
    rfl
  exact ⟨this.1, this.2.1⟩

/-- A request with two signatures on record of the three needed. -/
def two : St := exec cfg0 g0 [.finalPassive 7 .ethereum 1007, .gossip (sgn 7 1007 100), .gossip (sgn 7 1007 300)]

theorem two_reach : ReachP cfg0 FixedOp PosSt two :=
  exec_reach _ (.init genesis_g0 ⟨by decide, by decide⟩) (by
    intro op h
    simp only [List.mem_cons, List.not_mem_nil, or_false] at h
    rcases h with rfl | rfl | rfl <;> trivial)

/-- Two are on record, which is fewer than three. -/
example : two.evMeta 7 = some (.ethereum, 1007) ∧ two.wit 7 = [(0, 1107), (2, 1307)] ∧ Needed two .ethereum 3 ∧
    ∀ i ∈ [0, 2], Has two 7 i ∧ Counts two .ethereum i := by
  refine ⟨by decide +kernel, by decide +kernel, rfl, ?_⟩
  intro i hi
  have hw : two.wit 7 = [(0, 1107), (2, 1307)] := by decide +kernel
  unfold Has
  rw [hw]
  simp only [List.mem_cons, List.not_mem_nil, or_false] at hi
  rcases hi with rfl | rfl
  · exact ⟨⟨1107, by simp⟩, trivial⟩
  · exact ⟨⟨1307, by simp⟩, trivial⟩

/-- The third makes the proof. -/
example : ∃ s', step cfg0 two (.gossip (sgn 7 1007 400)) = .ok s' ∧ 7 ∉ two.done ∧ 7 ∈ s'.done := by
  have hw : two.wit 7 = [(0, 1107), (2, 1307)] := by decide +kernel
  refine ⟨_, rfl, ?_⟩
  have := C269_last_vote (fixed_pos two_reach) (w := sgn 7 1007 400) (ch := .ethereum) (data := 1007) (i := 3) (n := 3)
    (L := [0, 2, 3]) (by decide +kernel) ⟨rfl, by decide⟩ (by decide +kernel) (by decide +kernel) (by decide +kernel)
    rfl (by decide) (by decide) (by
      intro j hj
      refine ⟨?_, trivial⟩
      show _ ∨ ∃ g, (j, g) ∈ two.wit 7
      rw [hw]
      simp only [List.mem_cons, List.not_mem_nil, or_false] at hj
      rcases hj with rfl | rfl | rfl
      · exact Or.inr ⟨1107, by simp⟩
      · exact Or.inr ⟨1307, by simp⟩
      · exact Or.inl rfl) rfl
  exact ⟨this.1, this.2.1⟩

/-- C269 is false across a change of validators: the new set needs two signatures, two of its members' are on
record, but no proof is made; it waits for another vote. -/
theorem C269_change_refuted :
    ∃ s, ReachP cfg0 PosOp PosSt s ∧ ∃ (e data n : Nat) (L : List Nat), s.evMeta e = some (.ethereum, data) ∧
      Needed s .ethereum n ∧ L.Nodup ∧ (∀ i ∈ L, Has s e i ∧ Counts s .ethereum i) ∧ n ≤ L.length ∧ e ∉ s.done := by
  refine ⟨exec cfg0 g0 [.finalPassive 7 .ethereum 1007, .gossip (sgn 7 1007 100), .gossip (sgn 7 1007 300),
    .setVals [100, 200, 300] 2 [200, 300] 2], exec_reach _ (.init genesis_g0 ⟨by decide, by decide⟩) ?_,
    7, 1007, 2, [0, 2], by decide +kernel, rfl, by decide, ?_, by decide, by decide +kernel⟩
  · intro op h
    simp only [List.mem_cons, List.not_mem_nil, or_false] at h
    rcases h with rfl | rfl | rfl | rfl <;> first | trivial | exact ⟨by decide, by decide⟩
  · intro i hi
    refine ⟨?_, trivial⟩
    have hw : (exec cfg0 g0 [.finalPassive 7 .ethereum 1007, .gossip (sgn 7 1007 100), .gossip (sgn 7 1007 300),
      .setVals [100, 200, 300] 2 [200, 300] 2]).wit 7 = [(0, 1107), (2, 1307)] := by decide +kernel
    unfold Has
    rw [hw]
    simp only [List.mem_cons, List.not_mem_nil, or_false] at hi
    rcases hi with rfl | rfl
    · exact ⟨1107, by simp⟩
    · exact ⟨1307, by simp⟩

end Verif.Prompt
