import Verif.Witness.Inv

/-!
# Properties of the collection of bridge signatures (C19, C20, C21, C70, C71)
-/

namespace Verif.Witness

/-! ## Demo -/

/-- Digest of a message is the message, a signature is authority plus digest. -/
def cfg0 : Cfg := ⟨fun _ d _ => some d, fun a s d => s == a + d⟩

def sgn (e data a : Nat) : Wit := ⟨e, a, data, a + data⟩

/-- Four validators, three of whom must sign; two of three XRPL signers. -/
def g0 : St :=
  ⟨fun _ => none, fun _ => [], [100, 200, 300, 400], 3, [200, 300, 400], 2, fun _ => [], fun _ => [], [], [], [], []⟩

theorem genesis_g0 : Genesis g0 :=
  ⟨fun _ => rfl, fun _ => rfl, fun _ => rfl, fun _ => rfl, rfl, rfl, rfl, rfl⟩

/-- Event `e` with message `1000 + e` is requested in a block and three validators sign. -/
def full (e : Nat) : List Op :=
  [.gossip (sgn e (1000 + e) 300), .finalPassive e .ethereum (1000 + e), .gossip (sgn e (1000 + e) 300),
   .gossip (sgn e (1000 + e) 100), .gossip (sgn e (1000 + e) 400), .gossip (sgn e (1000 + e) 200)]

/-- Events 1, 2 and 3 are completed; event 5 has two signatures. -/
def demoOps : List Op := full 2 ++ full 1 ++ full 3 ++ (full 5).take 4

def demo : St := exec cfg0 g0 demoOps

theorem demo_reach : ReachP cfg0 PosOp PosSt demo :=
  exec_reach _ (.init genesis_g0 ⟨by decide, by decide⟩) (by
    intro op h
    simp only [demoOps, full, List.mem_append, List.mem_cons, List.take_succ_cons, List.take_zero,
      List.not_mem_nil, or_false] at h
    rcases h with ((h | h) | h) | h <;>
    · rcases h with rfl | rfl | rfl | rfl | h <;> first | trivial | (rcases h with rfl | rfl <;> trivial))

example : demo.done = [3, 1, 2] ∧ demo.completed = [2, 3] ∧ demo.wit 5 = [(0, 1105), (2, 1305)] := by
  refine ⟨?_, ?_, ?_⟩ <;> decide +kernel

/-! ## C19 -/

/-- C19, part: as long as every validator set has positive thresholds, whatever the order of completions, a
witness for a completed event is rejected.
Missing: sets with a threshold of zero, which the chain announces for fewer than two XRPL signers (see
`C19_reopened_refuted`). -/
theorem C19_completed_rejected_partial {c : Cfg} {s : St} (h : ReachP c PosOp PosSt s) {e : Nat} (he : e ∈ s.done)
    (w : Wit) (hw : w.event = e) : note c s w = .error "CompletedEvent" := by
  have := (reach_CI h).1.rej e he
  rw [← hw] at this
  unfold note ensure
  rw [if_neg (by simpa using this)]
  rfl

/-- C19, part: likewise, at most one proof is made for an event. -/
theorem C19_one_proof_partial {c : Cfg} {s : St} (h : ReachP c PosOp PosSt s) :
    (s.proofs.map Proof.event).Nodup := by
  rw [(reach_CI h).1.made]; exact (reach_CI h).1.once

/-- Non-vacuity: event 1 was completed after 2 and is no longer in the list, and is rejected. -/
example : 1 ∈ demo.done ∧ 1 ∉ demo.completed ∧ errIs (note cfg0 demo (sgn 1 1001 200)) "CompletedEvent" = true := by
  refine ⟨?_, ?_, ?_⟩ <;> decide +kernel

/-- The chain has a single XRPL signer, so the XRPL threshold it announces is zero
(/repo/runtime/src/lib.rs:2026). -/
def g1 : St := { g0 with xvals := [200], xthr := 0 }

theorem genesis_g1 : Genesis g1 :=
  ⟨fun _ => rfl, fun _ => rfl, fun _ => rfl, fun _ => rfl, rfl, rfl, rfl, rfl⟩

/-- C19 is false with a threshold of zero: events 1, 2 and 3 are completed, then the request of event 0, which
had been delayed, appears. It is completed at once, and the completed event 1 is open again: a second proof of
it can be made. -/
theorem C19_reopened_refuted :
    ∃ s s', Reach cfg0 s ∧ 1 ∈ s.done ∧ note cfg0 s (sgn 1 1001 200) = .ok s' := by
  refine ⟨exec cfg0 g1 (full 1 ++ full 2 ++ full 3 ++ [.finalPassive 0 .xrpl 1000]), _,
    exec_reach _ (.init genesis_g1 trivial) (fun _ _ => trivial), ?_, ok_getD (d := g1) ?_⟩ <;> decide +kernel

/-! ## C20 -/

/-- C20, part: a witness for an event that was never completed is rejected as completed only if at least two
events with greater ids were completed before it.
Missing: events that complete after two later ones (see `C20_incomplete_rejected_refuted`). -/
theorem C20_incomplete_accepted_partial {c : Cfg} {s : St} (h : ReachP c PosOp PosSt s) {w : Wit}
    (he : w.event ∉ s.done) (hw : note c s w = .error "CompletedEvent") :
    ∃ x y, x ∈ s.done ∧ y ∈ s.done ∧ w.event < x ∧ x < y := by
  have hci := (reach_CI h).1
  have hc : isCompleted s w.event := by
    by_contra hn
    simp only [note, bind_err, ensure_err] at hw
    rcases hw with ⟨hc, _⟩ | ⟨_, _, ⟨_, he⟩ | ⟨_, _, hx⟩⟩
    · exact hc hn
    · revert he; decide
    · split at hx
      · simp only [bind_err, okOr_err, ensure_err, record, pure_err, and_false, exists_false, or_false] at hx
        rcases hx with ⟨_, he⟩ | ⟨_, _, ⟨_, he⟩ | ⟨_, _, ⟨_, he⟩ | ⟨_, _, _, he⟩⟩⟩ <;> (revert he; decide)
      · cases hx
  rcases hc with hc | ⟨h1, h2⟩
  · exact absurd (hci.sub _ hc) he
  · cases hl : s.completed with
    | nil => rw [hl] at h1; simp at h1
    | cons x l =>
      cases l with
      | nil => rw [hl] at h1; simp at h1
      | cons y l =>
        have hs := hci.sorted
        rw [hl] at hs h2
        have hxy := (List.pairwise_cons.mp hs).1 y List.mem_cons_self
        have hx : x ∈ s.done := hci.sub x (by rw [hl]; simp)
        have hy : y ∈ s.done := hci.sub y (by rw [hl]; simp)
        refine ⟨x, y, hx, hy, ?_, hxy⟩
        simp only [List.headD_cons] at h2
        rcases Nat.lt_or_eq_of_le h2 with h3 | h3
        · exact h3
        · exact absurd (h3 ▸ hx) he

/-- Non-vacuity: in the demo event 0 has two completed later events, event 5 does not. -/
example : errIs (note cfg0 demo (sgn 0 1000 200)) "CompletedEvent" = true ∧ 0 ∉ demo.done ∧
    (note cfg0 demo (sgn 5 1005 200)).isOk = true := by
  refine ⟨?_, ?_, ?_⟩ <;> decide +kernel

/-- C20 is false: events 1, 2 and 3 are completed before the delayed event 0. All witnesses for event 0, by
every validator, are then rejected as belonging to a completed event. -/
theorem C20_incomplete_rejected_refuted :
    ∃ s, ReachP cfg0 PosOp PosSt s ∧ 0 ∉ s.done ∧
      ∀ a d sig, note cfg0 s ⟨0, a, d, sig⟩ = .error "CompletedEvent" := by
  refine ⟨demo, demo_reach, by decide +kernel, ?_⟩
  intro a d sig
  have : isCompleted demo 0 := by decide +kernel
  unfold note ensure
  rw [if_neg (by simpa using this)]
  rfl

/-! ## C21 -/

theorem authIndex_some {vals : List Nat} {a i : Nat} (h : authIndex vals a = some i) : vals[i]? = some a := by
  unfold authIndex at h
  rw [List.findIdx?_eq_some_iff_getElem] at h
  obtain ⟨hlt, hp, _⟩ := h
  rw [List.getElem?_eq_getElem hlt]
  simpa using hp

theorem authIndex_isSome {vals : List Nat} {a : Nat} : (authIndex vals a).isSome = decide (a ∈ vals) := by
  unfold authIndex
  rw [List.findIdx?_isSome, Bool.eq_iff_iff]
  simp

/-- The validator set stays as it is. -/
def FixedOp : Op → Prop
  | .setVals _ _ _ _ => False
  | _ => True

/-- These are the validators and the thresholds. -/
structure Sets (V : List Nat) (T : Nat) (X : List Nat) (XT : Nat) (s : St) : Prop where
  vals : s.vals = V
  thr : s.thr = T
  xvals : s.xvals = X
  xthr : s.xthr = XT

/-- The proofs were made for these sets. -/
def MadeFor (V : List Nat) (T : Nat) (X : List Nat) (XT : Nat) (s : St) : Prop :=
  ∀ p ∈ s.proofs, p.vals = V ∧ p.xvals = X ∧ p.need = (match p.chain with | .ethereum => T | .xrpl => XT)

theorem tryMakeProof_made {c : Cfg} {V X : List Nat} {T XT : Nat} {s : St} (h : Sets V T X XT s)
    (hm : MadeFor V T X XT s) (e : Nat) : MadeFor V T X XT (tryMakeProof c s e) := by
  have hf := processUnverified_frame (c := c) s e
  rcases tryMakeProof_cases c s e with ⟨_, e1⟩ | ⟨m, _, ⟨_, e1⟩ | ⟨hc, e1⟩⟩ <;> rw [e1]
  · exact hm
  · unfold MadeFor; rw [hf.proofs]; exact hm
  · intro p hp
    rcases List.mem_cons.mp hp with rfl | hp
    · dsimp only
      refine ⟨hf.vals.trans h.vals, hf.xvals.trans h.xvals, ?_⟩
      unfold threshold
      split
      · rename_i e; rw [e]; exact hf.thr.trans h.thr
      · rename_i e; rw [e]; exact hf.xthr.trans h.xthr
    · rw [hf.proofs] at hp; exact hm p hp

theorem handleWitness_made {c : Cfg} {V X : List Nat} {T XT : Nat} {s : St} (h : Sets V T X XT s)
    (hm : MadeFor V T X XT s) (w : Wit) : MadeFor V T X XT (handleWitness c s w) := by
  unfold handleWitness
  split
  · rename_i s1 hn
    have hf := note_frame hn
    refine tryMakeProof_made ⟨hf.vals.trans h.vals, hf.thr.trans h.thr, hf.xvals.trans h.xvals,
      hf.xthr.trans h.xthr⟩ ?_ _
    unfold MadeFor; rw [hf.proofs]; exact hm
  · exact hm

theorem reach_fixed {c : Cfg} {V X : List Nat} {T XT : Nat} {s : St} (h : ReachP c FixedOp (Sets V T X XT) s) :
    Sets V T X XT s ∧ MadeFor V T X XT s ∧ SI c (fun i a => authIndex V a = some i) s := by
  induction h with
  | init g hs => exact ⟨hs, by unfold MadeFor; rw [g.proofs]; simp, genesis_SI g⟩
  | @step s s' op _ ho hs ih =>
    obtain ⟨i1, i2, i3⟩ := ih
    refine ⟨?_, ?_, step_SI i3 (by intro a i ha; rw [i1.vals] at ha; exact ha) hs⟩
    · cases op with
      | finalPassive e ch data =>
        simp only [step, bind_ok, ensure_ok, pure_ok] at hs
        obtain ⟨_, _, rfl⟩ := hs
        obtain ⟨h1, h2, h3, h4⟩ := tryMakeProof_thr (c := c)
          (noteMeta { s with finalised := e :: s.finalised } e ch data) e
        exact ⟨h3.trans i1.vals, h1.trans i1.thr, h4.trans i1.xvals, h2.trans i1.xthr⟩
      | finalActive e ch data auth sig =>
        simp only [step, bind_ok, ensure_ok] at hs
        obtain ⟨_, _, hs⟩ := hs
        split at hs
        · simp only [pure_ok] at hs; subst hs; exact ⟨i1.vals, i1.thr, i1.xvals, i1.xthr⟩
        · rename_i d _
          simp only [pure_ok] at hs; subst hs
          obtain ⟨h1, h2, h3, h4⟩ := handleWitness_thr (c := c)
            (noteMeta { s with finalised := e :: s.finalised } e ch data) ⟨e, auth, d, sig⟩
          exact ⟨h3.trans i1.vals, h1.trans i1.thr, h4.trans i1.xvals, h2.trans i1.xthr⟩
      | gossip w =>
        cases hs
        obtain ⟨h1, h2, h3, h4⟩ := handleWitness_thr (c := c) s w
        exact ⟨h3.trans i1.vals, h1.trans i1.thr, h4.trans i1.xvals, h2.trans i1.xthr⟩
      | setVals _ _ _ _ => exact absurd ho (by simp [FixedOp])
    · cases op with
      | finalPassive e ch data =>
        simp only [step, bind_ok, ensure_ok, pure_ok] at hs
        obtain ⟨_, _, rfl⟩ := hs
        exact tryMakeProof_made (s := noteMeta { s with finalised := e :: s.finalised } e ch data)
          ⟨i1.vals, i1.thr, i1.xvals, i1.xthr⟩ i2 e
      | finalActive e ch data auth sig =>
        simp only [step, bind_ok, ensure_ok] at hs
        obtain ⟨_, _, hs⟩ := hs
        split at hs
        · simp only [pure_ok] at hs; subst hs; exact i2
        · simp only [pure_ok] at hs; subst hs
          exact handleWitness_made (s := noteMeta { s with finalised := e :: s.finalised } e ch data)
            ⟨i1.vals, i1.thr, i1.xvals, i1.xthr⟩ i2 _
      | gossip w => cases hs; exact handleWitness_made i1 i2 w
      | setVals _ _ _ _ => exact absurd ho (by simp [FixedOp])

/-- C21: under a fixed validator set `V` with threshold `T` (XRPL signers `X`, threshold `XT`), every proof
carries signatures in strictly increasing order of validator index, by different validators, each one
verified, against the digest of the proof's message, for the validator at its index; and at least the
threshold of them count. -/
theorem C21_proof_has_threshold {c : Cfg} {V X : List Nat} {T XT : Nat} {s : St}
    (h : ReachP c FixedOp (Sets V T X XT) s) {p : Proof} (hp : p ∈ s.proofs) :
    (p.sigs.map Prod.fst).Pairwise (· < ·) ∧ (p.sigs.map (fun q => V[q.1]?)).Nodup ∧
    (∀ q ∈ p.sigs, ∃ a d, V[q.1]? = some a ∧ c.digestOf p.chain p.data a = some d ∧ c.verify a q.2 d = true) ∧
    (match p.chain with
      | .ethereum => T ≤ p.sigs.length
      | .xrpl => XT ≤ (p.sigs.filter (fun q => decide (∃ a ∈ X, V[q.1]? = some a))).length) := by
  obtain ⟨_, h2, h3⟩ := reach_fixed h
  obtain ⟨k1, k2, k3⟩ := h3.proofs p hp
  obtain ⟨m1, m2, m3⟩ := h2 p hp
  refine ⟨List.pairwise_map.mpr k1, ?_, ?_, ?_⟩
  · unfold List.Nodup
    rw [List.pairwise_map]
    refine List.Pairwise.imp_of_mem ?_ k1
    intro q r hq hr hlt e
    obtain ⟨a, _, _, _, ha⟩ := k3 q hq
    obtain ⟨b, _, _, _, hb⟩ := k3 r hr
    rw [authIndex_some ha, authIndex_some hb] at e
    cases e
    rw [ha] at hb
    simp only [Option.some.injEq] at hb
    omega
  · intro q hq
    obtain ⟨a, d, h4, h5, h6⟩ := k3 q hq
    exact ⟨a, d, authIndex_some h6, h4, h5⟩
  · rw [m1, m2, m3] at k2
    cases hch : p.chain with
    | ethereum => rw [hch] at k2; exact k2
    | xrpl =>
      rw [hch] at k2
      dsimp only [support] at k2 ⊢
      refine le_trans k2 (le_of_eq ?_)
      congr 1
      apply List.filter_congr
      intro q _
      cases hv : V[q.1]? with
      | none => simp
      | some a => simp [authIndex_isSome]

/-- Non-vacuity: the proof of event 3, made of three signatures by different validators. -/
example : demo.proofs.head? = some ⟨3, .ethereum, 1003, [100, 200, 300, 400], [200, 300, 400], 3,
    [(0, 1103), (2, 1303), (3, 1403)]⟩ := by decide +kernel

/-- Non-vacuity, XRPL: the signature of validator 100, who is no XRPL signer, does not count. -/
example : (exec cfg0 g0 [.finalPassive 9 .xrpl 50, .gossip (sgn 9 50 100), .gossip (sgn 9 50 200)]).proofs = [] ∧
    (exec cfg0 g0 [.finalActive 9 .xrpl 50 300 350, .gossip (sgn 9 50 100), .gossip (sgn 9 50 200)]).proofs =
      [⟨9, .xrpl, 50, [100, 200, 300, 400], [200, 300, 400], 2, [(0, 150), (1, 250), (2, 350)]⟩] := by
  constructor <;> decide +kernel

/-- C21: a signature is counted once per event, however often and in whatever order it arrives. -/
theorem C21_collected_distinct {c : Cfg} {s : St} (h : Reach c s) (e : Nat) :
    ((s.wit e).map Prod.fst).Pairwise (· < ·) := List.pairwise_map.mpr ((reach_SI h).sorted e)

/-! ## C70: no proof without signatures -/

/-- C70, part: a proof made with a positive threshold has at least one signature, and it is verified.
Missing: a threshold of zero (see `C70_unsigned_proof_refuted`). -/
theorem C70_signed_partial {c : Cfg} {s : St} (h : Reach c s) {p : Proof} (hp : p ∈ s.proofs)
    (hn : 1 ≤ p.need) :
    ∃ q ∈ p.sigs, ∃ a d, c.digestOf p.chain p.data a = some d ∧ c.verify a q.2 d = true := by
  obtain ⟨_, k2, k3⟩ := (reach_SI h).proofs p hp
  have : p.sigs ≠ [] := by
    intro e
    rw [e, support_nil] at k2
    simp at k2; omega
  obtain ⟨q, hq⟩ := List.exists_mem_of_ne_nil _ this
  obtain ⟨a, d, h1, h2, _⟩ := k3 q hq
  exact ⟨q, hq, a, d, h1, h2⟩

/-- C70 is false: with a single XRPL signer the announced threshold is zero, and a node makes and publishes a
proof with no signature at all. -/
theorem C70_unsigned_proof_refuted :
    ∃ s, Reach cfg0 s ∧ ∃ p ∈ s.proofs, p.sigs = [] ∧ p.xvals.length = 1 :=
  ⟨exec cfg0 g1 [.finalPassive 0 .xrpl 1000], exec_reach _ (.init genesis_g1 trivial) (fun _ _ => trivial),
    ⟨0, .xrpl, 1000, [100, 200, 300, 400], [200], 0, []⟩, by decide +kernel, rfl, rfl⟩

/-! ## C71: signatures match the announced set -/

/-- The signatures of a proof verify for the validators of the set it is announced with. -/
def Matches (c : Cfg) (p : Proof) : Prop :=
  ∀ q ∈ p.sigs, ∃ a d, p.vals[q.1]? = some a ∧ c.digestOf p.chain p.data a = some d ∧ c.verify a q.2 d = true

/-- C71, part: with a fixed validator set the signatures match the set. -/
theorem C71_matches_set_partial {c : Cfg} {V X : List Nat} {T XT : Nat} {s : St}
    (h : ReachP c FixedOp (Sets V T X XT) s) {p : Proof} (hp : p ∈ s.proofs) : Matches c p := by
  obtain ⟨_, h2, _⟩ := reach_fixed h
  unfold Matches
  rw [(h2 p hp).1]
  exact (C21_proof_has_threshold h hp).2.2.1

/-- Before and after the change of validators. -/
def changeOps : List Op :=
  [.finalPassive 7 .ethereum 1007, .gossip (sgn 7 1007 100), .gossip (sgn 7 1007 200),
   .setVals [500, 600, 700, 100] 3 [500, 600] 1, .gossip (sgn 7 1007 700)]

/-- C71 is false: signatures collected before a change of validators stay under their old index. The proof
then announced for the new set has, at the index of validator 500, a signature by validator 100. -/
theorem C71_mixed_sets_refuted :
    ∃ s, ReachP cfg0 PosOp PosSt s ∧ ∃ p ∈ s.proofs, ¬ Matches cfg0 p := by
  refine ⟨exec cfg0 g0 changeOps, exec_reach _ (.init genesis_g0 ⟨by decide, by decide⟩) ?_,
    ⟨7, .ethereum, 1007, [500, 600, 700, 100], [500, 600], 3, [(0, 1107), (1, 1207), (2, 1707)]⟩,
    by decide +kernel, ?_⟩
  · intro op h
    simp only [changeOps, List.mem_cons, List.not_mem_nil, or_false] at h
    rcases h with rfl | rfl | rfl | rfl | rfl <;> first | trivial | exact ⟨by decide, by decide⟩
  · intro hm
    obtain ⟨a, d, h1, h2, h3⟩ := hm (0, 1107) (by simp)
    simp at h1
    subst h1
    simp [cfg0] at h2
    subst h2
    simp [cfg0] at h3

end Verif.Witness
