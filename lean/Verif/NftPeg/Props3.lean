import Verif.NftPeg.Props2

/-!
# Properties of the ERC-721 bridge: what does not hold, and examples
-/

namespace Verif.NftPeg

/-- A deposit of tokens. -/
def dep (l : List (Nat × List Nat)) (dest : Acct) : Op :=
  .deposit (.deposit (some (l.map Prod.fst, l.map Prod.snd, dest)))

/-- The world after an operation. -/
def next (c : Cfg) (w : World) (op : Op) : World := (step c w op).toOption.getD w

theorem next_ok {c : Cfg} {w : World} {op : Op} (h : (step c w op).isOk = true) : step c w op = .ok (next c w op) := by
  unfold next
  cases hs : step c w op with
  | ok w1 => rfl
  | error e => rw [hs] at h; cases h

theorem next_reach {c : Cfg} {w : World} {op : Op} (h : Reach c NoWrap w) (hc : checkOp w op = true)
    (hw : w.st.nextBlocked + 1 < U32) : Reach c NoWrap (next c w op) := by
  unfold next
  cases hs : step c w op with
  | ok w1 => exact h.step ⟨checkOp_env hc, hw⟩ hs
  | error e => exact h

/-- Two deposits, a transfer and a withdrawal by the new owner. -/
def demoOps : List Op :=
  [dep [(70, [3, 9])] 7, dep [(70, [4]), (71, [5])] 8, .nft (.transfer 7 100 [9] 8),
   .withdraw 8 [100] [[9, 4]] 600 true]

def demo : World := exec cfg0 g0 demoOps

theorem demo_reach : Reach cfg0 NoWrap demo := exec_reach demoOps (.init genesis_g0) (by decide +kernel)

/-- The collection that stands for contract 70 is full after two tokens; two more are recorded. -/
def fullOps : List Op := [dep [(70, [1, 2])] 7, dep [(70, [3, 4])] 8]

def full : World := exec cfg1 g0 fullOps

theorem full_reach : Reach cfg1 NoWrap full := exec_reach fullOps (.init genesis_g0) (by decide +kernel)

/-! ## what does not hold -/

/-- **C60** does not hold for ids of 2³² and above: the receiver gets another token, and no record. -/
theorem C60_large_id_refuted : ∃ w w', Reach cfg0 NoWrap w ∧ NoWrap w (dep [(70, [4294967296])] 7) ∧
    step cfg0 w (dep [(70, [4294967296])] 7) = .ok w' ∧ ¬ Given w'.st 70 4294967296 7 ∧
    Nft.ownerOf w'.st.nft 100 4294967295 = some 7 := by
  have hc : checkOp g0 (dep [(70, [4294967296])] 7) = true := by decide +kernel
  have hw : g0.st.nextBlocked + 1 < U32 := by decide +kernel
  refine ⟨g0, next cfg0 g0 (dep [(70, [4294967296])] 7), .init genesis_g0, ⟨checkOp_env hc, hw⟩,
    next_ok (by decide +kernel), ?_, by decide +kernel⟩
  rintro (⟨coll, h1, h2⟩ | ⟨i, r, h1, _⟩)
  · have e : (next cfg0 g0 (dep [(70, [4294967296])] 7)).st.toRoot 70 = some 100 := by decide +kernel
    rw [e] at h1
    cases h1
    have e2 : Nft.ownerOf (next cfg0 g0 (dep [(70, [4294967296])] 7)).st.nft 100 4294967296 = none := by
      decide +kernel
    rw [e2] at h2
    cases h2
  · have h3 := (next_reach (.init genesis_g0) hc hw).numbers h1
    have e : (next cfg0 g0 (dep [(70, [4294967296])] 7)).st.nextBlocked = 0 := by decide +kernel
    omega

/-- **C60** does not hold for the tokens of a deposit that come after the first contract whose tokens cannot be
minted: they are neither minted nor recorded, although the contract took them. -/
theorem C60_later_contract_refuted : ∃ w w', Reach cfg1 NoWrap w ∧ NoWrap w (dep [(70, [5]), (71, [6])] 8) ∧
    step cfg1 w (dep [(70, [5]), (71, [6])] 8) = .ok w' ∧ ¬ Given w'.st 71 6 8 ∧ w'.custody 71 6 = true := by
  refine ⟨full, next cfg1 full (dep [(70, [5]), (71, [6])] 8), full_reach,
    ⟨checkOp_env (by decide +kernel), by decide +kernel⟩, next_ok (by decide +kernel), ?_, by decide +kernel⟩
  have e : (next cfg1 full (dep [(70, [5]), (71, [6])] 8)).st.toRoot 71 = none := by decide +kernel
  rintro (⟨coll, h1, _⟩ | ⟨i, r, _, _, h1, _⟩)
  · rw [e] at h1
    cases h1
  · rw [e] at h1
    cases h1

/-- **C127** does not hold for the id 2³² − 1: a token with a larger id turns up as this one, which the contract
does not hold. -/
theorem C127_large_id_refuted : ∃ w, Reach cfg0 NoWrap w ∧ At w 70 4294967295 (.chain 100 66) ∧
    w.custody 70 4294967295 = false := by
  refine ⟨next cfg0 g0 (dep [(70, [4294967296])] 66),
    next_reach (.init genesis_g0) (by decide +kernel) (by decide +kernel), ⟨?_, ?_⟩, ?_⟩ <;> decide +kernel

/-- Someone deposits a token with a large id and waits. -/
def trap : World := next cfg0 g0 (dep [(70, [4294967296])] 66)
/-- Somebody else deposits the token with the id 2³² − 1. -/
def trapped : World := next cfg0 trap (dep [(70, [4294967295])] 7)

/-- With a token of a larger id, the token with the id 2³² − 1 can be stolen: its depositor gets neither a token
nor a record, and the holder of the other one withdraws it. -/
theorem C60_theft_refuted : ∃ w1 w2 w3, Reach cfg0 NoWrap w1 ∧ NoWrap w1 (dep [(70, [4294967295])] 7) ∧
    step cfg0 w1 (dep [(70, [4294967295])] 7) = .ok w2 ∧ ¬ Given w2.st 70 4294967295 7 ∧
    w2.custody 70 4294967295 = true ∧ step cfg0 w2 (.withdraw 66 [100] [[4294967295]] 666 true) = .ok w3 ∧
    w3.pending = [⟨500, [(70, [4294967295])], 666⟩] := by
  have hr : Reach cfg0 NoWrap trap := next_reach (.init genesis_g0) (by decide +kernel) (by decide +kernel)
  have hc : checkOp trap (dep [(70, [4294967295])] 7) = true := by decide +kernel
  have hw : trap.st.nextBlocked + 1 < U32 := by decide +kernel
  refine ⟨trap, trapped, next cfg0 trapped (.withdraw 66 [100] [[4294967295]] 666 true), hr, ⟨checkOp_env hc, hw⟩,
    next_ok (by decide +kernel), ?_, by decide +kernel, next_ok (by decide +kernel), by decide +kernel⟩
  rintro (⟨coll, h1, h2⟩ | ⟨i, r, h1, _⟩)
  · have e : trapped.st.toRoot 70 = some 100 := by decide +kernel
    rw [e] at h1
    cases h1
    have e2 : Nft.ownerOf trapped.st.nft 100 4294967295 = some 66 := by decide +kernel
    rw [e2] at h2
    cases h2
  · have h3 : i < trapped.st.nextBlocked := (next_reach hr hc hw).numbers h1
    have e : trapped.st.nextBlocked = 0 := by decide +kernel
    omega

/-! ## examples -/

-- C60_deposit_partial: the hypotheses hold of a deposit from two contracts, one of them new
example : cfg0.Ok ∧ Reach cfg0 Env demo ∧ Env demo (dep [(70, [11]), (72, [0, 1])] 5) ∧
    (onEvent cfg0 demo.st (.deposit (some ([70, 72], [[11], [0, 1]], 5)))).2 = none ∧
    Nft.ownerOf (next cfg0 demo (dep [(70, [11]), (72, [0, 1])] 5)).st.nft 100 11 = some 5 := by
  refine ⟨⟨?_, ?_⟩, demo_reach.env, checkOp_env ?_, ?_, ?_⟩ <;> decide +kernel

-- C60_one_contract_partial: a deposit into the full collection
example : cfg1.Ok ∧ Reach cfg1 Env full ∧ Env full (dep [(70, [8])] 5) ∧ full.st.toRoot 70 ≠ none ∧
    (onEvent cfg1 full.st (.deposit (some ([70], [[8]], 5)))).2 ≠ none ∧
    (next cfg1 full (dep [(70, [8])] 5)).st.blocked 1 = some ⟨100, 5, [8]⟩ := by
  refine ⟨⟨?_, ?_⟩, full_reach.env, checkOp_env ?_, ?_, ?_, ?_⟩ <;> decide +kernel

-- C60_reclaim_only_receiver, C60_reclaim_sends_back, C60_record_kept, C60_reclaim_once
example : full.st.blocked 0 = some ⟨100, 8, [3, 4]⟩ ∧
    (step cfg1 full (.reclaim 8 0 600 true)).isOk = true ∧ (step cfg1 full (.reclaim 7 0 600 true)).isOk = false ∧
    (next cfg1 full (.reclaim 8 0 600 true)).pending = [⟨500, [(70, [3, 4])], 600⟩] ∧
    (step cfg1 (next cfg1 full (.reclaim 8 0 600 true)) (.reclaim 8 0 600 true)).isOk = false := by
  refine ⟨?_, ?_, ?_, ?_, ?_⟩ <;> decide +kernel

-- C128_withdraw: the last step of the history
example : (step cfg0 (exec cfg0 g0 (demoOps.take 3)) (.withdraw 8 [100] [[9, 4]] 600 true)).isOk = true ∧
    (step cfg0 (exec cfg0 g0 (demoOps.take 3)) (.withdraw 7 [100] [[9]] 600 true)).isOk = false ∧
    demo.pending = [⟨500, [(70, [9, 4])], 600⟩] ∧ Nft.ownerOf demo.st.nft 100 9 = none ∧
    Nft.ownerOf demo.st.nft 100 3 = some 7 := by
  refine ⟨?_, ?_, ?_, ?_, ?_⟩ <;> decide +kernel

-- C127_backed_partial: one token of each kind
example : At demo 70 3 (.chain 100 7) ∧ At demo 70 4 (.message 0 0 1) ∧ At full 70 3 (.record 0) ∧
    demo.custody 70 3 = true ∧ demo.custody 70 4 = true ∧ demo.custody 70 5 = false :=
  ⟨⟨by decide +kernel, by decide +kernel⟩, ⟨⟨500, [(70, [9, 4])], 600⟩, (70, [9, 4]), by decide +kernel, rfl, rfl, rfl⟩,
    ⟨⟨100, 8, [3, 4]⟩, by decide +kernel, by decide +kernel, by decide +kernel⟩, by decide +kernel, by decide +kernel,
    by decide +kernel⟩

end Verif.NftPeg
