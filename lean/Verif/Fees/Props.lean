import Verif.Fees.Model

/-! # C206: what a native transaction costs -/

namespace Verif.Fees

open Verif

inductive Reach : St → Prop where
  | init : Reach start
  | step {s s' : St} {op : Op} : Reach s → step s op = .ok s' → Reach s'

/-- Values have the range of their types. -/
structure Typed (s : St) : Prop where
  baseFee : s.baseFee < U256
  weightMul : s.weightMul ≤ 1000000000
  lengthMul : s.lengthMul < U128

theorem Reach.typed {s : St} (h : Reach s) : Typed s := by
  induction h with
  | init => exact ⟨by decide +kernel, by decide +kernel, by decide +kernel⟩
  | @step s s' op _ he ih =>
    cases op with
    | setBaseFee o v =>
      simp only [Fees.step, bind_ok, ensure_ok, pure_ok] at he
      obtain ⟨_, _, _, hv, rfl⟩ := he
      exact ⟨hv, ih.weightMul, ih.lengthMul⟩
    | setWeightMul o v =>
      simp only [Fees.step, bind_ok, ensure_ok, pure_ok] at he
      obtain ⟨_, _, _, hv, rfl⟩ := he
      exact ⟨ih.baseFee, hv, ih.lengthMul⟩
    | setLengthMul o v =>
      simp only [Fees.step, bind_ok, ensure_ok, pure_ok] at he
      obtain ⟨_, _, _, hv, rfl⟩ := he
      exact ⟨ih.baseFee, ih.weightMul, hv⟩

/-! ## Who sets them -/

def Op.origin : Op → Origin
  | .setBaseFee o _ => o
  | .setWeightMul o _ => o
  | .setLengthMul o _ => o

/-- **C206** — only root changes what transactions cost, and each call changes the one value it names to the value given. -/
theorem C206_root {s s' : St} {op : Op} (h : step s op = .ok s') : op.origin = .root ∧
    match op with
    | .setBaseFee _ v => s'.baseFee = v ∧ s'.weightMul = s.weightMul ∧ s'.lengthMul = s.lengthMul
    | .setWeightMul _ v => s'.weightMul = v ∧ s'.baseFee = s.baseFee ∧ s'.lengthMul = s.lengthMul
    | .setLengthMul _ v => s'.lengthMul = v ∧ s'.baseFee = s.baseFee ∧ s'.weightMul = s.weightMul := by
  cases op with
  | setBaseFee o v =>
    simp only [Fees.step, bind_ok, ensure_ok, pure_ok] at h
    obtain ⟨_, ho, _, _, rfl⟩ := h
    exact ⟨ho, rfl, rfl, rfl⟩
  | setWeightMul o v =>
    simp only [Fees.step, bind_ok, ensure_ok, pure_ok] at h
    obtain ⟨_, ho, _, _, rfl⟩ := h
    exact ⟨ho, rfl, rfl, rfl⟩
  | setLengthMul o v =>
    simp only [Fees.step, bind_ok, ensure_ok, pure_ok] at h
    obtain ⟨_, ho, _, _, rfl⟩ := h
    exact ⟨ho, rfl, rfl, rfl⟩

example : (step start (.setLengthMul .root 400)).isOk = true ∧ (step start (.setLengthMul (.signed 5) 400)).isOk = false := by
  decide +kernel

/-! ## The part for the weight -/

/-- The share, rounded to nearest, ties down. -/
theorem perbill_eq (p x : Nat) : perbill p x = (x * p + 499999999) / 1000000000 := by
  unfold perbill
  have e : x * p = x / 1000000000 * p * 1000000000 + x % 1000000000 * p := by
    have := Nat.div_add_mod x 1000000000
    calc x * p = (1000000000 * (x / 1000000000) + x % 1000000000) * p := by rw [this]
      _ = _ := by ring
  rw [e]
  generalize x / 1000000000 * p = a
  generalize x % 1000000000 * p = b
  split <;> omega

/-- **C206** — the part of the fee for the weight is the set share of it, to within half a unit. -/
theorem C206_weight (s : St) (w : Nat) : 2 * (weightToFee s w * 1000000000) ≤ 2 * (w * s.weightMul) + 1000000000 ∧
    2 * (w * s.weightMul) ≤ 2 * (weightToFee s w * 1000000000) + 1000000000 := by
  unfold weightToFee
  rw [perbill_eq]
  generalize w * s.weightMul = a
  omega

theorem perbill_mono {p q x y : Nat} (hp : p ≤ q) (hx : x ≤ y) : perbill p x ≤ perbill q y := by
  rw [perbill_eq, perbill_eq]
  exact Nat.div_le_div_right (Nat.add_le_add_right (Nat.mul_le_mul hx hp) _)

/-! ## The whole fee -/

theorem addSat_mono {a b a' b' : Nat} (h1 : a ≤ a') (h2 : b ≤ b') : addSat a b ≤ addSat a' b' := by
  unfold addSat
  omega

/-- `t` asks for no more than `t'`. -/
structure Le (t t' : Tx) : Prop where
  length : t.length ≤ t'.length
  weight : t.weight ≤ t'.weight
  tip : t.tip ≤ t'.tip
  pays : t.pays = true → t'.pays = true

/-- **C206, in part** — a transaction that is longer, heavier or tips more does not cost less, as long as root charges less
than 2^96 drops per byte (it starts with 350). -/
theorem C206_monotone_partial {s : St} (hs : s.lengthMul < 2 ^ 96) {e : Env} {t t' : Tx} (h : Le t t')
    (hl : t'.length < U32) (ht : t'.tip < U128) : fee s e t ≤ fee s e t' := by
  have hlen : ∀ n, n < U32 → lengthToFee s n = s.lengthMul * n := by
    intro n hn
    refine Nat.mod_eq_of_lt ?_
    calc s.lengthMul * n ≤ s.lengthMul * U32 := Nat.mul_le_mul_left _ (by omega)
      _ < 2 ^ 96 * U32 := Nat.mul_lt_mul_of_pos_right hs (by decide)
      _ = U128 := by decide +kernel
  have hll : lengthToFee s t.length ≤ lengthToFee s t'.length := by
    rw [hlen _ (Nat.lt_of_le_of_lt h.length hl), hlen _ hl]
    exact Nat.mul_le_mul_left _ h.length
  have hww : weightToFee s (min t.weight e.maxBlock) ≤ weightToFee s (min t'.weight e.maxBlock) :=
    perbill_mono (Nat.le_refl _) (by have := h.weight; omega)
  unfold fee
  cases hp : t.pays with
  | true =>
    rw [h.pays hp]
    simp only [if_true]
    refine addSat_mono (addSat_mono (addSat_mono (Nat.le_refl _) hll) ?_) h.tip
    have := Nat.div_le_div_right (c := 1000000000000000000) (Nat.mul_le_mul_left e.adjust hww)
    omega
  | false =>
    simp only [Bool.false_eq_true, if_false]
    have := h.tip
    cases t'.pays with
    | true =>
      simp only [if_true]
      unfold addSat
      omega
    | false => exact this

def env0 : Env := ⟨86309000, 1000000000000, 1000000000000000000⟩
def small : Tx := ⟨150, 200000000, 0, true⟩
def large : Tx := ⟨1500, 900000000, 3, true⟩

example : Le small large ∧ large.length < U32 ∧ start.lengthMul < 2 ^ 96 ∧ fee start env0 small = 81131 ∧
    fee start env0 large = 623634 := by
  refine ⟨⟨?_, ?_, ?_, fun _ => rfl⟩, ?_, ?_, ?_, ?_⟩ <;> decide +kernel

/-- **C206 fails** — root may charge so much per byte that the product wraps: then a longer transaction costs less, even
nothing for its length. -/
theorem C206_wrap_refuted : ¬ ∀ (s : St) (e : Env) (t t' : Tx), Reach s → Le t t' → t'.length < U32 → t'.tip < U128 →
    fee s e t ≤ fee s e t' := by
  intro h
  have hr : Reach ⟨7500000000000, 100000, 2 ^ 120⟩ :=
    .step .init (show step start (.setLengthMul .root (2 ^ 120)) = .ok ⟨7500000000000, 100000, 2 ^ 120⟩ by
      simp only [Fees.step, bind_ok, ensure_ok, pure_ok]
      exact ⟨(), trivial, (), by decide +kernel, rfl⟩)
  have := h _ env0 ⟨255, 0, 0, true⟩ ⟨256, 0, 0, true⟩ hr ⟨by decide, by decide, by decide, fun _ => rfl⟩ (by decide +kernel)
    (by decide +kernel)
  revert this
  decide +kernel

/-- **C206** — raising a multiplier never makes a transaction cheaper (while it does not wrap), and a transaction that pays costs
at least its tip. -/
theorem C206_dearer {s s' : St} (h1 : s.weightMul ≤ s'.weightMul) (h2 : s.lengthMul ≤ s'.lengthMul) (h3 : s'.lengthMul < 2 ^ 96)
    {e : Env} {t : Tx} (hl : t.length < U32) (ht : t.tip < U128) : fee s e t ≤ fee s' e t ∧ t.tip ≤ fee s e t := by
  have hlen : ∀ s : St, s.lengthMul < 2 ^ 96 → lengthToFee s t.length = s.lengthMul * t.length := by
    intro s hs
    refine Nat.mod_eq_of_lt ?_
    calc s.lengthMul * t.length ≤ s.lengthMul * U32 := Nat.mul_le_mul_left _ (by omega)
      _ < 2 ^ 96 * U32 := Nat.mul_lt_mul_of_pos_right hs (by decide)
      _ = U128 := by decide +kernel
  constructor
  · unfold fee
    split
    · refine addSat_mono (addSat_mono (addSat_mono (perbill_mono h1 (Nat.le_refl _)) ?_) ?_) (Nat.le_refl _)
      · rw [hlen s (by omega), hlen s' h3]
        exact Nat.mul_le_mul_right _ h2
      · have hw : weightToFee s (min t.weight e.maxBlock) ≤ weightToFee s' (min t.weight e.maxBlock) :=
          perbill_mono h1 (Nat.le_refl _)
        have := Nat.div_le_div_right (c := 1000000000000000000) (Nat.mul_le_mul_left e.adjust hw)
        omega
    · exact Nat.le_refl _
  · unfold fee
    split
    · unfold addSat
      omega
    · exact Nat.le_refl _

example : fee start env0 small < fee { start with weightMul := 200000 } env0 small := by decide +kernel

end Verif.Fees
