import Mathlib.Algebra.BigOperators.Group.Finset.Basic
import Mathlib.Algebra.BigOperators.Group.Finset.Piecewise
import Mathlib.Algebra.Order.BigOperators.Group.Finset
import Mathlib.Tactic.Linarith
import Mathlib.Tactic.Ring
import Mathlib.Tactic.SplitIfs

/-!
# Shared vocabulary

Storage maps are total functions, updated pointwise by `upd`. Sums over all accounts are
expressed with `TotalIs f n`: the function `f` is zero outside some finite set and its values
add up to `n`.
-/

namespace Verif

/-- `u32::MAX + 1`. -/
def U32 : Nat := 4294967296
/-- `u64::MAX + 1`. -/
def U64 : Nat := 18446744073709551616
/-- `u128::MAX + 1`. `Balance` is `u128` (/repo/primitives/src/lib.rs). -/
def U128 : Nat := 340282366920938463463374607431768211456
/-- `U256::MAX + 1`. -/
def U256 : Nat := U128 * U128

/-- Pointwise update of a storage map. -/
def upd {α β : Type} [DecidableEq α] (f : α → β) (a : α) (v : β) : α → β :=
  fun x => if x = a then v else f x

section upd
variable {α β : Type} [DecidableEq α]

@[simp] theorem upd_same (f : α → β) (a : α) (v : β) : upd f a v a = v := by simp [upd]

theorem upd_ne (f : α → β) {a x : α} (v : β) (h : x ≠ a) : upd f a v x = f x := by simp [upd, h]

theorem upd_apply (f : α → β) (a x : α) (v : β) :
    upd f a v x = if x = a then v else f x := rfl

end upd

/-- `f` is non-zero only on a finite set of keys and its values add up to `n`. -/
def TotalIs {α : Type} (f : α → Nat) (n : Nat) : Prop :=
  ∃ S : Finset α, (∀ a, a ∉ S → f a = 0) ∧ S.sum f = n

namespace TotalIs
variable {α : Type}

theorem zero : TotalIs (fun _ : α => 0) 0 := ⟨∅, by simp, by simp⟩

/-- The total is unique. -/
theorem unique [DecidableEq α] {f : α → Nat} {n m : Nat} (h1 : TotalIs f n) (h2 : TotalIs f m) :
    n = m := by
  obtain ⟨S, hS, rfl⟩ := h1
  obtain ⟨T, hT, rfl⟩ := h2
  have e1 : S.sum f = (S ∪ T).sum f := by
    apply Finset.sum_subset Finset.subset_union_left
    intro x _ hx; exact hS x hx
  have e2 : T.sum f = (S ∪ T).sum f := by
    apply Finset.sum_subset Finset.subset_union_right
    intro x _ hx; exact hT x hx
  rw [e1, e2]

theorem le [DecidableEq α] {f : α → Nat} {n : Nat} (h : TotalIs f n) (a : α) : f a ≤ n := by
  obtain ⟨S, hS, rfl⟩ := h
  by_cases ha : a ∈ S
  · exact Finset.single_le_sum (f := f) (fun _ _ => Nat.zero_le _) ha
  · rw [hS a ha]; exact Nat.zero_le _

/-- Two distinct keys together hold at most the total. -/
theorem le₂ [DecidableEq α] {f : α → Nat} {n : Nat} (h : TotalIs f n) {a b : α} (hab : a ≠ b) :
    f a + f b ≤ n := by
  obtain ⟨S, hS, rfl⟩ := h
  have e : S.sum f = (S ∪ {a, b}).sum f := by
    apply Finset.sum_subset Finset.subset_union_left
    intro x _ hx; exact hS x hx
  rw [e, ← Finset.sum_pair (f := f) hab]
  exact Finset.sum_le_sum_of_subset Finset.subset_union_right

theorem upd [DecidableEq α] {f : α → Nat} {n : Nat} (h : TotalIs f n) (a : α) (v : Nat) :
    TotalIs (Verif.upd f a v) (n - f a + v) := by
  obtain ⟨S, hS, rfl⟩ := h
  refine ⟨insert a S, ?_, ?_⟩
  · intro x hx
    simp only [Finset.mem_insert, not_or] at hx
    rw [upd_ne _ _ hx.1]; exact hS x hx.2
  · have e : S.sum f = (insert a S).sum f := by
      apply Finset.sum_subset (Finset.subset_insert _ _)
      intro x _ hx; exact hS x hx
    rw [e]
    have hmem : a ∈ insert a S := Finset.mem_insert_self _ _
    have h1 := Finset.add_sum_erase _ f hmem
    have h2 := Finset.add_sum_erase _ (Verif.upd f a v) hmem
    have e2 : ((insert a S).erase a).sum (Verif.upd f a v) = ((insert a S).erase a).sum f := by
      apply Finset.sum_congr rfl
      intro x hx
      exact upd_ne _ _ (Finset.ne_of_mem_erase hx)
    rw [upd_same] at h2
    change _ + ((insert a S).erase a).sum (Verif.upd f a v) = (insert a S).sum (Verif.upd f a v) at h2
    change _ + ((insert a S).erase a).sum f = (insert a S).sum f at h1
    rw [e2] at h2
    omega

theorem upd_add [DecidableEq α] {f : α → Nat} {n : Nat} (h : TotalIs f n) (a : α) (x : Nat) :
    TotalIs (Verif.upd f a (f a + x)) (n + x) := by
  have := h.upd a (f a + x)
  have hle := h.le a
  have e : n - f a + (f a + x) = n + x := by omega
  rwa [e] at this

theorem upd_sub [DecidableEq α] {f : α → Nat} {n : Nat} (h : TotalIs f n) (a : α) (x : Nat)
    (hx : x ≤ f a) : TotalIs (Verif.upd f a (f a - x)) (n - x) := by
  have := h.upd a (f a - x)
  have hle := h.le a
  have e : n - f a + (f a - x) = n - x := by omega
  rwa [e] at this

theorem congr {f g : α → Nat} {n : Nat} (h : TotalIs f n) (e : ∀ a, g a = f a) :
    TotalIs g n := by
  have : g = f := funext e
  rwa [this]

theorem add [DecidableEq α] {f g : α → Nat} {n m : Nat} (hf : TotalIs f n) (hg : TotalIs g m) :
    TotalIs (fun a => f a + g a) (n + m) := by
  obtain ⟨S, hS, rfl⟩ := hf
  obtain ⟨T, hT, rfl⟩ := hg
  refine ⟨S ∪ T, ?_, ?_⟩
  · intro a ha
    simp only [Finset.mem_union, not_or] at ha
    simp only [hS a ha.1, hT a ha.2]
  · rw [Finset.sum_add_distrib]
    congr 1
    · symm; apply Finset.sum_subset Finset.subset_union_left
      intro x _ hx; exact hS x hx
    · symm; apply Finset.sum_subset Finset.subset_union_right
      intro x _ hx; exact hT x hx

theorem mono [DecidableEq α] {f g : α → Nat} {n m : Nat} (hf : TotalIs f n) (hg : TotalIs g m)
    (hle : ∀ a, f a ≤ g a) : n ≤ m := by
  obtain ⟨S, hS, rfl⟩ := hf
  obtain ⟨T, hT, rfl⟩ := hg
  have e1 : S.sum f = (S ∪ T).sum f := by
    apply Finset.sum_subset Finset.subset_union_left
    intro x _ hx; exact hS x hx
  have e2 : T.sum g = (S ∪ T).sum g := by
    apply Finset.sum_subset Finset.subset_union_right
    intro x _ hx; exact hT x hx
  rw [e1, e2]
  exact Finset.sum_le_sum (fun a _ => hle a)

end TotalIs

end Verif
