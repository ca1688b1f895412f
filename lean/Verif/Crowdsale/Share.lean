import Verif.Crowdsale.Ops

/-!
# Arithmetic of the shares
-/

namespace Verif.Crowdsale

/-- A contributor's share never exceeds the whole supply. -/
theorem share_le {price raised supply x : Nat} (hp : 0 < price) (hx : x ≤ raised) :
    share price raised supply x ≤ supply * unit := by
  unfold share unit
  split
  · rename_i h
    apply Nat.div_le_of_le_mul
    calc x * 1000000 ≤ price * supply * 1000000 := Nat.mul_le_mul_right _ (le_trans hx h)
      _ = price * (supply * 1000000) := by ring
  · apply Nat.div_le_of_le_mul
    calc x * 1000000 * supply ≤ raised * 1000000 * supply := by gcongr
      _ = raised * (supply * 1000000) := by ring

/-- Inside the 128-bit range the code computes the share exactly. -/
theorem rewards_eq {price raised supply x : Nat} (hp : 0 < price) (hr : raised < U128) (hx : x ≤ raised)
    (hm : supply * unit < U128) : rewards price raised x supply = .ok (share price raised supply x) := by
  have hs := share_le (supply := supply) hp hx
  have hy : x * unit ≤ U256 - 1 := by
    have : x * unit ≤ U128 * unit := Nat.mul_le_mul_right _ (by omega)
    simp only [U256, U128, unit] at *
    omega
  have hm' : supply * 1000000 < U128 := hm
  have hys : x * unit * supply ≤ U256 - 1 := by
    have h1 : x * (supply * unit) ≤ (U128 - 1) * (U128 - 1) :=
      Nat.mul_le_mul (by omega) (by omega)
    have e : x * unit * supply = x * (supply * unit) := by ring
    rw [e]
    refine le_trans h1 ?_
    simp only [U256, U128]; omega
  have e1 : min (x * unit) (U256 - 1) = x * unit := min_eq_left hy
  have e2 : min (x * unit * supply) (U256 - 1) = x * unit * supply := min_eq_left hys
  unfold rewards
  simp only [e1, e2]
  by_cases hc : raised ≤ price * supply
  · have hn : ¬ raised > satMul price supply := by
      unfold satMul
      rw [not_lt, le_min_iff]
      exact ⟨hc, by omega⟩
    have hs2 : share price raised supply x = x * unit / price := by
      unfold share unit; rw [if_pos hc]
    rw [hs2] at hs
    have e3 : min (x * unit / price) (U128 - 1) = x * unit / price := min_eq_left (by omega)
    rw [if_neg hn, if_neg (by omega), hs2]
    simp only [bind, Except.bind, pure, Except.pure, e3]
  · have hn : raised > satMul price supply := by
      unfold satMul
      exact lt_of_le_of_lt (min_le_left _ _) (by omega)
    have hs2 : share price raised supply x = x * unit * supply / raised := by
      unfold share unit; rw [if_neg hc]
    rw [hs2] at hs
    have e3 : min (x * unit * supply / raised) (U128 - 1) = x * unit * supply / raised := min_eq_left (by omega)
    rw [if_pos hn, if_neg (by omega), hs2]
    simp only [bind, Except.bind, pure, Except.pure, e3]

/-- Rounding every term down loses at least as much as rounding the sum down. -/
theorem sum_div_le {α : Type} (f : α → Nat) (d : Nat) : ∀ l : List α,
    (l.map (fun a => f a / d)).sum ≤ (l.map f).sum / d
  | [] => by simp
  | a :: l => by
    have ih := sum_div_le f d l
    simp only [List.map_cons, List.sum_cons]
    refine le_trans (Nat.add_le_add_left ih _) ?_
    rcases Nat.eq_zero_or_pos d with rfl | hd
    · simp
    · rw [Nat.le_div_iff_mul_le hd, Nat.add_mul]
      exact Nat.add_le_add (Nat.div_mul_le_self _ _) (Nat.div_mul_le_self _ _)

theorem sum_mul {α : Type} (f : α → Nat) (n : Nat) : ∀ l : List α,
    (l.map (fun a => f a * n)).sum = (l.map f).sum * n
  | [] => by simp
  | a :: l => by
    simp only [List.map_cons, List.sum_cons, sum_mul f n l, Nat.add_mul]

/-- All shares together: at most what the price gives for the whole sum, and at most the supply. -/
theorem shares_le {α : Type} {price raised supply : Nat} (hp : 0 < price) (f : α → Nat) (l : List α)
    (hl : (l.map f).sum ≤ raised) :
    (l.map (fun a => share price raised supply (f a))).sum ≤ supply * unit ∧
    (raised ≤ price * supply →
      (l.map (fun a => share price raised supply (f a))).sum ≤ raised * unit / price) := by
  unfold share unit
  by_cases hc : raised ≤ price * supply
  · simp only [hc, if_true, true_implies]
    have h1 := sum_div_le (fun a => f a * 1000000) price l
    rw [sum_mul] at h1
    have h2 : (l.map f).sum * 1000000 / price ≤ raised * 1000000 / price :=
      Nat.div_le_div_right (Nat.mul_le_mul_right _ hl)
    refine ⟨?_, le_trans h1 h2⟩
    refine le_trans h1 (le_trans h2 ?_)
    apply Nat.div_le_of_le_mul
    calc raised * 1000000 ≤ price * supply * 1000000 := Nat.mul_le_mul_right _ hc
      _ = price * (supply * 1000000) := by ring
  · simp only [hc, if_false, false_implies, and_true]
    have h1 := sum_div_le (fun a => f a * 1000000 * supply) raised l
    have e : (fun a => f a * 1000000 * supply) = (fun a => f a * (1000000 * supply)) := by
      funext a; ring
    rw [e, sum_mul] at h1
    refine le_trans h1 ?_
    apply Nat.div_le_of_le_mul
    calc (l.map f).sum * (1000000 * supply) ≤ raised * (1000000 * supply) := Nat.mul_le_mul_right _ hl
      _ = raised * (supply * 1000000) := by ring

/-- What closing keeps in the vault covers all shares, as long as a million times the funds fit in 128 bits. -/
theorem kept_covers {α : Type} {i : Sale} {supply : Nat} (hp : 0 < i.price) (f : α → Nat) (l : List α)
    (hl : (l.map f).sum ≤ i.raised) (hm : supply * unit < U128) (hr : i.raised * unit < U128) {b : Nat}
    (hb : supply * unit ≤ b) :
    (l.map (fun a => share i.price i.raised supply (f a))).sum ≤ b - refund i supply := by
  obtain ⟨h1, h2⟩ := shares_le (supply := supply) hp f l hl
  unfold refund
  split
  · rename_i hlt
    have hle : i.raised ≤ i.price * supply := by
      unfold satMul at hlt
      exact le_trans (le_of_lt hlt) (min_le_left _ _)
    have h3 := h2 hle
    have e1 : satMul supply unit = supply * unit := min_eq_left (by omega)
    have e2 : satMul i.raised unit = i.raised * unit := min_eq_left (by omega)
    rw [e1, e2]
    omega
  · omega

/-- The refund never exceeds the supply. -/
theorem refund_le (i : Sale) (m : Nat) : refund i m ≤ m * unit := by
  unfold refund
  split
  · have : satMul m unit ≤ m * unit := min_le_left _ _
    exact le_trans (Nat.sub_le _ _) this
  · exact Nat.zero_le _

end Verif.Crowdsale
