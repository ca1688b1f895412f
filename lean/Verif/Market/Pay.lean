import Verif.Market.Tokens
import Verif.Holds.Props

/-! # Payouts of a sale -/

namespace Verif.Market

/-- Sum of the shares of a schedule. -/
def shares (roy : List (Acct × Nat)) (amount : Nat) : Nat := (roy.map (fun x => share x.2 amount)).sum

/-- What a schedule gives to an account. -/
def shareOf (roy : List (Acct × Nat)) (amount : Nat) (y : Acct) : Nat :=
  (roy.map (fun x => if x.1 = y then share x.2 amount else 0)).sum

theorem share_mul (p amount : Nat) : 1000000 * share p amount ≤ p * amount + 499999 := by
  unfold share
  exact Nat.mul_div_le _ _

theorem shares_mul (amount : Nat) : ∀ roy : List (Acct × Nat),
    1000000 * shares roy amount ≤ (roy.map Prod.snd).sum * amount + 499999 * roy.length
  | [] => by simp [shares]
  | x :: roy => by
    have h1 := shares_mul amount roy
    have h2 := share_mul x.2 amount
    unfold shares at h1 ⊢
    rw [List.map_cons, List.sum_cons, List.map_cons, List.sum_cons, List.length_cons, Nat.add_mul, Nat.mul_add, Nat.mul_add]
    omega

/-- Rounding can exceed the price by three at most. -/
theorem shares_lt {roy : List (Acct × Nat)} (h : validShares roy = true) (amount : Nat) : shares roy amount < amount + 4 := by
  unfold validShares at h
  simp only [Bool.and_eq_true, decide_eq_true_eq] at h
  obtain ⟨⟨_, h8⟩, hs⟩ := h
  have h1 := shares_mul amount roy
  have h2 : (roy.map Prod.snd).sum * amount ≤ 1000000 * amount := Nat.mul_le_mul_right _ hs
  omega

/-- The wrapping subtraction of the royalties. -/
def remainder (roy : List (Acct × Nat)) (amount : Nat) : Nat :=
  roy.foldl (fun acc x => (acc + U128 - share x.2 amount) % U128) amount

theorem fold_exact (amount : Nat) : ∀ (roy : List (Acct × Nat)) (acc : Nat), acc < U128 → shares roy amount ≤ acc →
    roy.foldl (fun acc x => (acc + U128 - share x.2 amount) % U128) acc = acc - shares roy amount
  | [], acc, _, _ => by simp [shares]
  | x :: roy, acc, h, hle => by
    unfold shares at hle
    rw [List.map_cons, List.sum_cons] at hle
    rw [List.foldl_cons]
    have e : (acc + U128 - share x.2 amount) % U128 = acc - share x.2 amount := by
      have : acc + U128 - share x.2 amount = (acc - share x.2 amount) + U128 := by omega
      rw [this, Nat.add_mod_right, Nat.mod_eq_of_lt (by omega)]
    rw [e, fold_exact amount roy _ (by omega) (by unfold shares; omega)]
    unfold shares
    rw [List.map_cons, List.sum_cons]
    omega

theorem fold_mod (amount : Nat) : ∀ (roy : List (Acct × Nat)) (acc : Nat), (∀ x ∈ roy, share x.2 amount ≤ U128) →
    (roy.foldl (fun acc x => (acc + U128 - share x.2 amount) % U128) acc + shares roy amount) % U128 = acc % U128
  | [], acc, _ => by simp [shares]
  | x :: roy, acc, h => by
    rw [List.foldl_cons]
    have h1 := h x List.mem_cons_self
    have ih := fold_mod amount roy ((acc + U128 - share x.2 amount) % U128) (fun y hy => h y (List.mem_cons_of_mem _ hy))
    unfold shares at ih ⊢
    rw [List.map_cons, List.sum_cons]
    rw [Nat.mod_mod] at ih
    generalize List.foldl _ _ roy = F at *
    generalize (roy.map (fun x => share x.2 amount)).sum = S at *
    have : (F + (share x.2 amount + S)) % U128 = ((F + S) % U128 + share x.2 amount) % U128 := by
      rw [Nat.mod_add_mod]; congr 1; omega
    rw [this, ih, Nat.mod_add_mod]
    have : acc + U128 - share x.2 amount + share x.2 amount = acc + U128 := by omega
    rw [this, Nat.add_mod_right]

theorem fold_lt (amount : Nat) : ∀ (roy : List (Acct × Nat)) (acc : Nat), acc < U128 →
    roy.foldl (fun acc x => (acc + U128 - share x.2 amount) % U128) acc < U128
  | [], acc, h => h
  | x :: roy, acc, h => by
    rw [List.foldl_cons]
    exact fold_lt amount roy _ (Nat.mod_lt _ (by unfold U128; omega))

theorem share_le {roy : List (Acct × Nat)} {amount : Nat} {x : Acct × Nat} (hx : x ∈ roy) : share x.2 amount ≤ shares roy amount := by
  unfold shares
  exact List.single_le_sum (fun _ _ => Nat.zero_le _) _ (List.mem_map_of_mem hx)

/-- The schedule a listing carries: empty or valid. -/
def GoodRoy (roy : List (Acct × Nat)) : Prop := roy = [] ∨ validShares roy = true

theorem shares_zero {roy : List (Acct × Nat)} (h : (roy.map Prod.snd).sum = 0) (amount : Nat) : shares roy amount = 0 ∧
    ∀ y, shareOf roy amount y = 0 := by
  have hz : ∀ x ∈ roy, share x.2 amount = 0 := by
    intro x hx
    have h1 : x.2 ≤ (roy.map Prod.snd).sum := List.single_le_sum (fun _ _ => Nat.zero_le _) _ (List.mem_map_of_mem hx)
    have : x.2 = 0 := by omega
    unfold share
    rw [this, Nat.zero_mul]
  constructor
  · unfold shares
    rw [List.sum_eq_zero]
    intro y hy
    obtain ⟨x, hx, rfl⟩ := List.mem_map.mp hy
    exact hz x hx
  · intro y
    unfold shareOf
    rw [List.sum_eq_zero]
    intro z hy
    obtain ⟨x, hx, rfl⟩ := List.mem_map.mp hy
    rw [hz x hx]
    split <;> rfl

/-- The payouts when the royalties do not exceed the price. -/
theorem payouts_spec {seller : Acct} {roy : List (Acct × Nat)} {amount : Nat} (hg : GoodRoy roy) (ha : amount < U128)
    (hle : shares roy amount ≤ amount) :
    ((payouts seller roy amount).map Prod.snd).sum = amount ∧
    ∀ y, Holds.paid (payouts seller roy amount) y = shareOf roy amount y + if y = seller then amount - shares roy amount else 0 := by
  unfold payouts
  by_cases hc : validShares roy = true ∧ (roy.map Prod.snd).sum ≠ 0
  · rw [if_pos hc, fold_exact amount roy amount ha hle]
    constructor
    · rw [List.map_append, List.sum_append, List.map_map]
      change shares roy amount + _ = _
      simp only [List.map_cons, List.map_nil, List.sum_cons, List.sum_nil]
      omega
    · intro y
      unfold Holds.paid
      rw [List.map_append, List.sum_append, List.map_map]
      change shareOf roy amount y + _ = _
      congr 1
      simp only [List.map_cons, List.map_nil, List.sum_cons, List.sum_nil, Nat.add_zero]
      by_cases h : seller = y
      · rw [if_pos h, if_pos h.symm]
      · rw [if_neg h, if_neg (fun hx => h hx.symm)]
  · rw [if_neg hc]
    have h0 : (roy.map Prod.snd).sum = 0 := by
      rcases hg with rfl | hv
      · rfl
      · by_contra hn; exact hc ⟨hv, hn⟩
    obtain ⟨z1, z2⟩ := shares_zero h0 amount
    constructor
    · simp
    · intro y
      rw [z2, z1]
      unfold Holds.paid
      simp only [List.map_cons, List.map_nil, List.sum_cons, List.sum_nil, Nat.add_zero, Nat.sub_zero, Nat.zero_add]
      by_cases h : seller = y
      · rw [if_pos h, if_pos h.symm]
      · rw [if_neg h, if_neg (fun hx => h hx.symm)]

/-- If the payments go through, the royalties did not exceed the price. -/
theorem payouts_fit {seller : Acct} {roy : List (Acct × Nat)} {amount : Nat} (hg : GoodRoy roy) (ha : amount < U128)
    {L L' : Ledger} {a : AssetId} {src : Acct} (hp : Holds.payAll L a src (payouts seller roy amount) = .ok L')
    (hs : L.Sound) (hi : L.iss a + 8 < U128) : shares roy amount ≤ amount := by
  by_contra hn
  have hx := Holds.payAll_le hp hs
  by_cases hc : validShares roy = true ∧ (roy.map Prod.snd).sum ≠ 0
  · have hlt := shares_lt hc.1 amount
    unfold payouts at hx
    rw [if_pos hc] at hx
    have hF := hx _ (List.mem_append_right _ (List.mem_singleton.mpr rfl))
    dsimp only at hF
    have hsh : ∀ x ∈ roy, share x.2 amount ≤ U128 := by
      intro x hxm
      have := hx (x.1, share x.2 amount) (List.mem_append_left _ (List.mem_map.mpr ⟨x, hxm, rfl⟩))
      dsimp only at this
      omega
    have e := fold_mod amount roy amount hsh
    have hl := fold_lt amount roy amount ha
    generalize List.foldl _ _ roy = F at *
    rw [Nat.mod_eq_of_lt ha] at e
    -- F + R ≡ amount, R between amount + 1 and amount + 3, F < U128
    have h1 : F + shares roy amount < 2 * U128 + amount := by omega
    have h2 := Nat.div_add_mod (F + shares roy amount) U128
    rw [e] at h2
    generalize hq : (F + shares roy amount) / U128 = q at *
    clear hq e
    simp only [U128] at h1 h2 hl hi hF
    omega
  · have h0 : (roy.map Prod.snd).sum = 0 := by
      rcases hg with rfl | hv
      · rfl
      · by_contra hne; exact hc ⟨hv, hne⟩
    rw [(shares_zero h0 amount).1] at hn
    omega

end Verif.Market
