import Verif.Xrpl.Frames

/-!
# C41, C89: amounts of withdrawals
-/

namespace Verif.Xrpl

theorem shrinkLoop_fuel : ∀ (n m x : Nat), x ≤ n → x ≤ m → shrinkLoop n x = shrinkLoop m x
  | 0, m, x, h, _ => by
    have : x = 0 := by omega
    subst this
    cases m <;> simp [shrinkLoop]
  | n + 1, 0, x, _, h => by
    have : x = 0 := by omega
    subst this
    simp [shrinkLoop]
  | n + 1, m + 1, x, h1, h2 => by
    simp only [shrinkLoop]
    split
    · rw [shrinkLoop_fuel n m (x / 10) (by omega) (by omega)]
    · rfl

theorem shrink_small {x : Nat} (h : x ≤ 9999999999999999) : shrink x = (x, 0) := by
  unfold shrink
  cases x with
  | zero => rfl
  | succ x => simp only [shrinkLoop]; rw [if_neg (by omega)]

theorem shrink_big {x : Nat} (h : 9999999999999999 < x) : shrink x = ((shrink (x / 10)).1, (shrink (x / 10)).2 + 1) := by
  unfold shrink
  cases x with
  | zero => omega
  | succ x =>
    simp only [shrinkLoop]
    rw [if_pos h, shrinkLoop_fuel x ((x + 1) / 10) ((x + 1) / 10) (by omega) (Nat.le_refl _)]

/-- At most 16 digits are kept, exactly 16 when some are dropped, and the dropped ones are the last. -/
theorem shrink_spec : ∀ (n x : Nat), x ≤ n → (shrink x).1 ≤ 9999999999999999 ∧ (shrink x).1 * 10 ^ (shrink x).2 ≤ x ∧
    x < ((shrink x).1 + 1) * 10 ^ (shrink x).2 ∧ ((shrink x).2 ≠ 0 → 1000000000000000 ≤ (shrink x).1)
  | 0, x, h => by
    rw [shrink_small (by omega)]
    simp
    omega
  | n + 1, x, h => by
    by_cases hx : x ≤ 9999999999999999
    · rw [shrink_small hx]
      simp
      exact hx
    · rw [shrink_big (by omega)]
      obtain ⟨h1, h2, h3, h4⟩ := shrink_spec n (x / 10) (by omega)
      dsimp only
      refine ⟨h1, ?_, ?_, fun _ => ?_⟩
      · rw [Nat.pow_succ, ← Nat.mul_assoc]
        omega
      · rw [Nat.pow_succ, ← Nat.mul_assoc]
        omega
      · by_cases e : (shrink (x / 10)).2 = 0
        · rw [e] at h2 h3
          simp only [Nat.pow_zero, Nat.mul_one] at h2 h3
          omega
        · exact h4 e

theorem shrink_mul {m : Nat} (h1 : m ≤ 9999999999999999) (h2 : 1000000000000000 ≤ m) : ∀ k, shrink (m * 10 ^ k) = (m, k)
  | 0 => by rw [Nat.pow_zero, Nat.mul_one]; exact shrink_small h1
  | k + 1 => by
    have hp : 1 ≤ 10 ^ k := Nat.one_le_pow _ _ (by omega)
    have hm : 1000000000000000 * 1 ≤ m * 10 ^ k := Nat.mul_le_mul h2 hp
    have e : m * 10 ^ (k + 1) = m * 10 ^ k * 10 := by rw [Nat.pow_succ, Nat.mul_assoc]
    rw [shrink_big (by rw [e]; omega), e, Nat.mul_div_cancel _ (by omega), shrink_mul h1 h2 k]

/-- Shrinking twice loses nothing the second time. -/
theorem shrink_exact (x : Nat) : shrink ((shrink x).1 * 10 ^ (shrink x).2) = shrink x := by
  obtain ⟨h1, _, _, h4⟩ := shrink_spec x x (Nat.le_refl _)
  by_cases e : (shrink x).2 = 0
  · rw [e, Nat.pow_zero, Nat.mul_one, shrink_small h1, ← e]
  · rw [shrink_mul h1 (h4 e)]

/-- Specification: mantissa `m` and exponent `e` denote `y` base units of an asset with `dec` decimals. -/
def Worth (m : Nat) (e : Int) (dec y : Nat) : Prop := 0 ≤ e + dec ∧ y = m * 10 ^ (e + dec).toNat

/-- An amount that can be sent without loss. -/
def Exact (y : Nat) : Prop := y = (shrink y).1 * 10 ^ (shrink y).2

theorem mantExp_ok {x dec : Nat} {r : Nat × Int} (h : mantExp x dec = .ok r) :
    dec < 128 ∧ r.1 = (shrink x).1 ∧ r.2 = ((shrink x).2 : Int) - dec := by
  simp only [mantExp, bind_ok, ensure_ok, pure_ok] at h
  obtain ⟨_, h1, rfl⟩ := h
  exact ⟨h1, rfl, rfl⟩

theorem mantExp_worth {x dec : Nat} {r : Nat × Int} (h : mantExp x dec = .ok r) (he : Exact x) :
    Worth r.1 r.2 dec x ∧ r.1 < 10 ^ 16 := by
  obtain ⟨_, h1, h2⟩ := mantExp_ok h
  have := (shrink_spec x x (Nat.le_refl _)).1
  refine ⟨⟨by omega, ?_⟩, by rw [h1]; omega⟩
  rw [h1, h2]
  have e : (((shrink x).2 : Int) - dec + dec).toNat = (shrink x).2 := by omega
  rw [e]
  exact he

/-- C41: what is taken from the user for an issued currency. The amount `y` has at most 16 significant digits, is at most what was
asked for, and what is cut off is less than one unit of the last digit kept and less than one whole token. -/
theorem C41_rounding {c : Cfg} {s : St} {x y : Nat} {a : AssetId} (ha : a ≠ c.xrp) (h : saturate c s x a = .ok y) :
    ∃ m k, y = m * 10 ^ k ∧ m < 10 ^ 16 ∧ y ≤ x ∧ x - y < 10 ^ k ∧ x - y < 10 ^ s.dec a ∧ (k ≠ 0 → 10 ^ 15 ≤ m) := by
  simp only [saturate, if_neg ha, bind_ok, ensure_ok, pure_ok] at h
  obtain ⟨_, h0, r, hr, _, h1, rfl⟩ := h
  obtain ⟨_, h2, h3⟩ := mantExp_ok hr
  have e : r.2.toNat = (shrink x).2 := by omega
  rw [h2, e] at h1
  obtain ⟨k1, k2, k3, k4⟩ := shrink_spec x x (Nat.le_refl _)
  refine ⟨(shrink x).1, (shrink x).2, by rw [h2, e], by omega, by rw [h2, e]; exact k2, ?_, ?_, fun h => by have := k4 h; omega⟩
  · rw [h2, e]
    rw [Nat.add_mul, Nat.one_mul] at k3
    omega
  · rw [h2, e]
    exact Nat.lt_of_lt_of_le h1 (Nat.mod_le _ _)

/-- A withdrawal request that has no more than 16 significant digits is taken in full. -/
theorem C41_full {c : Cfg} {s : St} {x y : Nat} {a : AssetId} (h : saturate c s x a = .ok y)
    (hx : a = c.xrp ∨ x < 10 ^ 16 ∨ ∃ m k, x = m * 10 ^ k ∧ 10 ^ 15 ≤ m ∧ m < 10 ^ 16) : y = x := by
  by_cases ha : a = c.xrp
  · simp only [saturate, if_pos ha] at h
    cases h; rfl
  · simp only [saturate, if_neg ha, bind_ok, ensure_ok, pure_ok] at h
    obtain ⟨_, h0, r, hr, _, h1, rfl⟩ := h
    obtain ⟨_, h2, h3⟩ := mantExp_ok hr
    have e : r.2.toNat = (shrink x).2 := by omega
    rw [h2, e]
    rcases hx with hx | hx | ⟨m, k, rfl, h5, h6⟩
    · exact absurd hx ha
    · rw [shrink_small (by omega)]; simp
    · rw [shrink_mul (by omega) (by omega)]

theorem saturate_exact {c : Cfg} {s : St} {x y : Nat} {a : AssetId} (ha : a ≠ c.xrp) (h : saturate c s x a = .ok y) : Exact y := by
  simp only [saturate, if_neg ha, bind_ok, ensure_ok, pure_ok] at h
  obtain ⟨_, h0, r, hr, _, h1, rfl⟩ := h
  obtain ⟨_, h2, h3⟩ := mantExp_ok hr
  have e : r.2.toNat = (shrink x).2 := by omega
  rw [h2, e]
  unfold Exact
  rw [shrink_exact]

/-- Specification: the money of a withdrawal of `y` of `a` by `who` was taken: the fee in XRP, the amount in `a`; destroyed,
except for the native asset, which goes to the bridge's account. -/
structure Taken (c : Cfg) (fee : Nat) (L L' : Ledger) (who : Acct) (a : AssetId) (y : Nat) : Prop where
  xrp : L'.bal c.xrp who + fee + (if a = c.xrp then y else 0) = L.bal c.xrp who
  xrpIss : L'.iss c.xrp + fee + (if a = c.xrp then y else 0) = L.iss c.xrp
  asset : a ≠ c.xrp → a ≠ c.native → L'.bal a who + y = L.bal a who ∧ L'.iss a + y = L.iss a
  native : a = c.native → L'.iss a = L.iss a ∧ (who ≠ c.pot → L'.bal a who + y = L.bal a who ∧
    L'.bal a c.pot = L.bal a c.pot + y) ∧ (who = c.pot → L'.bal a who = L.bal a who)
  others : ∀ z, z ≠ who → ∀ b, (b = c.native → a = c.native → z ≠ c.pot) → L'.bal b z = L.bal b z
  rest : ∀ b, b ≠ c.xrp → b ≠ a → L'.bal b = L.bal b ∧ L'.iss b = L.iss b

theorem take_ok {c : Cfg} {s : St} {who : Acct} {a : AssetId} {y : Nat} {r : Ledger × Option Cur} (hx : c.xrp ≠ c.native)
    (hS : s.ledger.Sound) (h : take c s who a y = .ok r) : Taken c (s.fee .main) s.ledger r.1 who a y ∧
      (a = c.xrp → r.2 = none) ∧ (a ≠ c.xrp → r.2 = s.toXrpl a ∧ r.2 ≠ none) := by
  unfold take at h
  split at h
  · rename_i ha
    subst ha
    simp only [bind_ok, ensure_ok, pure_ok] at h
    obtain ⟨_, _, L, hL, rfl⟩ := h
    obtain ⟨h1, h2, h3, h4, h5⟩ := Ledger.burn_ok hL
    have hle := (hS c.xrp).1.le who
    refine ⟨⟨?_, ?_, ?_, ?_, ?_, ?_⟩, fun _ => rfl, fun h => absurd rfl h⟩
    · have := h5 who
      simp only [if_true] at this ⊢
      omega
    · simp only [if_true]; omega
    · intro h; exact absurd rfl h
    · intro h; exact absurd h hx
    · intro z hz b _
      by_cases e : b = c.xrp
      · subst e
        have := h5 z
        rw [if_neg hz] at this
        exact this
      · rw [h4 b e]
    · exact fun b hb _ => ⟨h4 b hb, h3 b hb⟩
  · rename_i ha
    simp only [bind_ok, okOr_ok] at h
    obtain ⟨cur, hcur, L, hL, h⟩ := h
    obtain ⟨L', hL', rfl⟩ : ∃ L', (if a = c.native then L.transfer a who c.pot y else L.burn a who y) = .ok L' ∧
        r = (L', some cur) := by
      split at h <;> simp only [bind_ok, pure_ok] at h <;> obtain ⟨L', h1, rfl⟩ := h
      · rename_i e; exact ⟨L', by rw [if_pos e]; exact h1, rfl⟩
      · rename_i e; exact ⟨L', by rw [if_neg e]; exact h1, rfl⟩
    obtain ⟨h1, h2, h3, h4, h5⟩ := Ledger.burn_ok hL
    refine ⟨?_, fun h => absurd h ha, fun _ => ⟨hcur.symm, by simp⟩⟩
    have hw := h5 who
    have hle := (hS c.xrp).1.le who
    simp only [if_true] at hw
    split at hL'
    · rename_i hn
      subst hn
      obtain ⟨k1, k2, k3, k4⟩ := Ledger.transfer_ok hL'
      refine ⟨?_, ?_, ?_, ?_, ?_, ?_⟩
      · dsimp only
        rw [if_neg ha, k3 c.xrp hx]
        omega
      · dsimp only
        rw [if_neg ha, k2]
        omega
      · intro _ h; exact absurd rfl h
      · intro _
        dsimp only
        rw [k2, h3 _ ha, ← h4 _ ha]
        refine ⟨rfl, fun hp => ⟨?_, ?_⟩, fun hp => ?_⟩
        · have := k4 who
          simp only [if_true, if_neg hp] at this
          exact this
        · have := k4 c.pot
          simp only [if_true, if_neg (Ne.symm hp)] at this
          exact this
        · have := k4 who
          subst hp
          simp only [if_true] at this
          omega
      · intro z hz b hb
        dsimp only
        by_cases e : b = c.native
        · subst e
          have := k4 z
          rw [if_neg hz, if_neg (hb rfl rfl)] at this
          rw [← h4 _ ha]
          exact this
        · rw [k3 b e]
          by_cases e' : b = c.xrp
          · subst e'
            have := h5 z
            rw [if_neg hz] at this
            exact this
          · rw [h4 b e']
      · intro b hb hb'
        dsimp only
        rw [k3 b hb', k2, h4 b hb, h3 b hb]
        exact ⟨rfl, rfl⟩
    · rename_i hn
      obtain ⟨k1, k2, k3, k4, k5⟩ := Ledger.burn_ok hL'
      have ha' : c.xrp ≠ a := fun e => ha e.symm
      refine ⟨?_, ?_, ?_, ?_, ?_, ?_⟩
      · dsimp only
        rw [if_neg ha, k4 c.xrp ha']
        omega
      · dsimp only
        rw [if_neg ha, k3 c.xrp ha']
        omega
      · intro _ _
        dsimp only
        have := k5 who
        simp only [if_true] at this
        have hle' := (hS a).1.le who
        rw [← h4 a ha, ← h3 a ha] at hle'
        rw [← h4 a ha, ← h3 a ha]
        exact ⟨this, by omega⟩
      · intro h; exact absurd h hn
      · intro z hz b _
        dsimp only
        have e1 : L'.bal b z = L.bal b z := by
          by_cases e : b = a
          · subst e
            have := k5 z
            rw [if_neg hz] at this
            exact this
          · rw [k4 b e]
        rw [e1]
        by_cases e' : b = c.xrp
        · subst e'
          have := h5 z
          rw [if_neg hz] at this
          exact this
        · rw [h4 b e']
      · intro b hb hb'
        dsimp only
        rw [k4 b hb', k3 b hb', h4 b hb, h3 b hb]
        exact ⟨rfl, rfl⟩

/-- The currency recorded for a withdrawal. -/
theorem take_cur {c : Cfg} {s : St} {who : Acct} {a : AssetId} {y : Nat} {r : Ledger × Option Cur}
    (h : take c s who a y = .ok r) : (a = c.xrp → r.2 = none) ∧ (a ≠ c.xrp → r.2 = s.toXrpl a ∧ r.2 ≠ none) := by
  unfold take at h
  split at h
  · rename_i ha
    simp only [bind_ok, ensure_ok, pure_ok] at h
    obtain ⟨_, _, L, hL, rfl⟩ := h
    exact ⟨fun _ => rfl, fun h => absurd ha h⟩
  · rename_i ha
    simp only [bind_ok, okOr_ok] at h
    obtain ⟨cur, hcur, L, hL, h⟩ := h
    have hr : r.2 = some cur := by
      split at h <;> simp only [bind_ok, pure_ok] at h <;> obtain ⟨L', h1, rfl⟩ := h <;> rfl
    exact ⟨fun h => absurd h ha, fun _ => ⟨by rw [hr, hcur], by rw [hr]; simp⟩⟩

/-- The parts of a withdrawal. -/
theorem withdraw_ok {c : Cfg} {s s' : St} {who : Acct} {a : AssetId} {x : Nat} {dest : Addr} {tag : Option Nat}
    (h : withdraw c s who a x dest tag = .ok s') :
    x < U128 ∧ x ≠ 0 ∧ ∃ y addr r t, saturate c s x a = .ok y ∧ s.door .main = some addr ∧ take c s who a y = .ok r ∧
      ticket { s with ledger := r.1 } .main = .ok t ∧
      ((∃ d, delayFor s a y = some d ∧ delayPayment c t.1 d ⟨who, tag, s.fee .main, t.2, y, dest, a, r.2⟩ = .ok s') ∨
        (delayFor s a y = none ∧ send c t.1 addr ⟨who, tag, s.fee .main, t.2, y, dest, a, r.2⟩ = .ok s')) := by
  simp only [withdraw, bind_ok, ensure_ok, okOr_ok] at h
  obtain ⟨_, h1, _, h2, y, hy, addr, hd, r, hr, t, ht, h⟩ := h
  refine ⟨h1, h2, y, addr, r, t, hy, hd, hr, ht, ?_⟩
  split at h
  · rename_i d e; exact Or.inl ⟨d, e, h⟩
  · rename_i e; exact Or.inr ⟨e, h⟩

/-- C89: what an accepted withdrawal does to balances: the fee and the amount `y` (after rounding) are taken from the sender and
nothing else changes. -/
theorem C89_taken {c : Cfg} {s s' : St} {who : Acct} {a : AssetId} {x : Nat} {dest : Addr} {tag : Option Nat}
    (hx : c.xrp ≠ c.native) (hS : s.ledger.Sound) (h : withdraw c s who a x dest tag = .ok s') :
    ∃ y, saturate c s x a = .ok y ∧ Taken c (s.fee .main) s.ledger s'.ledger who a y := by
  obtain ⟨_, _, y, addr, r, t, hy, _, hr, ht, h⟩ := withdraw_ok h
  refine ⟨y, hy, ?_⟩
  have hT := (take_ok hx hS hr).1
  obtain ⟨p, n, q, e⟩ := ticket_frame ht
  have hl : s'.ledger = r.1 := by
    rcases h with ⟨d, _, h⟩ | ⟨_, h⟩
    · simp only [delayPayment, bind_ok, ensure_ok, pure_ok] at h
      obtain ⟨_, _, _, _, rfl⟩ := h
      dsimp only
      rw [e]
    · obtain ⟨o, rfl⟩ := send_frame h
      dsimp only
      rw [e]
  rw [hl]
  exact hT

/-- C41: a withdrawal of an issued currency that is not delayed hands exactly one transaction to the signers; its value, in the
decimals of the asset, is exactly the amount taken from the sender. -/
theorem C41_issued {c : Cfg} {s s' : St} {who : Acct} {a : AssetId} {x : Nat} {dest : Addr} {tag : Option Nat}
    (hx : c.xrp ≠ c.native) (hS : s.ledger.Sound) (ha : a ≠ c.xrp) (hnd : s.delay a = none) (h : withdraw c s who a x dest tag = .ok s') :
    ∃ y m e cur n addr, Taken c (s.fee .main) s.ledger s'.ledger who a y ∧
      s'.outbox = s.outbox ++ [⟨.main, n, addr, dest, tag, s.fee .main, .issued m e cur⟩] ∧
      Worth m e (s.dec a) y ∧ m < 10 ^ 16 ∧ s.toXrpl a = some cur ∧ s.door .main = some addr := by
  obtain ⟨_, _, y, addr, r, t, hy, hdoor, hr, ht, hh⟩ := withdraw_ok h
  obtain ⟨y', hy', hT⟩ := C89_taken hx hS h
  rw [hy] at hy'
  cases hy'
  have hdf : delayFor s a y = none := by simp only [delayFor, hnd]
  rcases hh with ⟨d, hd, _⟩ | ⟨_, hs⟩
  · rw [hdf] at hd; cases hd
  · obtain ⟨hcur, hne⟩ := (take_ok hx hS hr).2.2 ha
    cases hc : r.2 with
    | none => exact absurd hc hne
    | some cur =>
      obtain ⟨p, n, q, e⟩ := ticket_frame ht
      simp only [send, hc, bind_ok, ensure_ok, pure_ok] at hs
      obtain ⟨v, hv, _, _, rfl⟩ := hs
      rw [e] at hv
      obtain ⟨hw, hm⟩ := mantExp_worth hv (saturate_exact ha hy)
      refine ⟨y, v.1, v.2, cur, t.2, addr, hT, ?_, hw, hm, by rw [← hcur, hc], hdoor⟩
      dsimp only
      rw [e]

/-- C41 for XRP, partial: the drops sent are the drops taken, as long as they fit 64 bits. Missing: `C41_xrp_refuted`. -/
theorem C41_xrp_partial {c : Cfg} {s s' : St} {who : Acct} {x : Nat} {dest : Addr} {tag : Option Nat}
    (hx : c.xrp ≠ c.native) (hS : s.ledger.Sound) (hnd : s.delay c.xrp = none) (hlt : x < U64) (h : withdraw c s who c.xrp x dest tag = .ok s') :
    ∃ n addr, Taken c (s.fee .main) s.ledger s'.ledger who c.xrp x ∧
      s'.outbox = s.outbox ++ [⟨.main, n, addr, dest, tag, s.fee .main, .xrp x⟩] ∧ s.door .main = some addr := by
  obtain ⟨_, _, y, addr, r, t, hy, hdoor, hr, ht, hh⟩ := withdraw_ok h
  obtain ⟨y', hy', hT⟩ := C89_taken hx hS h
  rw [hy] at hy'
  cases hy'
  have hyx : y = x := C41_full hy (Or.inl rfl)
  subst hyx
  have hdf : delayFor s c.xrp y = none := by simp only [delayFor, hnd]
  rcases hh with ⟨d, hd, _⟩ | ⟨_, hs⟩
  · rw [hdf] at hd; cases hd
  · have hcur := (take_ok hx hS hr).2.1 rfl
    obtain ⟨p, n, q, e⟩ := ticket_frame ht
    simp only [send, hcur] at hs
    cases hs
    refine ⟨t.2, addr, hT, ?_, hdoor⟩
    dsimp only
    rw [e]
    have : min y (U64 - 1) = y := Nat.min_eq_left (by omega)
    rw [this]

end Verif.Xrpl
