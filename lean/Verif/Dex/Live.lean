import Verif.Dex.Effect

/-! Trades that can be made: every check of `_swap` is met by quoted amounts. -/

namespace Verif.Dex
open Ledger

/-! ### the constant-product check -/

theorem amountIn_eq (b r o : Nat) : amountIn b r o = b - (r - o) := by
  unfold amountIn; split <;> omega

/-- The fee-adjusted balance grows with the balance. -/
theorem adj_ge {D N b m k : Nat} (hN : N ≤ D) (hm : m ≤ b) (hk : k ≤ m) :
    m * D - (m - k) * N ≤ b * D - (b - k) * N := by
  obtain ⟨e, rfl⟩ := Nat.exists_eq_add_of_le hm
  obtain ⟨f, rfl⟩ := Nat.exists_eq_add_of_le hk
  obtain ⟨n, rfl⟩ := Nat.exists_eq_add_of_le hN
  have e1 : k + f - k = f := by omega
  have e2 : k + f + e - k = f + e := by omega
  rw [e1, e2]
  have h1 : (k + f) * (N + n) = f * N + (k * N + k * n + f * n) := by ring
  have h2 : (k + f + e) * (N + n) = (f + e) * N + (k * N + k * n + f * n + e * n) := by ring
  rw [h1, h2, Nat.add_sub_cancel_left, Nat.add_sub_cancel_left]
  omega

theorem lt256 {a b : Nat} (ha : a < U128) (hb : b < U128) : a * b < U256 := by
  have : U256 = U128 * U128 := by unfold U256 U128; norm_num
  rw [this]
  exact Nat.mul_lt_mul'' ha hb

theorem small256 {x : Nat} (hx : x < 8 * U128) : x < U256 := by
  have : 8 * U128 ≤ U256 := by unfold U256 U128; norm_num
  omega

theorem liquidity_eq (s : St) (a b : AssetId) : getLiquidity s a b =
    if a = (mkPair a b).1 then s.res (mkPair a b) else ((s.res (mkPair a b)).2, (s.res (mkPair a b)).1) := rfl

theorem kCheck_live {c : Cfg} {b0 b1 i0 i1 r0 r1 : Nat} (hN : c.feeN ≤ c.feeD) (hD : c.feeD < U128)
    (hb0 : b0 * c.feeD < U128) (hb1 : b1 * c.feeD < U128) (hi0 : i0 ≤ b0) (hi1 : i1 ≤ b1)
    (hr0 : r0 * c.feeD < U128) (hr1 : r1 * c.feeD < U128) (hr0' : r0 < U128) (hr1' : r1 < U128)
    (hpos : 0 < i0 ∨ 0 < i1)
    (hk : r0 * c.feeD * (r1 * c.feeD) ≤ (b0 * c.feeD - i0 * c.feeN) * (b1 * c.feeD - i1 * c.feeN)) :
    kCheck c b0 b1 i0 i1 r0 r1 = .ok () := by
  have small : ∀ {x : Nat}, x < U128 → x < U256 := by
    intro x hx; exact small256 (by omega)
  have m0 : i0 * c.feeN ≤ b0 * c.feeD := Nat.mul_le_mul hi0 hN
  have m1 : i1 * c.feeN ≤ b1 * c.feeD := Nat.mul_le_mul hi1 hN
  have e : r0 * r1 * (c.feeD * c.feeD) = r0 * c.feeD * (r1 * c.feeD) := by ring
  unfold kCheck
  simp only [bind_ok, ensure_ok, mul256_ok, subC_ok]
  refine ⟨(), hpos, _, ⟨small hb0, rfl⟩, _, ⟨small (by omega), rfl⟩, _, ⟨m0, rfl⟩, _, ⟨small hb1, rfl⟩, _,
    ⟨small (by omega), rfl⟩, _, ⟨m1, rfl⟩, _, ⟨lt256 (by omega) (by omega), rfl⟩, _, ⟨lt256 hr0' hr1', rfl⟩, _,
    ⟨lt256 hD hD, rfl⟩, _, ⟨?_, rfl⟩, ?_⟩
  · rw [e]; exact lt256 hr0 hr1
  · rw [e]; exact hk

/-! ### the protocol fee -/

theorem feeLiquidity_live {n k last : Nat} (hn : n < U128) (hk : k < U128) (hl : last < k) :
    ∃ q, feeLiquidity n k last = .ok q ∧ q ≤ n / 5 := by
  have h5 : k * 5 + last < U256 := small256 (by omega)
  refine ⟨n * (k - last) / (k * 5 + last), ?_, ?_⟩
  · unfold feeLiquidity
    simp only [bind_ok, mul256_ok, subC_ok, divC_ok, add256_ok]
    exact ⟨_, ⟨hl.le, rfl⟩, _, ⟨lt256 hn (by omega), rfl⟩, _, ⟨by omega, rfl⟩, _, ⟨h5, rfl⟩, by omega, rfl⟩
  · have h1 : n * (k - last) / (k * 5 + last) ≤ n * (k - last) / ((k - last) * 5) :=
      Nat.div_le_div_left (by omega) (by omega)
    have h2 : n * (k - last) / ((k - last) * 5) = n / 5 := by
      rw [Nat.mul_comm n]
      exact Nat.mul_div_mul_left _ _ (by omega)
    omega

theorem mintFee_live {s : St} {l : AssetId} {ra rb : Nat} (hiss : s.led.iss l + s.led.iss l / 5 < U128) :
    ∃ r, mintFee s l ra rb = .ok r := by
  unfold mintFee
  cases s.feeTo with
  | none =>
    dsimp only
    by_cases h : s.lastK l ≠ 0
    · rw [if_pos h]; exact ⟨_, rfl⟩
    · rw [if_neg h]; exact ⟨_, rfl⟩
  | some f =>
    dsimp only
    by_cases h : s.lastK l ≠ 0
    · rw [if_pos h]
      by_cases h2 : Nat.sqrt (min (ra * rb) (U256 - 1)) > Nat.sqrt (s.lastK l)
      · rw [if_pos h2]
        have hk : Nat.sqrt (min (ra * rb) (U256 - 1)) < U128 := by
          rw [Nat.sqrt_lt]
          have h0 : U256 = U128 * U128 := by unfold U256 U128; norm_num
          rw [← h0]
          have : 0 < U256 := small256 (by unfold U128; norm_num)
          omega
        obtain ⟨q, hq, hle⟩ := feeLiquidity_live (n := s.led.iss l) (by omega) hk h2
        rw [hq]
        by_cases h3 : 0 < q
        · have hm : ∃ L, s.led.mint l f (sat128 q) = .ok L := by
            have := sat128_le q
            exact ⟨_, if_pos (by omega)⟩
          obtain ⟨L, hL⟩ := hm
          refine ⟨({ s with led := L, feeTo := some f }, true), ?_⟩
          show (if 0 < q then _ else _) = _
          rw [if_pos h3, hL]
          rfl
        · refine ⟨(s, true), ?_⟩
          show (if 0 < q then _ else _) = _
          rw [if_neg h3]
          rfl
      · rw [if_neg h2]; exact ⟨_, rfl⟩
    · rw [if_neg h]; exact ⟨_, rfl⟩

theorem collectFee_live {s : St} {p : Pair} {l : AssetId} (hl : s.lp p = some l)
    (hiss : s.led.iss l + s.led.iss l / 5 < U128) : ∃ s', collectFee s p = .ok s' := by
  unfold collectFee
  cases s.feeTo with
  | none => exact ⟨_, rfl⟩
  | some f =>
    dsimp only
    obtain ⟨r, hr⟩ := mintFee_live (s := s) (l := l) (ra := (s.res p).1) (rb := (s.res p).2) hiss
    rw [hl]
    show ∃ s', (mintFee s l (s.res p).1 (s.res p).2 >>= _) = .ok s'
    rw [hr]
    cases h : r.2 with
    | true => exact ⟨_, by show (if r.2 = true then _ else _) = _; rw [if_pos h]; rfl⟩
    | false => exact ⟨_, by show (if r.2 = true then _ else _) = _; rw [if_neg (by simp [h])]; rfl⟩

/-- The protocol fee of a hop raises the issuance of that pair's liquidity token by at most a fifth and
no other. -/
theorem mintFee_iss {s : St} {l : AssetId} {ra rb : Nat} {r : St × Bool} (h : mintFee s l ra rb = .ok r) :
    r.1.led.iss l ≤ s.led.iss l + s.led.iss l / 5 ∧ ∀ t, t ≠ l → r.1.led.iss t = s.led.iss t := by
  unfold mintFee at h
  split at h
  · split at h
    · dsimp only at h
      split at h
      · rename_i hgt
        simp only [bind_ok] at h
        obtain ⟨liq, h1, h2⟩ := h
        unfold feeLiquidity at h1
        simp only [bind_ok, mul256_ok, subC_ok, divC_ok, add256_ok] at h1
        obtain ⟨_, ⟨_, rfl⟩, _, ⟨_, rfl⟩, _, ⟨_, rfl⟩, _, ⟨_, rfl⟩, _, hliq⟩ := h1
        split at h2
        · simp only [bind_ok, pure_ok] at h2
          obtain ⟨led, h3, rfl⟩ := h2
          obtain ⟨_, g1, g2, _⟩ := mint_ok h3
          refine ⟨?_, g2⟩
          dsimp only
          rw [g1]
          have h4 := sat128_le liq
          generalize Nat.sqrt (min (ra * rb) (U256 - 1)) = k at hgt hliq
          generalize Nat.sqrt (s.lastK l) = last at hgt hliq
          have h1 : s.led.iss l * (k - last) / (k * 5 + last) ≤ s.led.iss l * (k - last) / ((k - last) * 5) :=
            Nat.div_le_div_left (by omega) (by omega)
          have h2 : s.led.iss l * (k - last) / ((k - last) * 5) = s.led.iss l / 5 := by
            rw [Nat.mul_comm (s.led.iss l)]
            exact Nat.mul_div_mul_left _ _ (by omega)
          omega
        · simp only [pure_ok] at h2; subst h2
          exact ⟨by dsimp only; omega, fun _ _ => rfl⟩
      · cases h; exact ⟨by dsimp only; omega, fun _ _ => rfl⟩
    · cases h; exact ⟨by dsimp only; omega, fun _ _ => rfl⟩
  · split at h
    · cases h; exact ⟨by dsimp only; omega, fun _ _ => rfl⟩
    · cases h; exact ⟨by dsimp only; omega, fun _ _ => rfl⟩

theorem collectFee_iss {s s' : St} {p : Pair} (h : collectFee s p = .ok s') (t : AssetId) :
    s'.led.iss t ≤ s.led.iss t + s.led.iss t / 5 ∧ (s.lp p ≠ some t → s'.led.iss t = s.led.iss t) := by
  unfold collectFee at h
  split at h
  · cases h; exact ⟨by omega, fun _ => rfl⟩
  · simp only [bind_ok, okOr_ok] at h
    obtain ⟨l, hl, r, hm, h2⟩ := h
    obtain ⟨g1, g2⟩ := mintFee_iss hm
    have e : s'.led = r.1.led := by
      split at h2 <;> (simp only [pure_ok] at h2; subst h2; rfl)
    rw [e]
    by_cases ht : t = l
    · subst ht; exact ⟨g1, fun hne => absurd hl hne⟩
    · rw [g2 t ht]; exact ⟨by omega, fun _ => rfl⟩

/-! ### one hop -/

/-- The amounts `x` in, `y` out keep the constant product of the pair, with the fee. -/
def HopOk (c : Cfg) (s : St) (a b : AssetId) (x y : Nat) : Prop :=
  a ≠ b ∧ 0 < x ∧ 0 < y ∧ y < (getLiquidity s a b).2 ∧ 0 < (getLiquidity s a b).1 ∧ c.feeN ≤ c.feeD ∧
    (getLiquidity s a b).1 * c.feeD * (getLiquidity s a b).2 ≤
      ((getLiquidity s a b).1 * c.feeD + x * (c.feeD - c.feeN)) * ((getLiquidity s a b).2 - y)

theorem swapHop_live {c : Cfg} {s : St} {a b : AssetId} {x y : Nat} {dst : Acct} (hi : Inv s)
    (hh : HopOk c s a b x y) (hx : x < U128)
    (hin : (getLiquidity s a b).1 + x ≤ s.led.bal a (poolAddr (mkPair a b)))
    (ha : s.led.iss a * c.feeD < U128) (hb : s.led.iss b * c.feeD < U128)
    (hl : ∀ l, s.lp (mkPair a b) = some l → s.led.iss l + s.led.iss l / 5 < U128) :
    ∃ s', swapHop c s a b y dst = .ok s' := by
  obtain ⟨hne, hxp, hyp, hlt, hrip, hN, hk⟩ := hh
  have hlp : ∃ l, s.lp (mkPair a b) = some l := by
    cases e : s.lp (mkPair a b) with
    | some l => exact ⟨l, rfl⟩
    | none =>
      exfalso
      have := (hi.lpNone _ e).1
      rw [liquidity_eq] at hlt
      rw [this] at hlt
      split at hlt <;> simp at hlt
  obtain ⟨l, hl'⟩ := hlp
  have hback := hi.backed (mkPair a b)
  have sa := (hi.sound a).1.le (poolAddr (mkPair a b))
  have sb := (hi.sound b).1.le (poolAddr (mkPair a b))
  have ua := (hi.sound a).2
  have ub := (hi.sound b).2
  -- the pool holds what it pays out
  have hrb : (getLiquidity s a b).2 ≤ s.led.bal b (poolAddr (mkPair a b)) := by
    rcases mkPair_cases a b hne with ⟨e, _⟩ | ⟨e, _⟩
    · have h2 := hback.2; rw [liquidity_eq]; rw [e] at h2 ⊢; simpa using h2
    · have h2 := hback.1; rw [liquidity_eq]; rw [e] at h2 ⊢; simpa [hne] using h2
  obtain ⟨L, hL⟩ : ∃ L, s.led.transfer b (poolAddr (mkPair a b)) dst y = .ok L := ⟨_, if_pos (by omega)⟩
  obtain ⟨_, t2, t3, t4⟩ := transfer_ok hL
  have ta := (transfer_sound hL hi.sound a).1.le (poolAddr (mkPair a b))
  have tb := (transfer_sound hL hi.sound b).1.le (poolAddr (mkPair a b))
  rw [t2] at ta tb
  have hba : L.bal a (poolAddr (mkPair a b)) = s.led.bal a (poolAddr (mkPair a b)) := by rw [t3 a hne]
  have hbb : (getLiquidity s a b).2 - y ≤ L.bal b (poolAddr (mkPair a b)) := by
    have := t4 (poolAddr (mkPair a b))
    rw [if_pos rfl] at this
    split at this <;> omega
  generalize hri : (getLiquidity s a b).1 = ri at *
  generalize hro : (getLiquidity s a b).2 = ro at *
  generalize hA : L.bal a (poolAddr (mkPair a b)) = A at *
  generalize hB : L.bal b (poolAddr (mkPair a b)) = B at *
  have hAD : A * c.feeD < U128 := lt_of_le_of_lt (Nat.mul_le_mul_right _ ta) ha
  have hBD : B * c.feeD < U128 := lt_of_le_of_lt (Nat.mul_le_mul_right _ tb) hb
  have hriD : ri * c.feeD < U128 := lt_of_le_of_lt (Nat.mul_le_mul_right _ (by omega)) ha
  have hroD : ro * c.feeD < U128 := lt_of_le_of_lt (Nat.mul_le_mul_right _ (by omega)) hb
  have hD : c.feeD < U128 := by
    have : 1 * c.feeD ≤ ri * c.feeD := Nat.mul_le_mul_right _ hrip
    omega
  have g1 : ri * c.feeD + x * (c.feeD - c.feeN) ≤ A * c.feeD - (A - ri) * c.feeN := by
    have h1 := adj_ge (b := A) (m := ri + x) (k := ri) hN (by omega) (by omega)
    have h2 : (ri + x) * c.feeD - (ri + x - ri) * c.feeN = ri * c.feeD + x * (c.feeD - c.feeN) := by
      have e1 : ri + x - ri = x := by omega
      rw [e1, Nat.add_mul, Nat.mul_sub]
      have : x * c.feeN ≤ x * c.feeD := Nat.mul_le_mul_left _ hN
      omega
    omega
  have g2 : (ro - y) * c.feeD ≤ B * c.feeD - (B - (ro - y)) * c.feeN := by
    have h1 := adj_ge (b := B) (m := ro - y) (k := ro - y) hN (by omega) (by omega)
    simpa using h1
  have hkk : ri * c.feeD * (ro * c.feeD) ≤
      (A * c.feeD - (A - ri) * c.feeN) * (B * c.feeD - (B - (ro - y)) * c.feeN) := by
    calc ri * c.feeD * (ro * c.feeD) = ri * c.feeD * ro * c.feeD := by ring
      _ ≤ (ri * c.feeD + x * (c.feeD - c.feeN)) * (ro - y) * c.feeD := Nat.mul_le_mul_right _ hk
      _ = (ri * c.feeD + x * (c.feeD - c.feeN)) * ((ro - y) * c.feeD) := by ring
      _ ≤ _ := Nat.mul_le_mul g1 g2
  obtain ⟨s', hs'⟩ := collectFee_live (s := { s with
        led := L,
        res := upd s.res (mkPair a b) (L.bal (mkPair a b).1 (poolAddr (mkPair a b)),
          L.bal (mkPair a b).2 (poolAddr (mkPair a b))) }) (p := mkPair a b) hl'
      (by have := hl l hl'; dsimp only; rw [t2]; exact this)
  refine ⟨s', ?_⟩
  unfold swapHop
  simp only [bind_ok, ensure_ok]
  rcases mkPair_cases a b hne with ⟨e, hab⟩ | ⟨e, hab⟩
  · have er : (s.res (mkPair a b)).1 = ri ∧ (s.res (mkPair a b)).2 = ro := by
      rw [← hri, ← hro]; rw [liquidity_eq, e]; simp
    rw [e] at hs' er hL hA hB ⊢
    dsimp only at hs' er ⊢
    rw [er.1, er.2]
    simp only [if_true]
    refine ⟨(), hne, (), Or.inr hyp, (), ⟨hrip, hlt⟩, s.led, by simp, L, by rw [if_pos hyp]; exact hL, (), ?_, hs'⟩
    rw [hA, hB, amountIn_eq, amountIn_eq, Nat.sub_zero]
    exact kCheck_live hN hD hAD hBD (by omega) (by omega) hriD hroD (by omega) (by omega) (by omega) hkk
  · have er : (s.res (mkPair a b)).1 = ro ∧ (s.res (mkPair a b)).2 = ri := by
      rw [← hri, ← hro]; rw [liquidity_eq, e]; simp [hne]
    rw [e] at hs' er hL hA hB ⊢
    dsimp only at hs' er ⊢
    rw [er.1, er.2]
    simp only [hne, if_false]
    refine ⟨(), hne, (), Or.inl hyp, (), ⟨hlt, hrip⟩, L, by rw [if_pos hyp]; exact hL, L, by simp, (), ?_, hs'⟩
    rw [hA, hB, amountIn_eq, amountIn_eq, Nat.sub_zero]
    refine kCheck_live hN hD hBD hAD (by omega) (by omega) hroD hriD (by omega) (by omega) (by omega) ?_
    rw [Nat.mul_comm (ro * _), Nat.mul_comm (B * _ - _)]
    exact hkk

/-! ### the whole path -/

/-- The pairs a path trades, in order. -/
def hops : List AssetId → List Pair
  | a :: b :: rest => mkPair a b :: hops (b :: rest)
  | _ => []

/-- Every hop of the path keeps its constant product. -/
def Feasible (c : Cfg) (s : St) : List Nat → List AssetId → Prop
  | x :: y :: tl, a :: b :: rest => HopOk c s a b x y ∧ Feasible c s (y :: tl) (b :: rest)
  | _, _ => True

/-- Issuance of the assets of a path: room for 128-bit arithmetic. -/
structure Room (c : Cfg) (s : St) (path : List AssetId) : Prop where
  assets : ∀ t ∈ path, (s.led.iss t + s.led.iss t / 5) * c.feeD < U128
  fees : ∀ p ∈ hops path, ∀ l, s.lp p = some l → s.led.iss l + s.led.iss l / 5 < U128

theorem Room.tail {c : Cfg} {s : St} {a : AssetId} {path : List AssetId} (h : Room c s (a :: path)) :
    Room c s path where
  assets t ht := h.assets t (List.mem_cons_of_mem _ ht)
  fees p hp := by
    refine h.fees p ?_
    match path, hp with
    | b :: rest, hp => exact List.mem_cons_of_mem _ hp

/-- What holds between hops: the pairs still to be traded are as they were at the start, and the next one
has received its input. -/
structure Mid (s t : St) (amts : List Nat) (path : List AssetId) : Prop where
  inv : Inv t
  lp : t.lp = s.lp
  grow : ∀ u, t.led.iss u ≤ s.led.iss u + s.led.iss u / 5
  same : ∀ p ∈ hops path, t.res p = s.res p
  liq : ∀ p ∈ hops path, ∀ l, s.lp p = some l → t.led.iss l = s.led.iss l
  paid : ∀ a b rest, path = a :: b :: rest →
    (getLiquidity s a b).1 + amts.headD 0 ≤ t.led.bal a (poolAddr (mkPair a b))

theorem swapLoop_live {c : Cfg} {s : St} (hs : Inv s) {dst : Acct} : ∀ (path : List AssetId) (amts : List Nat) (t : St),
    amts.length = path.length → Feasible c s amts path → (∀ x ∈ amts, x < U128) → Room c s path →
    (hops path).Nodup → Mid s t amts path → ∃ s', swapLoop c t dst amts path = .ok s'
  | [], amts, t, _, _, _, _, _, _ => ⟨t, by match amts with
    | [] => rfl
    | [_] => rfl
    | _ :: _ :: _ => rfl⟩
  | [_], amts, t, _, _, _, _, _, _ => ⟨t, by match amts with
    | [] => rfl
    | [_] => rfl
    | _ :: _ :: _ => rfl⟩
  | a :: b :: rest, amts, t, hlen, hf, hu, hroom, hnd, hm => by
    match amts, hlen with
    | x :: y :: tl, hlen =>
      obtain ⟨hh, hf2⟩ := hf
      have hpm : mkPair a b ∈ hops (a :: b :: rest) := List.mem_cons_self
      have hg : ∀ u v, mkPair u v ∈ hops (a :: b :: rest) → getLiquidity t u v = getLiquidity s u v := by
        intro u v h; rw [liquidity_eq, liquidity_eq, hm.same _ h]
      have hh' : HopOk c t a b x y := by unfold HopOk at hh ⊢; rw [hg a b hpm]; exact hh
      have hcap : ∀ u ∈ a :: b :: rest, t.led.iss u * c.feeD < U128 := fun u h =>
        lt_of_le_of_lt (Nat.mul_le_mul_right _ (hm.grow u)) (hroom.assets u h)
      have hlpt : ∀ l, t.lp (mkPair a b) = some l → t.led.iss l + t.led.iss l / 5 < U128 := by
        intro l h
        rw [hm.lp] at h
        rw [hm.liq _ hpm l h]
        exact hroom.fees _ hpm l h
      have key : ∀ d, ∃ s', swapHop c t a b y d = .ok s' := fun d =>
        swapHop_live hm.inv hh' (hu x List.mem_cons_self)
          (by rw [hg a b hpm]; exact hm.paid a b rest rfl)
          (hcap a List.mem_cons_self) (hcap b (List.mem_cons_of_mem _ List.mem_cons_self)) hlpt
      -- the state after the hop
      have next : ∀ d t', (∀ r rest', rest = r :: rest' → d = poolAddr (mkPair b r)) →
          swapHop c t a b y d = .ok t' → Mid s t' (y :: tl) (b :: rest) := by
        intro d t' hd ht'
        obtain ⟨_, _, L, hL, _, hfee⟩ := swapHop_ok ht'
        obtain ⟨k, e, hk⟩ := collectFee_ok hfee
        obtain ⟨_, t2, _, t4⟩ := transfer_ok hL
        have hnotin : mkPair a b ∉ hops (b :: rest) := (List.nodup_cons.mp hnd).1
        have hlpt' : t'.lp = t.lp := (swapHop_frame ht').2.1
        have mono : ∀ u q, q ≠ mkPair a b → L.bal u (poolAddr q) ≤ t'.led.bal u (poolAddr q) := by
          intro u q _
          rcases hk with hk | ⟨f, l, m, _, _, hk⟩
          · rw [hk]
          · exact mint_mono hk u _
        have hiss := fun u => collectFee_iss hfee u
        dsimp only at hiss
        rw [t2] at hiss
        refine ⟨hm.inv.swapHop ht', hlpt'.trans hm.lp, ?_, ?_, ?_, ?_⟩
        · intro u
          by_cases hul : t.lp (mkPair a b) = some u
          · have h1 := (hiss u).1
            rw [hm.lp] at hul
            rw [hm.liq _ hpm u hul] at h1
            exact h1
          · rw [(hiss u).2 hul]; exact hm.grow u
        · intro p hp
          have hne : p ≠ mkPair a b := by rintro rfl; exact hnotin hp
          rw [e]
          show upd t.res _ _ p = _
          rw [upd_ne _ _ hne]
          exact hm.same p (List.mem_cons_of_mem _ hp)
        · intro p hp l hl
          have hne : p ≠ mkPair a b := by rintro rfl; exact hnotin hp
          have hul : t.lp (mkPair a b) ≠ some l := by
            intro h
            rw [hm.lp] at h
            exact hne (hs.lp_inj hl h)
          rw [(hiss l).2 hul]
          exact hm.liq p (List.mem_cons_of_mem _ hp) l hl
        · intro a' b' rest' hp
          obtain ⟨rfl, rfl⟩ := List.cons.inj hp
          have hq : mkPair b b' ∈ hops (b :: b' :: rest') := List.mem_cons_self
          have hne : mkPair b b' ≠ mkPair a b := by intro h; rw [h] at hq; exact hnotin hq
          have hpool : poolAddr (mkPair b b') ≠ poolAddr (mkPair a b) := fun h => hne (poolAddr_inj h)
          have hdd := hd b' rest' rfl
          have h1 := t4 (poolAddr (mkPair b b'))
          rw [if_neg hpool, hdd, if_pos rfl] at h1
          have h2 := mono b _ hne
          have h3 := hm.inv.backed (mkPair b b')
          rw [hm.same _ (List.mem_cons_of_mem _ hq)] at h3
          have h4 : (getLiquidity s b b').1 ≤ t.led.bal b (poolAddr (mkPair b b')) := by
            rw [liquidity_eq]
            by_cases hb : b = (mkPair b b').1
            · rw [if_pos hb]
              have := h3.1; rw [← hb] at this; exact this
            · rw [if_neg hb]
              have hb2 : (mkPair b b').2 = b := by
                by_cases hbb : b = b'
                · exfalso; apply hb; rw [← hbb]; unfold mkPair; split <;> rfl
                · rcases mkPair_cases b b' hbb with ⟨e, _⟩ | ⟨e, _⟩
                  · exfalso; apply hb; rw [e]
                  · rw [e]
              have := h3.2; rw [hb2] at this; exact this
          show _ + y ≤ _
          omega
      show ∃ s', (swapHop c t a b y _ >>= _) = .ok s'
      match rest, hlen with
      | [], hlen =>
        obtain ⟨t', ht'⟩ := key dst
        obtain ⟨s', hs'⟩ := swapLoop_live hs [b] (y :: tl) t' (by simpa using hlen) hf2
          (fun z hz => hu z (List.mem_cons_of_mem _ hz)) hroom.tail (List.nodup_cons.mp hnd).2
          (next dst t' (by intro r rest' h; cases h) ht')
        exact ⟨s', by rw [bind_ok]; exact ⟨t', ht', hs'⟩⟩
      | r :: rest', hlen =>
        obtain ⟨t', ht'⟩ := key (poolAddr (mkPair b r))
        obtain ⟨s', hs'⟩ := swapLoop_live hs (b :: r :: rest') (y :: tl) t' (by simpa using hlen) hf2
          (fun z hz => hu z (List.mem_cons_of_mem _ hz)) hroom.tail (List.nodup_cons.mp hnd).2
          (next _ t' (by intro r' rest'' h; obtain ⟨rfl, _⟩ := List.cons.inj h; rfl) ht')
        exact ⟨s', by rw [bind_ok]; exact ⟨t', ht', hs'⟩⟩

theorem payAndSwap_live {c : Cfg} {s : St} (hs : Inv s) {who dst : Acct} (hw : Keyed who) {amts : List Nat}
    {path : List AssetId} (hlen : amts.length = path.length) (h2 : 2 ≤ path.length)
    (hf : Feasible c s amts path) (hu : ∀ x ∈ amts, x < U128) (hroom : Room c s path)
    (hnd : (hops path).Nodup) (hbal : ∀ a, path.head? = some a → amts.headD 0 ≤ s.led.bal a who) :
    ∃ s', payAndSwap c s who dst amts path = .ok s' := by
  match path, h2 with
  | a :: b :: rest, _ =>
    obtain ⟨L, hL⟩ : ∃ L, s.led.transfer a who (poolAddr (mkPair a b)) (amts.headD 0) = .ok L :=
      ⟨_, if_pos (hbal a rfl)⟩
    obtain ⟨_, t2, t3, t4⟩ := transfer_ok hL
    have hmid : Mid s { s with led := L } amts (a :: b :: rest) := by
      refine ⟨hs.transfer hL hw, rfl, ?_, fun _ _ => rfl, ?_, ?_⟩
      · intro u; dsimp only; rw [t2]; omega
      · intro p _ l _; dsimp only; rw [t2]
      · intro a' b' rest' hp
        obtain ⟨ea, hp⟩ := List.cons.inj hp
        obtain ⟨eb, _⟩ := List.cons.inj hp
        rw [← ea, ← eb]
        have h1 := t4 (poolAddr (mkPair a b))
        rw [if_neg (hw.2 _).symm, if_pos rfl] at h1
        have h3 := hs.backed (mkPair a b)
        have h4 : (getLiquidity s a b).1 ≤ s.led.bal a (poolAddr (mkPair a b)) := by
          rw [liquidity_eq]
          by_cases hb : a = (mkPair a b).1
          · rw [if_pos hb]
            have := h3.1; rw [← hb] at this; exact this
          · rw [if_neg hb]
            have hb2 : (mkPair a b).2 = a := by
              by_cases hbb : a = b
              · exfalso; apply hb; rw [← hbb]; unfold mkPair; split <;> rfl
              · rcases mkPair_cases a b hbb with ⟨e, _⟩ | ⟨e, _⟩
                · exfalso; apply hb; rw [e]
                · rw [e]
            have := h3.2; rw [hb2] at this; exact this
        dsimp only
        omega
    obtain ⟨s', hs'⟩ := swapLoop_live hs (dst := dst) (a :: b :: rest) amts { s with led := L } hlen hf hu hroom hnd hmid
    exact ⟨s', by unfold payAndSwap; rw [bind_ok]; exact ⟨L, hL, hs'⟩⟩

/-! ### quotes are feasible -/

theorem enabled_ne {s : St} (h : Inv s) {a b : AssetId} (he : s.enabled (mkPair a b) = true) : a ≠ b := by
  rintro rfl
  have e : mkPair a a = (a, a) := by unfold mkPair; split <;> rfl
  rw [e] at he
  cases hl : s.lp (a, a) with
  | none => rw [(h.lpNone _ hl).2] at he; cases he
  | some l => exact absurd (h.lpOrd _ l hl).1 (lt_irrefl _)

theorem amountsOutLoop_feasible {c : Cfg} {s : St} (h : Inv s) (hd : 0 < c.feeD) :
    ∀ (path : List AssetId) (x : Nat) (amts : List Nat), x < U128 →
    amountsOutLoop c s x path = .ok amts → Feasible c s amts path ∧ ∀ y ∈ amts, y < U128
  | [], x, amts, hx, e => by cases e; exact ⟨trivial, by simpa using hx⟩
  | [_], x, amts, hx, e => by cases e; exact ⟨trivial, by simpa using hx⟩
  | a :: b :: rest, x, amts, hx, e => by
    unfold amountsOutLoop at e
    simp only [bind_ok, ensure_ok, pure_ok] at e
    obtain ⟨_, hen, _, hr, y, hy, _, hy0, tl, ht, rfl⟩ := e
    have hlt := getAmountOut_lt hd hy
    obtain ⟨g1, g2, g3, g4, g5, g6⟩ := getAmountOut_ok hy
    have hyu : y < U128 := by rw [g6]; unfold sat128 U128; omega
    obtain ⟨ih1, ih2⟩ := amountsOutLoop_feasible h hd (b :: rest) y tl hyu ht
    have hsh := amountsOutLoop_shape (b :: rest) y tl (by simp) ht
    match tl, hsh with
    | z :: tl', hsh =>
      have ez : z = y := by simpa using hsh.2
      subst ez
      refine ⟨⟨⟨enabled_ne h hen, g1, by omega, hlt, g2, g4, ?_⟩, ih1⟩, ?_⟩
      · generalize (getLiquidity s a b).1 = ri at *
        generalize (getLiquidity s a b).2 = ro at *
        have hk : z * (ri * c.feeD + x * (c.feeD - c.feeN)) ≤ x * (c.feeD - c.feeN) * ro :=
          (Nat.le_div_iff_mul_le g5).mp (le_of_eq_of_le g6 (sat128_le _))
        rw [Nat.mul_sub]
        have e1 : (ri * c.feeD + x * (c.feeD - c.feeN)) * ro = ri * c.feeD * ro + x * (c.feeD - c.feeN) * ro := by ring
        have e2 : (ri * c.feeD + x * (c.feeD - c.feeN)) * z = z * (ri * c.feeD + x * (c.feeD - c.feeN)) := by ring
        rw [e1, e2]
        omega
      · intro w hw
        rcases List.mem_cons.mp hw with rfl | hw
        · exact hx
        · exact ih2 w hw

theorem amountsInLoop_feasible {c : Cfg} {s : St} (h : Inv s) :
    ∀ (path : List AssetId) (o : Nat) (amts : List Nat), o < U128 - 1 →
    amountsInLoop c s o path = .ok amts → (∀ y ∈ amts, y < U128 - 1) → Feasible c s amts path
  | [], o, amts, ho, e, _ => by cases e; exact trivial
  | [_], o, amts, ho, e, _ => by cases e; exact trivial
  | a :: b :: rest, o, amts, ho, e, hu => by
    unfold amountsInLoop at e
    simp only [bind_ok, ensure_ok, pure_ok] at e
    obtain ⟨tl, ht, _, hen, _, hr, x, hx, _, hx0, rfl⟩ := e
    have hsh := amountsInLoop_shape (b :: rest) o tl (by simp) ht
    match tl, hsh with
    | y :: tl', hsh =>
      simp only [List.headD_cons] at hx
      obtain ⟨g1, g2, g3, g4, g5, g6, g7⟩ := getAmountIn_ok hx
      have ih := amountsInLoop_feasible h (b :: rest) o (y :: tl') ho ht
        (fun z hz => hu z (List.mem_cons_of_mem _ hz))
      have hxu := hu x List.mem_cons_self
      have hlt : y < (getLiquidity s a b).2 := by
        by_contra hc
        have : (getLiquidity s a b).2 - y = 0 := by omega
        rw [this] at g6; simp at g6
      refine ⟨⟨enabled_ne h hen, by omega, g1, hlt, g2, g4, ?_⟩, ih⟩
      generalize (getLiquidity s a b).1 = ri at *
      generalize (getLiquidity s a b).2 = ro at *
      have hq : x = ri * y * c.feeD / ((ro - y) * (c.feeD - c.feeN)) + 1 := by
        rcases min_choice (ri * y * c.feeD / ((ro - y) * (c.feeD - c.feeN)) + 1) (U128 - 1) with e | e
        · exact g7.trans e
        · exact absurd (g7.trans e) (Nat.ne_of_lt hxu)
      have hk : ri * y * c.feeD ≤ x * ((ro - y) * (c.feeD - c.feeN)) := by
        have := Nat.lt_mul_of_div_lt (a := ri * y * c.feeD) (b := x) (c := (ro - y) * (c.feeD - c.feeN))
          (by omega) g6
        omega
      obtain ⟨w, rfl⟩ := Nat.exists_eq_add_of_lt hlt
      have e0 : y + w + 1 - y = w + 1 := by omega
      rw [e0] at hk ⊢
      have e1 : (ri * c.feeD + x * (c.feeD - c.feeN)) * (w + 1) =
          ri * c.feeD * (w + 1) + x * ((w + 1) * (c.feeD - c.feeN)) := by ring
      have e2 : ri * c.feeD * (y + w + 1) = ri * c.feeD * (w + 1) + ri * y * c.feeD := by ring
      rw [e1, e2]
      omega

end Verif.Dex
