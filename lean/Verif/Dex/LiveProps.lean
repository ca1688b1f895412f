import Verif.Dex.Live
import Verif.Dex.Demo

/-!
# C200 An affordable quote can be traded

Trusted statement vocabulary: `getAmountsOut`/`getAmountsIn` (the quotes), `step` (the calls), `hops` (the
pairs a path trades), `Room` (the issuance of the assets leaves room for 128-bit arithmetic).
-/

namespace Verif.Dex
open Ledger

/-- Every intermediate amount of a quote for a target is below the reserve it is taken from. -/
theorem amountsInLoop_small {c : Cfg} {s : St} (h : Inv s) :
    ∀ (path : List AssetId) (o : Nat) (amts : List Nat), 2 ≤ path.length →
    (∀ t ∈ path, s.led.iss t < U128 - 1) →
    amountsInLoop c s o path = .ok amts → ∀ y ∈ amts.tail, y < U128 - 1
  | [], _, _, hl, _, _ => by simp at hl
  | [_], _, _, hl, _, _ => by simp at hl
  | a :: b :: rest, o, amts, hl, hi, e => by
    unfold amountsInLoop at e
    simp only [bind_ok, ensure_ok, pure_ok] at e
    obtain ⟨tl, ht, _, hen, _, hr, x, hx, _, hx0, rfl⟩ := e
    obtain ⟨_, _, _, _, hle, _⟩ := getAmountIn_ok hx
    have hne := enabled_ne h hen
    have hsh := amountsInLoop_shape (b :: rest) o tl (by simp) ht
    have hback := h.backed (mkPair a b)
    have hrb : (getLiquidity s a b).2 ≤ s.led.iss b := by
      refine le_trans ?_ ((h.sound b).1.le (poolAddr (mkPair a b)))
      rcases mkPair_cases a b hne with ⟨e, _⟩ | ⟨e, _⟩
      · have h2 := hback.2; rw [liquidity_eq]; rw [e] at h2 ⊢; simpa using h2
      · have h2 := hback.1; rw [liquidity_eq]; rw [e] at h2 ⊢; simpa [hne] using h2
    have hb := hi b (by simp)
    intro y hy
    match tl, hsh with
    | z :: tl', hsh =>
      simp only [List.headD_cons] at hle
      rcases List.mem_cons.mp hy with rfl | hy
      · omega
      · match rest, ht, hsh with
        | [], ht, hsh =>
          obtain rfl : tl' = [] := by simpa using hsh.1
          cases hy
        | r :: rest', ht, _ =>
          exact amountsInLoop_small h (b :: r :: rest') o (z :: tl') (by simp)
            (fun t ht => hi t (List.mem_cons_of_mem _ ht)) ht y hy

/-- Selling. If the exchange quotes amounts for selling `x` along a path, the trader holds `x`, the limit is
not above the quoted output and the deadline has not passed, then the trade succeeds: provided the path
trades no pair twice and the issuance of the assets involved leaves room. -/
theorem C200_sell_partial {c : Cfg} {s : St} (hr : Reach c s) (hd : 1 < c.feeD) {who dst : Acct}
    (hw : Keyed who) {x minOut : Nat} {path : List AssetId} {amts : List Nat} {dl : Option Nat} (hx : x < U128)
    (hq : getAmountsOut c s x path = .ok amts) (hmin : minOut ≤ amts.getLastD 0) (hdl : deadlineOk dl s.now)
    (hbal : ∀ a, path.head? = some a → x ≤ s.led.bal a who)
    (hroom : Room c s path) (hnd : (hops path).Nodup) :
    ∃ s', step c s (.swapSupply who x minOut path dst dl) = .ok s' := by
  have hi := hr.inv
  have hq0 := hq
  unfold getAmountsOut at hq
  simp only [bind_ok, ensure_ok] at hq
  obtain ⟨_, hl, ha⟩ := hq
  obtain ⟨f1, f2⟩ := amountsOutLoop_feasible hi (by omega) path x amts hx ha
  have hne : path ≠ [] := by rintro rfl; simp at hl
  obtain ⟨s1, s2⟩ := amountsOutLoop_shape path x amts hne ha
  obtain ⟨s', hs'⟩ := payAndSwap_live hi (dst := dst) hw s1 hl.1 f1 f2 hroom hnd (by rw [s2]; exact hbal)
  refine ⟨s', ?_⟩
  show swapExactSupply c s who x minOut path dst dl = .ok s'
  unfold swapExactSupply
  simp only [bind_ok, ensure_ok]
  exact ⟨(), hdl, amts, hq0, (), hmin, hs'⟩

/-- Buying. If the exchange quotes amounts for buying `o` along a path, the trader holds the quoted input,
which is within the limit, and the deadline has not passed, then the trade succeeds, under the same
provisos. -/
theorem C200_buy_partial {c : Cfg} {s : St} (hr : Reach c s) (hd : 1 < c.feeD) {who dst : Acct}
    (hw : Keyed who) {o maxIn : Nat} {path : List AssetId} {amts : List Nat} {dl : Option Nat}
    (hq : getAmountsIn c s o path = .ok amts) (hmax : amts.headD 0 ≤ maxIn) (hdl : deadlineOk dl s.now)
    (hbal : ∀ a, path.head? = some a → amts.headD 0 ≤ s.led.bal a who)
    (hroom : Room c s path) (hnd : (hops path).Nodup) :
    ∃ s', step c s (.swapTarget who o maxIn path dst dl) = .ok s' := by
  have hi := hr.inv
  have hq0 := hq
  unfold getAmountsIn at hq
  simp only [bind_ok, ensure_ok] at hq
  obtain ⟨_, hl, ha⟩ := hq
  have hne : path ≠ [] := by rintro rfl; simp at hl
  obtain ⟨s1, s2⟩ := amountsInLoop_shape path o amts hne ha
  have hiss : ∀ t ∈ path, s.led.iss t < U128 - 1 := by
    intro t ht
    have h1 := hroom.assets t ht
    have h2 : (s.led.iss t + s.led.iss t / 5) * 2 ≤ (s.led.iss t + s.led.iss t / 5) * c.feeD :=
      Nat.mul_le_mul_left _ hd
    unfold U128 at *
    omega
  have hsm := amountsInLoop_small hi path o amts hl.1 hiss ha
  match path, amts, s1, hl, hne with
  | a :: path', x :: amts', s1, hl, _ =>
    have hxa : x < U128 - 1 := by
      have h1 : x ≤ s.led.bal a who := hbal a rfl
      have h2 := (hi.sound a).1.le who
      have h3 := hiss a (by simp)
      omega
    have hu : ∀ y ∈ x :: amts', y < U128 - 1 := by
      intro y hy
      rcases List.mem_cons.mp hy with rfl | hy
      · exact hxa
      · exact hsm y hy
    have ho : o < U128 - 1 := by
      rw [← s2]
      rw [List.getLastD_eq_getLast?, List.getLast?_eq_some_getLast (by simp)]
      exact hu _ (List.getLast_mem _)
    have f1 := amountsInLoop_feasible hi (a :: path') o (x :: amts') ho ha hu
    obtain ⟨s', hs'⟩ := payAndSwap_live hi (dst := dst) hw s1 hl.1 f1
      (fun y hy => by have := hu y hy; omega) hroom hnd hbal
    refine ⟨s', ?_⟩
    show swapExactTarget c s who o maxIn (a :: path') dst dl = .ok s'
    unfold swapExactTarget
    simp only [bind_ok, ensure_ok]
    exact ⟨(), hdl, _, hq0, (), hmax, hs'⟩

/-- Non-vacuity: quotes over two pools that account 8 can afford. -/
example : (getAmountsOut cfg0 demo 1000000 [1, 2, 3]).isOk = true ∧
    (getAmountsIn cfg0 demo 5900000 [1, 2, 3]).isOk = true ∧ 1000000 ≤ demo.led.bal 1 8 ∧
    (hops [1, 2, 3]).Nodup := by decide +kernel

example : Room cfg0 demo [1, 2, 3] where
  assets := by
    have h1 : demo.led.iss 1 = 1005000000000 ∧ demo.led.iss 2 = 1005000000000 ∧ demo.led.iss 3 = 1000000000000 := by
      decide +kernel
    intro t ht
    simp only [List.mem_cons, List.not_mem_nil, or_false] at ht
    rcases ht with rfl | rfl | rfl
    · rw [h1.1]; unfold U128 cfg0; norm_num
    · rw [h1.2.1]; unfold U128 cfg0; norm_num
    · rw [h1.2.2]; unfold U128 cfg0; norm_num
  fees := by
    have h : ∀ p ∈ hops [1, 2, 3], ((demo.lp p).map fun l => decide (demo.led.iss l + demo.led.iss l / 5 < U128)).getD true = true := by
      decide +kernel
    intro p hp l hl
    have := h p hp
    rw [hl] at this
    simpa using this

/-- Not for every path: a path that comes back through the same pair is quoted but cannot be traded,
whatever the trader holds. -/
theorem C200_twice_refuted : Reach cfg0 demo ∧ (getAmountsOut cfg0 demo 1000000 [1, 2, 1]).isOk = true ∧
    1000000 ≤ demo.led.bal 1 8 ∧
    errIs (step cfg0 demo (.swapSupply 8 1000000 0 [1, 2, 1] 8 none)) "InsufficientInputAmount" = true :=
  ⟨demo_reach, by decide +kernel, by decide +kernel, by decide +kernel⟩

/-- A pool of two assets of which 2^126 units each exist, half of them in the pool. -/
def hugeOps : List Op :=
  [.mintAsset 9 1 7 (2 ^ 126), .mintAsset 9 2 7 (2 ^ 126), .add 7 1 2 (2 ^ 125) (2 ^ 125) 0 0 7 none]

/-- The state after `hugeOps`. -/
def huge : St := (run cfg0 g0 hugeOps).toOption.getD g0

theorem huge_reach : Reach cfg0 huge :=
  run_reach hugeOps (.init genesis_g0) (by decide) (ok_getD (by decide +kernel))

/-- Not for every issuance: in a pool of 2^125 units of each asset, a trade that is quoted and affordable
fails, because the constant-product check does not fit 256 bits. -/
theorem C200_overflow_refuted : Reach cfg0 huge ∧ (getAmountsIn cfg0 huge 1000 [1, 2]).isOk = true ∧
    (getAmountsOut cfg0 huge 1000 [1, 2]).isOk = true ∧ 10000 ≤ huge.led.bal 1 7 ∧
    errIs (step cfg0 huge (.swapTarget 7 1000 10000 [1, 2] 7 none)) "Underflow" = true ∧
    errIs (step cfg0 huge (.swapSupply 7 1000 0 [1, 2] 7 none)) "Underflow" = true :=
  ⟨huge_reach, by decide +kernel, by decide +kernel, by decide +kernel, by decide +kernel, by decide +kernel⟩

/-! ## C202 Liquidity can be withdrawn at any time -/

theorem removeOrdered_live {s : St} (h : Inv s) {p : Pair} {l : AssetId} (hl : s.lp p = some l) {m0 m1 : Nat} {dst : Acct}
    (h0 : 0 < s.led.bal l (poolAddr p) * s.led.bal p.1 (poolAddr p) / s.led.iss l)
    (h1 : 0 < s.led.bal l (poolAddr p) * s.led.bal p.2 (poolAddr p) / s.led.iss l)
    (hm0 : m0 ≤ s.led.bal l (poolAddr p) * s.led.bal p.1 (poolAddr p) / s.led.iss l)
    (hm1 : m1 ≤ s.led.bal l (poolAddr p) * s.led.bal p.2 (poolAddr p) / s.led.iss l) :
    ∃ r, removeOrdered s p l m0 m1 dst = .ok r := by
  obtain ⟨hord, hl0, hl1⟩ := h.lpOrd p l hl
  have hts : 0 < s.led.iss l := by
    have := h.supply hl
    unfold minLiquidity at this
    omega
  have hle := (h.sound l).1.le (poolAddr p)
  have q0 : s.led.bal l (poolAddr p) * s.led.bal p.1 (poolAddr p) / s.led.iss l ≤ s.led.bal p.1 (poolAddr p) :=
    Nat.div_le_of_le_mul (Nat.mul_le_mul_right _ hle)
  have q1 : s.led.bal l (poolAddr p) * s.led.bal p.2 (poolAddr p) / s.led.iss l ≤ s.led.bal p.2 (poolAddr p) :=
    Nat.div_le_of_le_mul (Nat.mul_le_mul_right _ hle)
  have b0 := h.sound.bal_lt p.1 (poolAddr p)
  have b1 := h.sound.bal_lt p.2 (poolAddr p)
  have bl := h.sound.bal_lt l (poolAddr p)
  have sat : ∀ {x : Nat}, x < U128 → sat128 x = x := fun hx => Nat.min_eq_left (by omega)
  obtain ⟨L1, hL1⟩ : ∃ L, s.led.burn l (poolAddr p) (s.led.bal l (poolAddr p)) = .ok L := ⟨_, if_pos le_rfl⟩
  obtain ⟨_, _, _, g4, _⟩ := burn_ok hL1
  obtain ⟨L2, hL2⟩ : ∃ L, L1.transfer p.1 (poolAddr p) dst
      (s.led.bal l (poolAddr p) * s.led.bal p.1 (poolAddr p) / s.led.iss l) = .ok L :=
    ⟨_, if_pos (by rw [g4 p.1 (Ne.symm hl0)]; exact q0)⟩
  obtain ⟨_, _, k3, _⟩ := transfer_ok hL2
  obtain ⟨L3, hL3⟩ : ∃ L, L2.transfer p.2 (poolAddr p) dst
      (s.led.bal l (poolAddr p) * s.led.bal p.2 (poolAddr p) / s.led.iss l) = .ok L :=
    ⟨_, if_pos (by rw [k3 p.2 (ne_of_gt hord), g4 p.2 (Ne.symm hl1)]; exact q1)⟩
  have e0 := sat (lt_of_le_of_lt q0 b0)
  have e1 := sat (lt_of_le_of_lt q1 b1)
  have f0 := (mul256_ok (x := s.led.bal l (poolAddr p) * s.led.bal p.1 (poolAddr p))).2 ⟨lt256 bl b0, rfl⟩
  have f1 := (mul256_ok (x := s.led.bal l (poolAddr p) * s.led.bal p.2 (poolAddr p))).2 ⟨lt256 bl b1, rfl⟩
  have d0 : divC (s.led.bal l (poolAddr p) * s.led.bal p.1 (poolAddr p)) (s.led.iss l) = .ok _ :=
    divC_ok.2 ⟨Nat.ne_of_gt hts, rfl⟩
  have d1 : divC (s.led.bal l (poolAddr p) * s.led.bal p.2 (poolAddr p)) (s.led.iss l) = .ok _ :=
    divC_ok.2 ⟨Nat.ne_of_gt hts, rfl⟩
  have n0 := (ensure_ok (p := _ ∧ _) (u := ()) (e := "InsufficientLiquidityBurnt")).2 ⟨h0, h1⟩
  have n1 := (ensure_ok (u := ()) (e := "InsufficientWithdrawnAmountA")).2 hm0
  have n2 := (ensure_ok (u := ()) (e := "InsufficientWithdrawnAmountB")).2 hm1
  unfold removeOrdered
  simp only [f0, f1, d0, d1, e0, e1, n0, n1, n2, hL1, hL2, hL3, bind, Except.bind, pure, Except.pure]
  exact ⟨_, rfl⟩

/-- Whoever holds liquidity tokens of a pair can withdraw, in every reachable state, whether the pair is
enabled or not and however large the pool is: it suffices that the tokens are worth at least one unit of
each asset, and that the limits are at most what they are worth. -/
theorem C202_withdraw {c : Cfg} {s : St} (hr : Reach c s) {who dst : Acct} (hw : Keyed who) {a b l : AssetId}
    {liq ma mb : Nat} {dl : Option Nat} (hdl : deadlineOk dl s.now) (hl : s.lp (mkPair a b) = some l)
    (hab : a ≠ b) (hbal : liq ≤ s.led.bal l who)
    (ha : 0 < liq * s.led.bal a (poolAddr (mkPair a b)) / s.led.iss l)
    (hb : 0 < liq * s.led.bal b (poolAddr (mkPair a b)) / s.led.iss l)
    (hma : ma ≤ liq * s.led.bal a (poolAddr (mkPair a b)) / s.led.iss l)
    (hmb : mb ≤ liq * s.led.bal b (poolAddr (mkPair a b)) / s.led.iss l) :
    ∃ s', step c s (.remove who a b liq ma mb dst dl) = .ok s' := by
  have hi := hr.inv
  obtain ⟨L, hL⟩ : ∃ L, s.led.transfer l who (poolAddr (mkPair a b)) liq = .ok L := ⟨_, if_pos hbal⟩
  have hi' : Inv { s with led := L } := hi.transfer hL hw
  obtain ⟨_, t2, t3, t4⟩ := transfer_ok hL
  obtain ⟨_, hl0, hl1⟩ := hi.lpOrd _ l hl
  have hliq : liq ≤ L.bal l (poolAddr (mkPair a b)) := by
    have := t4 (poolAddr (mkPair a b))
    rw [if_neg (hw.2 _).symm, if_pos rfl] at this
    omega
  have up : ∀ x, x ≠ l → liq * s.led.bal x (poolAddr (mkPair a b)) / s.led.iss l ≤
      L.bal l (poolAddr (mkPair a b)) * L.bal x (poolAddr (mkPair a b)) / L.iss l := by
    intro x hx
    rw [t3 x hx, t2]
    exact Nat.div_le_div_right (Nat.mul_le_mul_right _ hliq)
  have key : ∃ r, removeLiquidity s who a b liq ma mb dst dl = .ok r := by
    unfold removeLiquidity
    simp only [bind_ok, ensure_ok, okOr_ok]
    rcases mkPair_cases a b hab with ⟨e, _⟩ | ⟨e, _⟩
    · rw [e] at hl0 hl1
      have ua := up a (Ne.symm hl0)
      have ub := up b (Ne.symm hl1)
      have g := removeOrdered_live hi' hl (m0 := ma) (m1 := mb) (dst := dst) (by rw [e] at ua ⊢; dsimp only; rw [e] at ha; omega)
        (by rw [e] at ub ⊢; dsimp only; rw [e] at hb; omega) (by rw [e] at ua ⊢; dsimp only; rw [e] at hma; omega)
        (by rw [e] at ub ⊢; dsimp only; rw [e] at hmb; omega)
      obtain ⟨r, hr⟩ := g
      refine ⟨r, (), hdl, l, hl, (), hab, L, hL, ?_⟩
      rw [if_pos (by rw [e])]
      exact hr
    · rw [e] at hl0 hl1
      have ua := up a (Ne.symm hl1)
      have ub := up b (Ne.symm hl0)
      have g := removeOrdered_live hi' hl (m0 := mb) (m1 := ma) (dst := dst) (by rw [e] at ub ⊢; dsimp only; rw [e] at hb; omega)
        (by rw [e] at ua ⊢; dsimp only; rw [e] at ha; omega) (by rw [e] at ub ⊢; dsimp only; rw [e] at hmb; omega)
        (by rw [e] at ua ⊢; dsimp only; rw [e] at hma; omega)
      obtain ⟨r, hr⟩ := g
      refine ⟨r, (), hdl, l, hl, (), hab, L, hL, ?_⟩
      rw [if_neg (by rw [e]; exact hab)]
      exact hr
  obtain ⟨r, hr⟩ := key
  exact ⟨r.1, by show (removeLiquidity s who a b liq ma mb dst dl).map Prod.fst = _; rw [hr]; rfl⟩

/-- Non-vacuity: account 7 withdraws from the first pool after the pair has been disabled. -/
example : (after [.disable 1 2]).lp (1, 2) = some 1124 ∧ (after [.disable 1 2]).enabled (1, 2) = false ∧
    777777 ≤ (after [.disable 1 2]).led.bal 1124 7 ∧
    388888 = 777777 * (after [.disable 1 2]).led.bal 1 (poolAddr (1, 2)) / (after [.disable 1 2]).led.iss 1124 ∧
    0 < 777777 * (after [.disable 1 2]).led.bal 2 (poolAddr (1, 2)) / (after [.disable 1 2]).led.iss 1124 := by
  decide +kernel

end Verif.Dex
