import Verif.Dex.Demo

/-!
# Properties of the exchange (C01–C11)

`Reach c s` ranges over every history of operations. `step c s op = .ok s'` is a successful
operation; a failing operation returns no state, so it changes nothing.
-/

namespace Verif.Dex
open Ledger

/-- The product of the recorded reserves of a pair. -/
def K (s : St) (p : Pair) : Nat := (s.res p).1 * (s.res p).2

/-- The swap operations. -/
def Op.isSwap : Op → Bool
  | .swapSupply .. | .swapTarget .. => true
  | _ => false

/-! ## C01 -/

/-- C01: a successful swap, of either kind and along any path, does not lower the product of the
reserves of any pair. -/
theorem C01_swap_keeps_product {c : Cfg} (hd : 0 < c.feeD) {s s' : St} {op : Op}
    (hop : op.isSwap = true) (h : step c s op = .ok s') (p : Pair) : K s p ≤ K s' p := by
  have aux : ∀ {who dst : Acct} {amts : List Nat} {path : List AssetId},
      payAndSwap c s who dst amts path = .ok s' → K s p ≤ K s' p := by
    intro who dst amts path hp
    obtain ⟨a, b, rest, led, _, _, hs⟩ := payAndSwap_ok hp
    have := swapLoop_ind (fun (s t : St) => (s.res p).1 * (s.res p).2 ≤ (t.res p).1 * (t.res p).2)
      (fun _ => le_refl _) (fun _ _ _ h1 h2 => le_trans h1 h2) path amts _ _
      (fun _ _ _ _ _ _ _ _ h => swapHop_K hd h p) hs
    exact this
  cases op with
  | swapSupply who i m path dst dl => obtain ⟨_, _, _, _, _, hp⟩ := swapExactSupply_ok h; exact aux hp
  | swapTarget who i m path dst dl => obtain ⟨_, _, _, _, _, hp⟩ := swapExactTarget_ok h; exact aux hp
  | _ => cases hop

/-- Non-vacuity: a two-hop exact-supply swap succeeds and both products strictly grow. -/
example : (step cfg0 demo (.swapSupply 8 1000000 1 [1, 2, 3] 8 (some 12))).isOk = true ∧
    (let s' := after [.swapSupply 8 1000000 1 [1, 2, 3] 8 (some 12)]
     K demo (1, 2) < K s' (1, 2) ∧ K demo (2, 3) < K s' (2, 3)) := by decide +kernel

/-! ## C02, C03 -/

/-- Specification of a trade: outside the pools, the only balance changes are that `who` pays `paid` of
`first` and `dst` receives `got` of `last`; on top, the protocol-fee account may receive liquidity
tokens. -/
def TradeEffect (s s' : St) (who dst : Acct) (first last : AssetId) (paid got : Nat) : Prop :=
  ∀ (t : AssetId) (x : Acct), (∀ p, x ≠ poolAddr p) → ∃ fee,
    s'.led.bal t x + (if t = first ∧ x = who then paid else 0) =
      s.led.bal t x + (if t = last ∧ x = dst then got else 0) + fee ∧
    (fee ≠ 0 → s.feeTo = some x ∧ ∃ p, s.lp p = some t)

theorem trade_effect {c : Cfg} {s s' : St} {who dst : Acct} {amts : List Nat}
    {path : List AssetId} (hl : amts.length = path.length)
    (hp : payAndSwap c s who dst amts path = .ok s') :
    ∃ first last, path.head? = some first ∧ path.getLast? = some last ∧
      TradeEffect s s' who dst first last (amts.headD 0) (amts.getLastD 0) := by
  obtain ⟨a, b, rest, led, rfl, ht, hs⟩ := payAndSwap_ok hp
  obtain ⟨last, hlast⟩ : ∃ l, (a :: b :: rest).getLast? = some l := by
    cases e : (a :: b :: rest).getLast? with
    | none => simp at e
    | some l => exact ⟨l, rfl⟩
  refine ⟨a, last, rfl, hlast, ?_⟩
  intro t x hx
  obtain ⟨m, e, hm⟩ := swapLoop_effect t x hx _ amts _ s' hl (by simp) hs
  refine ⟨m, ?_, hm⟩
  rw [e, hlast]
  dsimp only
  obtain ⟨_, _, h2, h3⟩ := transfer_ok ht
  have hbal : led.bal t x + (if t = a ∧ x = who then amts.headD 0 else 0) = s.led.bal t x := by
    by_cases hta : t = a
    · subst hta
      have := h3 x
      rw [if_neg (hx _)] at this
      simp only [true_and]; omega
    · rw [h2 t hta]; simp [hta]
  have hsome : (some last = some t) ↔ (t = last) := by
    simp [eq_comm]
  simp only [hsome]
  omega

/-- C02: a successful exact-supply swap happens before its deadline, takes exactly `amountIn` of the
first token from the trader, and gives the recipient some `got ≥ minOut` of the last token; no other
account outside the pools changes. -/
theorem C02_exact_supply {c : Cfg} {s s' : St} {who dst : Acct} {amountIn minOut : Nat}
    {path : List AssetId} {deadline : Option Nat}
    (h : step c s (.swapSupply who amountIn minOut path dst deadline) = .ok s') :
    (∀ d, deadline = some d → s.now ≤ d) ∧
    ∃ first last got, path.head? = some first ∧ path.getLast? = some last ∧ minOut ≤ got ∧
      TradeEffect s s' who dst first last amountIn got := by
  obtain ⟨hd, amts, h2, ha, hm, hp⟩ := swapExactSupply_ok h
  have hsh := amountsOutLoop_shape path amountIn amts (by rintro rfl; simp at h2) ha
  obtain ⟨first, last, e1, e2, he⟩ := trade_effect hsh.1 hp
  refine ⟨?_, first, last, _, e1, e2, hm, ?_⟩
  · rintro d rfl; exact hd
  · rw [hsh.2] at he; exact he

/-- C02 in the common case: trader = recipient, not a pool and not the fee account, different tokens. -/
theorem C02_exact_supply_trader {c : Cfg} {s s' : St} {who : Acct} {amountIn minOut : Nat}
    {path : List AssetId} {deadline : Option Nat} {first last : AssetId}
    (hk : Keyed who) (hfee : s.feeTo ≠ some who) (hne : first ≠ last)
    (hf : path.head? = some first) (hl : path.getLast? = some last)
    (h : step c s (.swapSupply who amountIn minOut path who deadline) = .ok s') :
    s'.led.bal first who + amountIn = s.led.bal first who ∧
    s.led.bal last who + minOut ≤ s'.led.bal last who := by
  obtain ⟨_, f, l, got, e1, e2, hm, he⟩ := C02_exact_supply h
  rw [hf] at e1; rw [hl] at e2; cases e1; cases e2
  obtain ⟨fee1, x1, y1⟩ := he first who hk.2
  obtain ⟨fee2, x2, y2⟩ := he last who hk.2
  have z1 : fee1 = 0 := by by_contra hz; exact hfee (y1 hz).1
  have z2 : fee2 = 0 := by by_contra hz; exact hfee (y2 hz).1
  simp only [true_and, if_true, hne, hne.symm, false_and, if_false] at x1 x2
  omega

/-- Non-vacuity: an exact-supply swap over two pools. -/
example : let s' := after [.swapSupply 8 1000000 5900000 [1, 2, 3] 8 (some 12)]
    (step cfg0 demo (.swapSupply 8 1000000 5900000 [1, 2, 3] 8 (some 12))).isOk = true ∧
    s'.led.bal 1 8 + 1000000 = demo.led.bal 1 8 ∧ s'.led.bal 3 8 = 5946302 ∧
    (step cfg0 demo (.swapSupply 8 1000000 5946303 [1, 2, 3] 8 (some 12))).isOk = false ∧
    (step cfg0 demo (.swapSupply 8 1000000 1 [1, 2, 3] 8 (some 9))).isOk = false := by
  decide +kernel

/-- C03: a successful exact-target swap happens before its deadline, gives the recipient exactly
`amountOut` of the last token, and takes some `paid ≤ maxIn` of the first token from the trader; no other
account outside the pools changes. -/
theorem C03_exact_target {c : Cfg} {s s' : St} {who dst : Acct} {amountOut maxIn : Nat}
    {path : List AssetId} {deadline : Option Nat}
    (h : step c s (.swapTarget who amountOut maxIn path dst deadline) = .ok s') :
    (∀ d, deadline = some d → s.now ≤ d) ∧
    ∃ first last paid, path.head? = some first ∧ path.getLast? = some last ∧ paid ≤ maxIn ∧
      TradeEffect s s' who dst first last paid amountOut := by
  obtain ⟨hd, amts, h2, ha, hm, hp⟩ := swapExactTarget_ok h
  have hsh := amountsInLoop_shape path amountOut amts (by rintro rfl; simp at h2) ha
  obtain ⟨first, last, e1, e2, he⟩ := trade_effect hsh.1 hp
  refine ⟨?_, first, last, _, e1, e2, hm, ?_⟩
  · rintro d rfl; exact hd
  · rw [hsh.2] at he; exact he

/-- C03 in the common case. -/
theorem C03_exact_target_trader {c : Cfg} {s s' : St} {who : Acct} {amountOut maxIn : Nat}
    {path : List AssetId} {deadline : Option Nat} {first last : AssetId}
    (hk : Keyed who) (hfee : s.feeTo ≠ some who) (hne : first ≠ last)
    (hf : path.head? = some first) (hl : path.getLast? = some last)
    (h : step c s (.swapTarget who amountOut maxIn path who deadline) = .ok s') :
    s.led.bal first who ≤ s'.led.bal first who + maxIn ∧
    s'.led.bal last who = s.led.bal last who + amountOut := by
  obtain ⟨_, f, l, paid, e1, e2, hm, he⟩ := C03_exact_target h
  rw [hf] at e1; rw [hl] at e2; cases e1; cases e2
  obtain ⟨fee1, x1, y1⟩ := he first who hk.2
  obtain ⟨fee2, x2, y2⟩ := he last who hk.2
  have z1 : fee1 = 0 := by by_contra hz; exact hfee (y1 hz).1
  have z2 : fee2 = 0 := by by_contra hz; exact hfee (y2 hz).1
  simp only [true_and, if_true, hne, hne.symm, false_and, if_false] at x1 x2
  omega

/-- Non-vacuity: an exact-target swap over two pools; a limit one lower is refused. -/
example : let s' := after [.swapTarget 8 5900000 992190 [1, 2, 3] 8 none]
    (step cfg0 demo (.swapTarget 8 5900000 992190 [1, 2, 3] 8 none)).isOk = true ∧
    s'.led.bal 1 8 + 992190 = demo.led.bal 1 8 ∧ s'.led.bal 3 8 = 5900000 ∧
    (step cfg0 demo (.swapTarget 8 5900000 992189 [1, 2, 3] 8 none)).isOk = false := by
  decide +kernel

/-! ## C04 -/

/-- C04: supplying the input quoted for a target output buys at least that output. The quote must be
below `u128::MAX`, where it saturates. -/
theorem C04_quote_in_suffices {c : Cfg} {o ri ro x y : Nat} (ho : o < U128) (hx : x < U128 - 1)
    (h1 : getAmountIn c o ri ro = .ok x) (h2 : getAmountOut c x ri ro = .ok y) : o ≤ y := by
  obtain ⟨hop, hri, hro, hf, hor, hden, e⟩ := getAmountIn_ok h1
  obtain ⟨_, _, _, _, hden2, e2⟩ := getAmountOut_ok h2
  set f := c.feeD - c.feeN with hfdef
  have e' : x = ri * o * c.feeD / ((ro - o) * f) + 1 := by
    unfold sat128 at e; omega
  have hlt : ri * o * c.feeD < x * ((ro - o) * f) := by
    rw [e', ← Nat.div_lt_iff_lt_mul hden]; omega
  have hq : o ≤ x * f * ro / (ri * c.feeD + x * f) := by
    rw [Nat.le_div_iff_mul_le hden2]
    obtain ⟨w, rfl⟩ := Nat.exists_eq_add_of_le hor
    rw [Nat.add_sub_cancel_left] at hlt
    nlinarith
  rw [e2]; unfold sat128; omega

/-- C04: the input quoted for the output of a given input exceeds that input by at most one. -/
theorem C04_quote_out_in {c : Cfg} {x ri ro y x' : Nat}
    (h1 : getAmountOut c x ri ro = .ok y) (h2 : getAmountIn c y ri ro = .ok x') : x' ≤ x + 1 := by
  obtain ⟨hx, hri, hro, hf, hden, e⟩ := getAmountOut_ok h1
  obtain ⟨hy, _, _, _, hyr, hden2, e2⟩ := getAmountIn_ok h2
  set f := c.feeD - c.feeN with hfdef
  have hk : y * (ri * c.feeD + x * f) ≤ x * f * ro := by
    rw [← Nat.le_div_iff_mul_le hden]
    exact le_of_eq_of_le e (sat128_le _)
  refine le_trans (le_of_eq_of_le e2 (sat128_le _)) ?_
  apply Nat.succ_le_succ
  apply Nat.div_le_of_le_mul
  obtain ⟨w, rfl⟩ := Nat.exists_eq_add_of_le hyr
  rw [Nat.add_sub_cancel_left]
  nlinarith

/-- C04: the quoted output is strictly below the output reserve. -/
theorem C04_quote_lt_reserve {c : Cfg} {x ri ro y : Nat} (hd : 0 < c.feeD)
    (h : getAmountOut c x ri ro = .ok y) : y < ro := getAmountOut_lt hd h

/-- The restriction in `C04_quote_in_suffices` is needed: a quote that does not fit `u128` is silently
replaced by `u128::MAX`, which buys less than the target. -/
theorem C04_saturated_quote_refuted :
    ∃ o ri ro x y, ri < U128 ∧ ro < U128 ∧ getAmountIn cfg0 o ri ro = .ok x ∧
      getAmountOut cfg0 x ri ro = .ok y ∧ y < o := by
  refine ⟨999, U128 - 1, 1000, U128 - 1, 499, ?_, ?_, ?_, ?_, ?_⟩ <;> decide +kernel

/-- Non-vacuity of the quote theorems. -/
example : getAmountIn cfg0 3000 1000000 4000000 = .ok 753 ∧
    getAmountOut cfg0 753 1000000 4000000 = .ok 3000 ∧
    getAmountIn cfg0 3000 1000000 4000000 = .ok 753 := by
  decide +kernel

/-! ## C05 -/

theorem nondilution_remove {r bal ts liq amt bal' : Nat} (hr : r ≤ bal) (hts : 0 < ts)
    (hl : liq ≤ ts) (ha : amt ≤ liq * bal / ts) (hb : bal ≤ bal' + amt) :
    r * (ts - liq) ≤ bal' * ts := by
  have h1 : amt * ts ≤ liq * bal := (Nat.le_div_iff_mul_le hts).mp ha
  obtain ⟨w, rfl⟩ := Nat.exists_eq_add_of_le hl
  rw [Nat.add_sub_cancel_left]
  have h2 : bal * (liq + w) ≤ (bal' + amt) * (liq + w) := Nat.mul_le_mul_right _ hb
  have h3 : r * w ≤ bal * w := Nat.mul_le_mul_right _ hr
  nlinarith

theorem nondilution_add {r amt ts liq : Nat} (hr : r ≠ 0) (hl : liq ≤ amt * ts / r) :
    r * (ts + liq) ≤ (r + amt) * ts := by
  have h1 : liq * r ≤ amt * ts := (Nat.le_div_iff_mul_le (Nat.pos_of_ne_zero hr)).mp hl
  nlinarith

/-- C05: neither `add_liquidity` nor `remove_liquidity` lowers the recorded reserves per liquidity token,
for either token of any pair (`reserve / supply` before ≤ after, cross-multiplied). -/
theorem C05_no_dilution {c : Cfg} {s s' : St} {op : Op} (hr : Reach c s)
    (hop : (∃ who a b da db ma mb dst dl, op = .add who a b da db ma mb dst dl) ∨
      (∃ who a b liq ma mb dst dl, op = .remove who a b liq ma mb dst dl))
    (hw : ∀ w, op.signer = some w → Keyed w) (h : step c s op = .ok s')
    (p : Pair) (l : AssetId) (hl : s'.lp p = some l) :
    (s.res p).1 * s'.led.iss l ≤ (s'.res p).1 * s.led.iss l ∧
    (s.res p).2 * s'.led.iss l ≤ (s'.res p).2 * s.led.iss l := by
  have hinv := hr.inv
  have hinv' := hinv.step hw h
  rcases hop with ⟨who, a, b, da, db, ma, mb, dst, dl, rfl⟩ | ⟨who, a, b, liq, ma, mb, dst, dl, rfl⟩
  · obtain ⟨ev, ha⟩ := map_fst_ok h
    obtain ⟨hne, _, sl, d0, d1, m0, m1, hsl, hd0, hd1, _, hadd⟩ := addLiquidity_ok ha
    obtain ⟨amts, led1, led2, ll, k, _, h1, h2, hb0, hb1, ea0, ea1, hq, hz, hm, e⟩ := addOrdered_ok hadd
    have hsame : sl.1.led = s.led ∧ sl.1.res = s.res ∧ sl.1.lp (mkPair a b) = some sl.2 ∧
        (∀ q, q ≠ mkPair a b → sl.1.lp q = s.lp q) := by
      rcases getOrCreateLp_cases hsl with ⟨hl, e⟩ | ⟨hn, hc⟩
      · rw [e]; exact ⟨rfl, rfl, hl, fun _ _ => rfl⟩
      · obtain ⟨_, n, er⟩ := createLp_ok hc
        rw [er]; exact ⟨rfl, rfl, upd_same _ _ _, fun q hq => upd_ne _ _ hq⟩
    have elp : s'.lp = sl.1.lp := by rw [e]
    have eres : s'.res = upd s.res (mkPair a b) (led2.bal (mkPair a b).1 (poolAddr (mkPair a b)),
        led2.bal (mkPair a b).2 (poolAddr (mkPair a b))) := by rw [e, hsame.2.1]
    have eiss : led2.iss = s.led.iss := by rw [(transfer_ok h2).2.1, (transfer_ok h1).2.1, hsame.1]
    by_cases hp : p = mkPair a b
    · subst hp
      have hll : l = sl.2 := by rw [elp, hsame.2.2.1] at hl; exact (Option.some.inj hl).symm
      subst hll
      rw [eres, upd_same]
      dsimp only
      rw [hsame.2.1] at hb0 hb1 ea0 ea1 hq
      rcases liquidityFor_led hq with ⟨hi, hb, _⟩ | ⟨hi, hll, hr0, hr1, hql⟩
      · -- first deposit: there were no liquidity tokens
        rw [eiss] at hi
        have hno : s.lp (mkPair a b) = none := by
          rcases getOrCreateLp_cases hsl with ⟨hl, _⟩ | ⟨hn, _⟩
          · have := hinv.supply hl; unfold minLiquidity at this; omega
          · exact hn
        rw [(hinv.lpNone _ hno).1]
        simp
      · subst hll
        rw [(mint_ok hm).2.1, eiss]
        rw [eiss] at hql
        have hle := le_of_eq_of_le hql (sat128_le _)
        have hle0 := le_trans hle (min_le_left _ _)
        have hle1 := le_trans hle (min_le_right _ _)
        have x0 := nondilution_add hr0 hle0
        have x1 := nondilution_add hr1 hle1
        have z0 : (s.res (mkPair a b)).1 + ev.amt0 = ll.bal (mkPair a b).1 (poolAddr (mkPair a b)) := by omega
        have z1 : (s.res (mkPair a b)).2 + ev.amt1 = ll.bal (mkPair a b).2 (poolAddr (mkPair a b)) := by omega
        rw [z0] at x0; rw [z1] at x1
        exact ⟨x0, x1⟩
    · rw [eres, upd_ne _ _ hp]
      have hne' : l ≠ sl.2 := by
        rintro rfl
        exact hp (hinv'.lp_inj hl (by rw [elp]; exact hsame.2.2.1))
      have : s'.led.iss l = s.led.iss l := by
        rw [(mint_ok hm).2.2.1 l hne']
        rcases liquidityFor_led hq with ⟨_, hb, _⟩ | ⟨_, hll, _⟩
        · rw [(mint_ok hb).2.2.1 l hne', eiss]
        · rw [hll, eiss]
      rw [this]; exact ⟨le_refl _, le_refl _⟩
  · obtain ⟨ev, ha⟩ := map_fst_ok h
    obtain ⟨_, _, l', led, m0, m1, hl', ht, hrm⟩ := removeLiquidity_ok ha
    obtain ⟨led1, led2, k, hz, eliq, ea0, ea1, _, _, _, _, hb, h1, h2, e⟩ := removeOrdered_ok hrm
    dsimp only at *
    have elp : s'.lp = s.lp := by rw [e]
    have eres : s'.res = upd s.res (mkPair a b) (s'.led.bal (mkPair a b).1 (poolAddr (mkPair a b)),
        s'.led.bal (mkPair a b).2 (poolAddr (mkPair a b))) := by rw [e]
    have eiss0 : led.iss = s.led.iss := (transfer_ok ht).2.1
    have eiss : s'.led.iss = led1.iss := by rw [(transfer_ok h2).2.1, (transfer_ok h1).2.1]
    by_cases hp : p = mkPair a b
    · subst hp
      have hll : l' = l := by rw [elp, hl'] at hl; exact Option.some.inj hl
      subst hll
      obtain ⟨hlt, hl1, hl2⟩ := hinv.lpOrd _ _ hl'
      have hback := hinv.backed (mkPair a b)
      rw [show s.led.bal (mkPair a b).1 = led.bal (mkPair a b).1 from
        ((transfer_ok ht).2.2.1 _ hl1.symm).symm] at hback
      rw [show s.led.bal (mkPair a b).2 = led.bal (mkPair a b).2 from
        ((transfer_ok ht).2.2.1 _ hl2.symm).symm] at hback
      have hts : ev.liq ≤ s.led.iss l' := by
        rw [eliq, ← eiss0]
        exact ((transfer_sound ht hinv.sound) l').1.le _
      have hpos : 0 < s.led.iss l' := by rw [← eiss0]; exact Nat.pos_of_ne_zero hz
      -- balances of the pool after the payout
      have hbal0 : led.bal (mkPair a b).1 (poolAddr (mkPair a b)) ≤
          s'.led.bal (mkPair a b).1 (poolAddr (mkPair a b)) + ev.amt0 := by
        rw [(transfer_ok h2).2.2.1 _ (ne_of_lt hlt)]
        have := (transfer_ok h1).2.2.2 (poolAddr (mkPair a b))
        rw [(burn_ok hb).2.2.2.1 _ hl1.symm] at this
        simp only [if_true] at this
        omega
      have hbal1 : led.bal (mkPair a b).2 (poolAddr (mkPair a b)) ≤
          s'.led.bal (mkPair a b).2 (poolAddr (mkPair a b)) + ev.amt1 := by
        have := (transfer_ok h2).2.2.2 (poolAddr (mkPair a b))
        rw [(transfer_ok h1).2.2.1 _ (ne_of_gt hlt), (burn_ok hb).2.2.2.1 _ hl2.symm] at this
        simp only [if_true] at this
        omega
      rw [eres, upd_same, eiss, (burn_ok hb).2.1, eiss0]
      dsimp only
      rw [eiss0] at ea0 ea1
      exact ⟨nondilution_remove hback.1 hpos hts (le_of_eq_of_le ea0 (sat128_le _)) hbal0,
        nondilution_remove hback.2 hpos hts (le_of_eq_of_le ea1 (sat128_le _)) hbal1⟩
    · rw [eres, upd_ne _ _ hp]
      have hne' : l ≠ l' := by
        rintro rfl
        rw [elp] at hl
        exact hp (hinv.lp_inj hl hl')
      rw [eiss, (burn_ok hb).2.2.1 l hne', eiss0]; exact ⟨le_refl _, le_refl _⟩

/-- Non-vacuity: a second provider joins, and part of the liquidity is withdrawn. -/
example : (step cfg0 demo (.add 8 2 1 123456 654321 0 0 8 none)).isOk = true ∧
    (step cfg0 demo (.remove 7 1 2 777777 0 0 7 none)).isOk = true ∧
    demo.lp (1, 2) = some 1124 ∧ demo.led.iss 1124 = 2000000000 ∧
    (after [.remove 7 1 2 777777 0 0 7 none]).led.iss 1124 = 1999222223 := by decide +kernel

/-! ## C06 -/

/-- Nobody has sent tokens straight to the pool: it holds exactly the recorded reserves, and no
liquidity tokens. -/
def NoDonation (s : St) (p : Pair) : Prop :=
  s.led.bal p.1 (poolAddr p) = (s.res p).1 ∧ s.led.bal p.2 (poolAddr p) = (s.res p).2 ∧
  ∀ l, s.lp p = some l → s.led.bal l (poolAddr p) = 0

theorem cycle_arith {r amt ts liq : Nat} (hr : r ≠ 0) (hl : liq ≤ amt * ts / r) :
    liq * (r + amt) / (ts + liq) ≤ amt := by
  have h1 : liq * r ≤ amt * ts := (Nat.le_div_iff_mul_le (Nat.pos_of_ne_zero hr)).mp hl
  apply Nat.div_le_of_le_mul
  nlinarith

/-- C06: adding liquidity and removing exactly the liquidity tokens received leaves the provider with at
most what they had of either token. -/
theorem C06_add_remove_no_profit {c : Cfg} {s s1 s2 : St} {who : Acct} {a b : AssetId}
    {da db ma mb ma' mb' : Nat} {dl dl' : Option Nat} {ev : Added} {ev' : Removed}
    (hr : Reach c s) (hw : Keyed who) (hd : NoDonation s (mkPair a b))
    (h1 : addLiquidity c s who a b da db ma mb who dl = .ok (s1, ev))
    (h2 : removeLiquidity s1 who a b ev.liq ma' mb' who dl' = .ok (s2, ev')) :
    s2.led.bal a who ≤ s.led.bal a who ∧ s2.led.bal b who ≤ s.led.bal b who := by
  have hinv := hr.inv
  have hinv1 := hinv.addLiquidity hw h1
  obtain ⟨hne, _, sl, d0, d1, m0, m1, hsl, hd0, hd1, _, hadd⟩ := addLiquidity_ok h1
  obtain ⟨amts, led1, led2, ll, k, _, t1, t2, hb0, hb1, ea0, ea1, hq, hz, hm, e⟩ := addOrdered_ok hadd
  have hsame : sl.1.led = s.led ∧ sl.1.res = s.res ∧ sl.1.lp (mkPair a b) = some sl.2 := by
    rcases getOrCreateLp_cases hsl with ⟨hl, e⟩ | ⟨hn, hc⟩
    · rw [e]; exact ⟨rfl, rfl, hl⟩
    · obtain ⟨_, n, er⟩ := createLp_ok hc
      rw [er]; exact ⟨rfl, rfl, upd_same _ _ _⟩
  have elp : s1.lp (mkPair a b) = some sl.2 := by rw [e]; exact hsame.2.2
  obtain ⟨_, _, l', led, m0', m1', hl', ht, hrm⟩ := removeLiquidity_ok h2
  rw [elp] at hl'; cases hl'
  obtain ⟨led1', led2', k', hts, eliq, eb0, eb1, _, _, _, _, hb, u1, u2, e2⟩ := removeOrdered_ok hrm
  dsimp only at *
  set p := mkPair a b with hpdef
  set l := sl.2 with hldef
  obtain ⟨hlt, hl1, hl2⟩ := hinv1.lpOrd _ _ elp
  have hwp : who ≠ poolAddr p := hw.2 p
  rw [hsame.1] at t1
  rw [hsame.2.1] at hb0 hb1 ea0 ea1 hq
  obtain ⟨dn0, dn1, dnl⟩ := hd
  have hp12 : p.2 ≠ p.1 := ne_of_gt hlt
  -- first transfer
  have T1w := (transfer_ok t1).2.2.2 who
  have T1p := (transfer_ok t1).2.2.2 (poolAddr p)
  have T2w := (transfer_ok t2).2.2.2 who
  have T2p := (transfer_ok t2).2.2.2 (poolAddr p)
  rw [(transfer_ok t1).2.2.1 _ hp12] at T2w T2p
  simp only [if_true, if_neg hwp, if_neg hwp.symm, Nat.add_zero] at T1w T1p T2w T2p
  have B0 : led2.bal p.1 = led1.bal p.1 := (transfer_ok t2).2.2.1 _ hp12.symm
  -- s1 balances
  have llmint : ∀ t, t ≠ l → ll.bal t = led2.bal t := by
    intro t htl
    rcases liquidityFor_led hq with ⟨_, hbm, _⟩ | ⟨_, hll, _⟩
    · exact (mint_ok hbm).2.2.2.1 _ htl
    · rw [hll]
  have S0 : s1.led.bal p.1 = led1.bal p.1 := by
    rw [(mint_ok hm).2.2.2.1 _ hl1.symm, llmint _ hl1.symm, B0]
  have S1 : s1.led.bal p.2 = led2.bal p.2 := by
    rw [(mint_ok hm).2.2.2.1 _ hl2.symm, llmint _ hl2.symm]
  -- the pool's own liquidity tokens after the removal transfer
  have hposz : 0 < s1.led.iss l := by
    have := hinv1.supply elp; unfold minLiquidity at this; omega
  have hpool_l : s.led.bal l (poolAddr p) = 0 := by
    rcases getOrCreateLp_cases hsl with ⟨hl, _⟩ | ⟨hn, hc⟩
    · exact dnl _ hl
    · have := hinv.fresh _ (createLp_ok hc).1
      have h0 := (hinv.sound sl.2).1.le (poolAddr p)
      change s.led.bal sl.2 (poolAddr p) = 0
      omega
  have hl2pool : led2.bal l (poolAddr p) = 0 := by
    rw [(transfer_ok t2).2.2.1 _ hl2, (transfer_ok t1).2.2.1 _ hl1]; exact hpool_l
  have hllpool : ll.bal l (poolAddr p) = 0 := by
    rcases liquidityFor_led hq with ⟨_, hbm, _⟩ | ⟨_, hll, _⟩
    · rw [(mint_ok hbm).2.2.2.2, if_neg (burn_ne_pool p).symm]; omega
    · rw [hll]; exact hl2pool
  have hs1pool : s1.led.bal l (poolAddr p) = 0 := by
    rw [(mint_ok hm).2.2.2.2, if_neg hwp.symm]; omega
  have hliq : ev'.liq = ev.liq := by
    have := (transfer_ok ht).2.2.2 (poolAddr p)
    rw [hs1pool] at this
    simp only [if_true, if_neg hwp.symm, Nat.add_zero, Nat.zero_add] at this
    rw [eliq, this]
  have hledbal0 : led.bal p.1 = s1.led.bal p.1 := (transfer_ok ht).2.2.1 _ hl1.symm
  have hledbal1 : led.bal p.2 = s1.led.bal p.2 := (transfer_ok ht).2.2.1 _ hl2.symm
  have hlediss : led.iss = s1.led.iss := (transfer_ok ht).2.1
  -- what the provider put in
  have A0 : ev.amt0 = sat128 amts.1 := by rw [ea0, B0]; omega
  have A1 : ev.amt1 = sat128 amts.2 := by rw [ea1]; omega
  -- what comes out
  have O : ev'.amt0 ≤ ev.amt0 ∧ ev'.amt1 ≤ ev.amt1 := by
    rw [hliq, hledbal0, hlediss, S0] at eb0
    rw [hliq, hledbal1, hlediss, S1] at eb1
    have P0 : led1.bal p.1 (poolAddr p) = (s.res p).1 + ev.amt0 := by omega
    have P1 : led2.bal p.2 (poolAddr p) = (s.res p).2 + ev.amt1 := by omega
    rw [P0] at eb0; rw [P1] at eb1
    rcases liquidityFor_led hq with ⟨hi, hbm, _⟩ | ⟨hi, hll, hr0, hr1, hql⟩
    · have hno : s.res p = (0, 0) := by
        rcases getOrCreateLp_cases hsl with ⟨hl, _⟩ | ⟨hn, _⟩
        · have hsup := hinv.supply hl
          rw [(transfer_ok t2).2.1, (transfer_ok t1).2.1] at hi
          unfold minLiquidity at hsup
          change s.led.iss sl.2 = 0 at hi
          omega
        · exact (hinv.lpNone _ hn).1
      have hiss : ev.liq ≤ s1.led.iss l := by rw [(mint_ok hm).2.1]; omega
      rw [hno] at eb0 eb1
      simp only [Nat.zero_add] at eb0 eb1
      constructor
      · refine le_trans (le_of_eq_of_le eb0 (sat128_le _)) (Nat.div_le_of_le_mul ?_)
        exact Nat.mul_le_mul_right _ hiss
      · refine le_trans (le_of_eq_of_le eb1 (sat128_le _)) (Nat.div_le_of_le_mul ?_)
        exact Nat.mul_le_mul_right _ hiss
    · subst hll
      have hle := le_of_eq_of_le hql (sat128_le _)
      rw [(mint_ok hm).2.1] at eb0 eb1
      exact ⟨le_trans (le_of_eq_of_le eb0 (sat128_le _))
          (cycle_arith hr0 (le_trans hle (min_le_left _ _))),
        le_trans (le_of_eq_of_le eb1 (sat128_le _))
          (cycle_arith hr1 (le_trans hle (min_le_right _ _)))⟩
  -- payout
  have U1w := (transfer_ok u1).2.2.2 who
  have U2w := (transfer_ok u2).2.2.2 who
  rw [(burn_ok hb).2.2.2.1 _ hl1.symm, hledbal0, S0] at U1w
  rw [(transfer_ok u1).2.2.1 _ hp12, (burn_ok hb).2.2.2.1 _ hl2.symm, hledbal1, S1] at U2w
  simp only [if_true, if_neg hwp, Nat.add_zero] at U1w U2w
  have U0 : s2.led.bal p.1 = led2'.bal p.1 := (transfer_ok u2).2.2.1 _ hp12.symm
  have F0 : s2.led.bal p.1 who ≤ s.led.bal p.1 who := by rw [U0]; omega
  have F1 : s2.led.bal p.2 who ≤ s.led.bal p.2 who := by omega
  rcases mkPair_cases a b hne with ⟨ep, _⟩ | ⟨ep, _⟩
  · rw [← hpdef] at ep; rw [ep] at F0 F1; exact ⟨F0, F1⟩
  · rw [← hpdef] at ep; rw [ep] at F0 F1; exact ⟨F1, F0⟩

/-- Non-vacuity: the demo pool meets `NoDonation`; the cycle succeeds and the provider ends up with
exactly what they had. -/
example : let s1 := after [.add 8 1 2 1000001 4000007 0 0 8 none]
    let s2 := after [.add 8 1 2 1000001 4000007 0 0 8 none, .remove 8 1 2 2000002 0 0 8 none]
    NoDonation demo (1, 2) ∧
    s1.led.bal 1124 8 = 2000002 ∧ (demo.led.bal 1 8, demo.led.bal 2 8) = (5000000000, 5000000000) ∧
    (s2.led.bal 1 8, s2.led.bal 2 8) = (5000000000, 5000000000) ∧ s2.led.bal 1124 8 = 0 := by
  refine ⟨⟨by decide +kernel, by decide +kernel, ?_⟩, by decide +kernel⟩
  intro l hl
  have h1 : demo.lp (1, 2) = some 1124 := by decide +kernel
  rw [h1] at hl; cases hl; decide +kernel

/-! The swap round trip. -/

/-- What a two-token exact-supply swap does, given that the pool holds exactly its reserves. -/
theorem swap2 {c : Cfg} {s s' : St} {who : Acct} {x m : Nat} {a b : AssetId} {dl : Option Nat}
    (hi : Inv s) (hw : Keyed who)
    (hn : s.led.bal (mkPair a b).1 (poolAddr (mkPair a b)) = (s.res (mkPair a b)).1 ∧
      s.led.bal (mkPair a b).2 (poolAddr (mkPair a b)) = (s.res (mkPair a b)).2)
    (h : swapExactSupply c s who x m [a, b] who dl = .ok s') :
    a ≠ b ∧ ∃ y, getAmountOut c x (getLiquidity s a b).1 (getLiquidity s a b).2 = .ok y ∧
      y ≤ (getLiquidity s a b).2 ∧
      (getLiquidity s' a b) = ((getLiquidity s a b).1 + x, (getLiquidity s a b).2 - y) ∧
      s'.led.bal a who + x = s.led.bal a who ∧ s'.led.bal b who = s.led.bal b who + y ∧
      s'.led.bal (mkPair a b).1 (poolAddr (mkPair a b)) = (s'.res (mkPair a b)).1 ∧
      s'.led.bal (mkPair a b).2 (poolAddr (mkPair a b)) = (s'.res (mkPair a b)).2 := by
  obtain ⟨_, amts, _, ha, _, hp⟩ := swapExactSupply_ok h
  simp only [amountsOutLoop, bind_ok, ensure_ok, pure_ok, Except.ok.injEq] at ha
  obtain ⟨_, _, _, _, y, hy, _, hy0, tl, htl, rfl⟩ := ha
  subst htl
  obtain ⟨a', b', rest, led0, hpath, ht0, hs⟩ := payAndSwap_ok hp
  cases hpath
  simp only [swapLoop, bind_ok, Except.ok.injEq] at hs
  obtain ⟨s1, hh, rfl⟩ := hs
  have hi0 : Inv { s with led := led0 } := hi.transfer ht0 hw
  obtain ⟨l, hl⟩ := hop_lp hi0 hh
  obtain ⟨hne, _, led, ht, _, hf⟩ := swapHop_ok hh
  obtain ⟨k, e, hk⟩ := collectFee_ok hf
  obtain ⟨hlt, hl1, hl2⟩ := hi.lpOrd _ _ hl
  dsimp only [List.headD] at *
  set p := mkPair a b with hpdef
  have hwp : who ≠ poolAddr p := hw.2 p
  have hal : a ≠ l ∧ b ≠ l := by
    rcases mkPair_cases a b hne with ⟨ep, _⟩ | ⟨ep, _⟩ <;> rw [← hpdef] at ep <;> rw [ep] at hl1 hl2
    · exact ⟨hl1.symm, hl2.symm⟩
    · exact ⟨hl2.symm, hl1.symm⟩
  -- the fee does not touch the two tokens
  have hfin : ∀ t, t ≠ l → s1.led.bal t = led.bal t := by
    intro t htl
    rcases hk with hk | ⟨f, l2, m2, _, hl2', hk⟩
    · rw [hk]
    · rw [hl] at hl2'; cases hl2'
      exact (mint_ok hk).2.2.2.1 t htl
  have T0a := (transfer_ok ht0).2.2.2 who
  have T0p := (transfer_ok ht0).2.2.2 (poolAddr p)
  have T1a := (transfer_ok ht).2.2.2 who
  have T1p := (transfer_ok ht).2.2.2 (poolAddr p)
  have O0 := (transfer_ok ht0).2.2.1 b hne.symm
  have O1 := (transfer_ok ht).2.2.1 a hne
  rw [O0] at T1a T1p
  simp only [if_true, if_neg hwp, if_neg hwp.symm, Nat.add_zero] at T0a T0p T1a T1p
  have hyle := (transfer_ok ht).1
  rw [O0] at hyle
  have eres : s1.res p = (led.bal p.1 (poolAddr p), led.bal p.2 (poolAddr p)) := by
    rw [e]; exact upd_same _ _ _
  have FA : s1.led.bal a who + x = s.led.bal a who := by
    rw [hfin a hal.1, O1]; exact T0a
  have FB : s1.led.bal b who = s.led.bal b who + y := by
    rw [hfin b hal.2]; exact T1a
  refine ⟨hne, y, hy, ?_, ?_, FA, FB, ?_, ?_⟩
  · unfold getLiquidity
    rcases mkPair_cases a b hne with ⟨ep, _⟩ | ⟨ep, _⟩
    · rw [← hpdef] at ep
      rw [← hpdef]
      rw [ep] at hn T0p T1p hyle ⊢
      dsimp only at hn ⊢
      simp only [if_true]
      omega
    · rw [← hpdef] at ep
      rw [← hpdef]
      rw [ep] at hn T0p T1p hyle ⊢
      dsimp only at hn ⊢
      simp only [if_neg hne]
      omega
  · unfold getLiquidity
    dsimp only
    rw [← hpdef, eres]
    rcases mkPair_cases a b hne with ⟨ep, _⟩ | ⟨ep, _⟩
    · rw [← hpdef] at ep
      rw [ep] at hn T0p T1p ⊢
      dsimp only at hn ⊢
      simp only [if_true]
      rw [O1]
      apply Prod.ext <;> dsimp only <;> omega
    · rw [← hpdef] at ep
      rw [ep] at hn T0p T1p ⊢
      dsimp only at hn ⊢
      simp only [if_neg hne]
      rw [O1]
      apply Prod.ext <;> dsimp only <;> omega
  · rw [eres, hfin p.1 hl1.symm]
  · rw [eres, hfin p.2 hl2.symm]

/-- C06: swapping `x` of token `a` for token `b` and then swapping everything received back returns at
most `x`. -/
theorem C06_swap_back_no_profit {c : Cfg} {s s1 s2 : St} {who : Acct} {a b : AssetId}
    {x m y m' : Nat} {dl dl' : Option Nat}
    (hr : Reach c s) (hw : Keyed who) (hd : NoDonation s (mkPair a b))
    (h1 : step c s (.swapSupply who x m [a, b] who dl) = .ok s1)
    (hy : s1.led.bal b who = s.led.bal b who + y)
    (h2 : step c s1 (.swapSupply who y m' [b, a] who dl') = .ok s2) :
    s2.led.bal a who ≤ s.led.bal a who ∧ s2.led.bal b who = s.led.bal b who := by
  have hi := hr.inv
  have hi1 : Inv s1 := hi.step (fun w hw' => by cases hw'; exact hw) h1
  obtain ⟨hne, y1, q1, hyle, g1, fa1, fb1, n0, n1⟩ := swap2 hi hw ⟨hd.1, hd.2.1⟩ h1
  have ey : y = y1 := by omega
  subst ey
  have hcomm : mkPair b a = mkPair a b := mkPair_comm b a
  obtain ⟨_, z, q2, _, _, fa2, fb2, _⟩ := swap2 hi1 hw (by rw [hcomm]; exact ⟨n0, n1⟩) h2
  have hflip : getLiquidity s1 b a = ((getLiquidity s1 a b).2, (getLiquidity s1 a b).1) := by
    unfold getLiquidity
    rw [hcomm]
    rcases mkPair_cases a b hne with ⟨ep, _⟩ | ⟨ep, _⟩ <;> rw [ep] <;> simp [hne, hne.symm]
  rw [hflip, g1] at q2
  have hz := quote_roundtrip q1 q2
  omega

/-- Non-vacuity: selling 1000000 of token 1 buys 3984027 of token 2; selling those back returns less. -/
example : let s1 := after [.swapSupply 8 1000000 0 [1, 2] 8 none]
    let s2 := after [.swapSupply 8 1000000 0 [1, 2] 8 none, .swapSupply 8 3984027 0 [2, 1] 8 none]
    s1.led.bal 2 8 = demo.led.bal 2 8 + 3984027 ∧ s2.led.bal 2 8 = demo.led.bal 2 8 ∧
    s2.led.bal 1 8 < demo.led.bal 1 8 := by decide +kernel

/-! ## C07 -/

/-- C07: an exchange operation leaves the total of every token that is not a liquidity token unchanged. -/
theorem C07_tokens_conserved {c : Cfg} {s s' : St} {op : Op} (hop : op.isDex = true)
    (h : step c s op = .ok s') (t : AssetId) (ht : ∀ p, s'.lp p ≠ some t) (n : Nat)
    (hn : TotalIs (s.led.bal t) n) : TotalIs (s'.led.bal t) n := by
  cases op with
  | swapSupply who i m path dst dl =>
    obtain ⟨_, _, _, _, _, hp⟩ := swapExactSupply_ok h
    exact payAndSwap_total hp t (by rw [← (payAndSwap_frame hp).2.1]; exact ht) hn
  | swapTarget who i m path dst dl =>
    obtain ⟨_, _, _, _, _, hp⟩ := swapExactTarget_ok h
    exact payAndSwap_total hp t (by rw [← (payAndSwap_frame hp).2.1]; exact ht) hn
  | add who a b da db ma mb dst dl =>
    obtain ⟨ev, ha⟩ := map_fst_ok h
    exact addLiquidity_total ha t ht hn
  | remove who a b liq ma mb dst dl =>
    obtain ⟨ev, ha⟩ := map_fst_ok h
    exact removeLiquidity_total ha t (by rw [← removeLiquidity_lp ha]; exact ht) hn
  | setFeeTo f => cases h; exact hn
  | reenable a b =>
    simp only [step, reenable, bind_ok, ensure_ok, pure_ok] at h
    obtain ⟨_, _, _, _, rfl⟩ := h; exact hn
  | disable a b =>
    simp only [step, disable, bind_ok, ensure_ok, pure_ok] at h
    obtain ⟨_, _, _, _, rfl⟩ := h; exact hn
  | transfer => cases hop
  | createAsset => cases hop
  | mintAsset => cases hop
  | nextBlock => cases hop

/-- C07: in every reachable state the recorded supply of every token, liquidity tokens included, is the
sum of all balances. -/
theorem C07_supply_is_sum {c : Cfg} {s : St} (h : Reach c s) (t : AssetId) :
    TotalIs (s.led.bal t) (s.led.iss t) := (h.inv.sound t).1

/-- Non-vacuity: a reachable state with a funded pool. -/
example : Reach cfg0 demo ∧ demo.led.iss 1124 = 2000000000 ∧ demo.led.iss 1 = 1005000000000 ∧
    (∀ p, demo.lp p ≠ some 1) := by
  refine ⟨demo_reach, by decide +kernel, by decide +kernel, ?_⟩
  intro p hp
  have := demo_reach.inv.lpOwn p 1 hp
  have h1 : demo.owner 1 = some 9 := by decide +kernel
  rw [h1] at this
  exact (keyed_small (x := 9) (by decide)).2 p (Option.some.inj this)

/-! ## C08, C09 -/

/-- C08: in every reachable state the recorded reserves are backed by the pool's own balances. -/
theorem C08_reserves_backed {c : Cfg} {s : St} (h : Reach c s) (p : Pair) :
    (s.res p).1 ≤ s.led.bal p.1 (poolAddr p) ∧ (s.res p).2 ≤ s.led.bal p.2 (poolAddr p) :=
  h.inv.backed p

/-- C08: distinct pairs have distinct pool addresses, and no pool is the burn account. -/
theorem C08_pools_distinct {p q : Pair} (h : p ≠ q) :
    poolAddr p ≠ poolAddr q ∧ poolAddr p ≠ burnAcct :=
  ⟨fun e => h (poolAddr_inj e), (burn_ne_pool p).symm⟩

/-- C09: as long as a pair has a liquidity token, at least 1000 of it exist, held by the burn account. -/
theorem C09_min_liquidity_locked {c : Cfg} {s : St} (h : Reach c s) {p : Pair} {l : AssetId}
    (hl : s.lp p = some l) : 1000 ≤ s.led.bal l burnAcct ∧ 1000 ≤ s.led.iss l :=
  ⟨h.inv.locked p l hl, h.inv.supply hl⟩

/-- C09: a pair never loses or changes its liquidity token. -/
theorem C09_lp_token_permanent {c : Cfg} {s s' : St} {op : Op} (h : step c s op = .ok s')
    {p : Pair} {l : AssetId} (hl : s.lp p = some l) : s'.lp p = some l := by
  cases op with
  | swapSupply who i m path dst dl =>
    obtain ⟨_, _, _, _, _, hp⟩ := swapExactSupply_ok h
    rw [(payAndSwap_frame hp).2.1]; exact hl
  | swapTarget who i m path dst dl =>
    obtain ⟨_, _, _, _, _, hp⟩ := swapExactTarget_ok h
    rw [(payAndSwap_frame hp).2.1]; exact hl
  | add who a b da db ma mb dst dl =>
    obtain ⟨ev, ha⟩ := map_fst_ok h
    exact (addLiquidity_lp ha).2 p l hl
  | remove who a b liq ma mb dst dl =>
    obtain ⟨ev, ha⟩ := map_fst_ok h
    rw [removeLiquidity_lp ha]; exact hl
  | setFeeTo f => cases h; exact hl
  | reenable a b =>
    simp only [step, reenable, bind_ok, ensure_ok, pure_ok] at h
    obtain ⟨_, _, _, _, rfl⟩ := h; exact hl
  | disable a b =>
    simp only [step, disable, bind_ok, ensure_ok, pure_ok] at h
    obtain ⟨_, _, _, _, rfl⟩ := h; exact hl
  | transfer who a dst amt =>
    simp only [step, directTransfer, bind_ok, pure_ok] at h
    obtain ⟨led, ht, rfl⟩ := h; exact hl
  | createAsset who =>
    simp only [step, createAsset, bind_ok, ensure_ok, pure_ok] at h
    obtain ⟨_, _, _, ho, rfl⟩ := h; exact hl
  | mintAsset who a dst amt =>
    simp only [step, mintAsset, bind_ok, ensure_ok, pure_ok] at h
    obtain ⟨_, ho, led, ht, rfl⟩ := h; exact hl
  | nextBlock => cases h; exact hl

/-- Non-vacuity: even after every provider has left, the minimum stays. -/
example : let s' := after [.remove 7 1 2 1999999000 0 0 7 none]
    (step cfg0 demo (.remove 7 1 2 1999999000 0 0 7 none)).isOk = true ∧
    s'.led.iss 1124 = 1000 ∧ s'.led.bal 1124 burnAcct = 1000 ∧ s'.res (1, 2) = (500, 2000) := by
  decide +kernel

/-! ## C10 -/

theorem amountsOutLoop_enabled {c : Cfg} {s : St} {a b : AssetId} :
    ∀ (l r : List AssetId) (i : Nat) (amts : List Nat),
    amountsOutLoop c s i (l ++ a :: b :: r) = .ok amts → s.enabled (mkPair a b) = true
  | [], r, i, amts, h => by
    simp only [List.nil_append, amountsOutLoop, bind_ok, ensure_ok] at h
    obtain ⟨_, hb, _⟩ := h
    exact hb
  | [x], r, i, amts, h => by
    simp only [List.cons_append, List.nil_append, amountsOutLoop, bind_ok, ensure_ok, pure_ok] at h
    obtain ⟨_, _, _, _, _, _, _, _, _, ⟨_, hb, _⟩, _⟩ := h
    exact hb
  | x :: y :: l, r, i, amts, h => by
    rw [List.cons_append, List.cons_append] at h
    unfold amountsOutLoop at h
    simp only [bind_ok, ensure_ok, pure_ok] at h
    obtain ⟨_, _, _, _, out, _, _, _, tl, ht, _⟩ := h
    exact amountsOutLoop_enabled (y :: l) r out tl (by simpa using ht)

theorem amountsInLoop_enabled {c : Cfg} {s : St} {a b : AssetId} :
    ∀ (l r : List AssetId) (i : Nat) (amts : List Nat),
    amountsInLoop c s i (l ++ a :: b :: r) = .ok amts → s.enabled (mkPair a b) = true
  | [], r, i, amts, h => by
    simp only [List.nil_append, amountsInLoop, bind_ok, ensure_ok] at h
    obtain ⟨_, _, _, hb, _⟩ := h
    exact hb
  | [x], r, i, amts, h => by
    simp only [List.cons_append, List.nil_append, amountsInLoop, bind_ok, ensure_ok, pure_ok] at h
    obtain ⟨_, ⟨_, _, _, hb, _⟩, _⟩ := h
    exact hb
  | x :: y :: l, r, i, amts, h => by
    rw [List.cons_append, List.cons_append] at h
    unfold amountsInLoop at h
    simp only [bind_ok, ensure_ok, pure_ok] at h
    obtain ⟨tl, ht, _⟩ := h
    exact amountsInLoop_enabled (y :: l) r i tl (by simpa using ht)

/-- C10: no swap along a path that uses a disabled pair succeeds. -/
theorem C10_disabled_no_swap {c : Cfg} {s : St} {a b : AssetId} (hoff : s.enabled (mkPair a b) = false)
    (l r : List AssetId) (who dst : Acct) (x m : Nat) (dl : Option Nat) (s' : St) :
    step c s (.swapSupply who x m (l ++ a :: b :: r) dst dl) ≠ .ok s' ∧
    step c s (.swapTarget who x m (l ++ a :: b :: r) dst dl) ≠ .ok s' := by
  constructor <;> intro h
  · obtain ⟨_, amts, _, ha, _⟩ := swapExactSupply_ok h
    rw [amountsOutLoop_enabled l r _ _ ha] at hoff; cases hoff
  · obtain ⟨_, amts, _, ha, _⟩ := swapExactTarget_ok h
    rw [amountsInLoop_enabled l r _ _ ha] at hoff; cases hoff

/-- C10: no deposit into an existing, disabled pair succeeds. -/
theorem C10_disabled_no_add {c : Cfg} {s : St} {a b : AssetId} (hoff : s.enabled (mkPair a b) = false)
    (hex : (s.lp (mkPair a b)).isSome = true)
    (who dst : Acct) (da db ma mb : Nat) (dl : Option Nat) (s' : St) :
    step c s (.add who a b da db ma mb dst dl) ≠ .ok s' := by
  intro h
  obtain ⟨ev, ha⟩ := map_fst_ok h
  obtain ⟨hne, _, sl, d0, d1, m0, m1, hsl, hd0, hd1, hen, _⟩ := addLiquidity_ok ha
  rcases getOrCreateLp_cases hsl with ⟨_, e⟩ | ⟨hn, _⟩
  · rw [e, hoff] at hen; cases hen
  · rw [hn] at hex; cases hex

/-- C10: removing liquidity neither reads nor writes the status: changing the status beforehand changes
nothing else about the outcome. -/
theorem C10_remove_ignores_status (s : St) (e : Pair → Bool) (who dst : Acct) (a b : AssetId)
    (liq ma mb : Nat) (dl : Option Nat) :
    removeLiquidity { s with enabled := e } who a b liq ma mb dst dl =
      (removeLiquidity s who a b liq ma mb dst dl).map fun r => ({ r.1 with enabled := e }, r.2) := by
  have hpure : ∀ {α : Type} (x : α), (pure x : Except Err α) = .ok x := fun _ => rfl
  have key : ∀ (s : St) (p : Pair) (l : AssetId) (m0 m1 : Nat),
      removeOrdered { s with enabled := e } p l m0 m1 dst =
        (removeOrdered s p l m0 m1 dst).map fun r => ({ r.1 with enabled := e }, r.2) := by
    intro s p l m0 m1
    have hk : ∀ (s : St), updateLastK { s with enabled := e } p l =
        { updateLastK s p l with enabled := e } := by
      intro s; unfold updateLastK; dsimp only; split <;> rfl
    unfold removeOrdered
    dsimp only
    cases mul256 (s.led.bal l (poolAddr p)) (s.led.bal p.1 (poolAddr p)) with
    | error => rfl
    | ok m0' =>
    cases h1 : divC m0' (s.led.iss l) with
    | error => simp only [bind, Except.bind, h1]; rfl
    | ok q0 =>
    cases h2 : mul256 (s.led.bal l (poolAddr p)) (s.led.bal p.2 (poolAddr p)) with
    | error => simp only [bind, Except.bind, h1]; rfl
    | ok m1' =>
    cases h3 : divC m1' (s.led.iss l) with
    | error => simp only [bind, Except.bind, h1, h3]; rfl
    | ok q1 =>
    simp only [bind, Except.bind, h1, h3]
    cases ensure (0 < sat128 q0 ∧ 0 < sat128 q1) "InsufficientLiquidityBurnt" with
    | error => rfl
    | ok =>
    cases ensure (m0 ≤ sat128 q0) "InsufficientWithdrawnAmountA" with
    | error => rfl
    | ok =>
    cases ensure (m1 ≤ sat128 q1) "InsufficientWithdrawnAmountB" with
    | error => rfl
    | ok =>
    dsimp only
    cases s.led.burn l (poolAddr p) (s.led.bal l (poolAddr p)) with
    | error => rfl
    | ok led1 =>
    dsimp only
    cases h4 : led1.transfer p.1 (poolAddr p) dst (sat128 q0) with
    | error => rfl
    | ok led2 =>
    dsimp only
    cases h5 : led2.transfer p.2 (poolAddr p) dst (sat128 q1) with
    | error => rfl
    | ok led3 =>
    dsimp only
    rw [hpure, hpure]
    dsimp only [Except.map]
    rw [← hk]
  unfold removeLiquidity
  dsimp only
  cases ensure (deadlineOk dl s.now) "ExpiredDeadline" with
  | error => rfl
  | ok =>
  cases okOr (s.lp (mkPair a b)) "InvalidAssetId" with
  | error => rfl
  | ok l =>
  cases ensure (a ≠ b) "IdenticalTokenAddress" with
  | error => rfl
  | ok =>
  simp only [bind, Except.bind]
  cases s.led.transfer l who (poolAddr (mkPair a b)) liq with
  | error => rfl
  | ok led =>
  dsimp only
  split
  · exact key { s with led := led } _ _ _ _
  · exact key { s with led := led } _ _ _ _

/-- Non-vacuity: pair 1/2 can be disabled; then the two-hop swap fails but removal works. -/
example : let s' := after [.disable 2 1]
    s'.enabled (mkPair 1 2) = false ∧ (s'.lp (mkPair 1 2)).isSome = true ∧
    (step cfg0 s' (.swapSupply 8 1000000 1 [1, 2, 3] 8 none)).isOk = false ∧
    (step cfg0 s' (.remove 7 1 2 777777 0 0 7 none)).isOk = true := by decide +kernel

/-! ## C11 -/

/-- The protocol fee is at most one sixth of the growth of √k from `k0` to `k1`: the `m` new liquidity
tokens are a share of at most `(√k1 − √k0) / (6 √k1)` of the new supply `ts + m`. -/
def FeeBound (k0 k1 ts m : Nat) : Prop :=
  6 * Nat.sqrt k1 * m ≤ (Nat.sqrt k1 - Nat.sqrt k0) * (ts + m)

/-- Histories in which the fee account is never changed. -/
inductive ReachFixedFee (c : Cfg) : St → Prop where
  | init {s : St} : Genesis s → ReachFixedFee c s
  | step {s s' : St} {op : Op} : ReachFixedFee c s → (∀ w, op.signer = some w → Keyed w) →
      (∀ f, op ≠ .setFeeTo f) → step c s op = .ok s' → ReachFixedFee c s'

theorem ReachFixedFee.inv {c : Cfg} {s : St} (h : ReachFixedFee c s) : Inv s ∧ FeeInv s := by
  induction h with
  | init hg =>
    refine ⟨inv_genesis hg, fun _ p l hl => ?_⟩
    rw [hg.noLp] at hl; cases hl
  | step _ hw hno hs ih => exact ⟨ih.1.step hw hs, FeeInv.step ih.1 ih.2 hw hno hs⟩

/-- A hop mints at most the bounded fee, and nothing while the fee is off. -/
theorem hop_fee {c : Cfg} {s s' : St} {a b : AssetId} {out : Nat} {dst : Acct}
    (hi : Inv s) (hfi : FeeInv s) (hh : swapHop c s a b out dst = .ok s')
    {l : AssetId} (hl : s.lp (mkPair a b) = some l) :
    ∃ m, s'.led.iss l = s.led.iss l + m ∧ (s.feeTo = none → m = 0) ∧
      FeeBound (K s (mkPair a b)) (K s' (mkPair a b)) (s.led.iss l) m := by
  obtain ⟨_, _, led, ht, _, hf⟩ := swapHop_ok hh
  have hs := transfer_sound ht hi.sound
  obtain ⟨k, e, hk⟩ := collectFee_ok hf
  cases hfe : s.feeTo with
  | none =>
    refine ⟨0, ?_, fun _ => rfl, by simp [FeeBound]⟩
    rcases hk with hk | ⟨f, _, _, hf', _⟩
    · rw [hk]; dsimp only; rw [(transfer_ok ht).2.1]; rfl
    · dsimp only at hf'; rw [hfe] at hf'; cases hf'
  | some f =>
    obtain ⟨m, em, _, hm⟩ := collectFee_bound (l := l) (f := f) hf hfe hl (by
      dsimp only; rw [upd_same]; exact U128_sq (hs.bal_lt _ _) (hs.bal_lt _ _))
    dsimp only at em hm
    rw [(transfer_ok ht).2.1, upd_same, hfi (by rw [hfe]; rfl) _ l hl] at hm
    rw [(transfer_ok ht).2.1] at em
    refine ⟨m, em, fun h => (by cases h), ?_⟩
    have ek : K s' (mkPair a b) = led.bal (mkPair a b).1 (poolAddr (mkPair a b)) *
        led.bal (mkPair a b).2 (poolAddr (mkPair a b)) := by
      unfold K; rw [e]; dsimp only; rw [upd_same]
    unfold FeeBound
    rw [ek]
    exact hm

/-- C11 (partial): in every history in which the fee account is never changed, a swap between two
tokens mints at most one sixth of the growth of √k that this swap caused, and nothing if the fee is off.
Missing: toggling the fee account, for which the property is false (`C11_toggle_refuted`). -/
theorem C11_fee_bound_partial {c : Cfg} {s s' : St} (hr : ReachFixedFee c s) {who dst : Acct}
    {x m : Nat} {a b : AssetId} {dl : Option Nat} (hw : Keyed who) {op : Op}
    (hop : op = .swapSupply who x m [a, b] dst dl ∨ op = .swapTarget who x m [a, b] dst dl)
    (h : step c s op = .ok s') :
    ∃ l fee, s.lp (mkPair a b) = some l ∧ s'.led.iss l = s.led.iss l + fee ∧
      (s.feeTo = none → fee = 0) ∧
      FeeBound (K s (mkPair a b)) (K s' (mkPair a b)) (s.led.iss l) fee := by
  obtain ⟨hi, hfi⟩ := hr.inv
  have aux : ∀ amts : List Nat, amts.length = 2 → payAndSwap c s who dst amts [a, b] = .ok s' →
      ∃ l fee, s.lp (mkPair a b) = some l ∧ s'.led.iss l = s.led.iss l + fee ∧
      (s.feeTo = none → fee = 0) ∧
      FeeBound (K s (mkPair a b)) (K s' (mkPair a b)) (s.led.iss l) fee := by
    intro amts hlen hp
    obtain ⟨a', b', rest, led, hpath, ht, hs⟩ := payAndSwap_ok hp
    cases hpath
    match amts, hlen with
    | [u, v], _ =>
      simp only [swapLoop, bind_ok, Except.ok.injEq] at hs
      obtain ⟨s1, hh, rfl⟩ := hs
      have hi0 : Inv { s with led := led } := hi.transfer ht hw
      obtain ⟨l, hl⟩ := hop_lp hi0 hh
      obtain ⟨fee, h1, h2, h3⟩ := hop_fee hi0 hfi hh hl
      dsimp only at h1 h2 h3
      rw [(transfer_ok ht).2.1] at h1 h3
      exact ⟨l, fee, hl, h1, h2, h3⟩
  rcases hop with rfl | rfl
  · obtain ⟨_, amts, _, ha, _, hp⟩ := swapExactSupply_ok h
    exact aux amts (amountsOutLoop_shape _ _ _ (by simp) ha).1 hp
  · obtain ⟨_, amts, _, ha, _, hp⟩ := swapExactTarget_ok h
    exact aux amts (amountsInLoop_shape _ _ _ (by simp) ha).1 hp

/-- Non-vacuity: a history with the fee on from the start, and a swap that mints a fee. -/
def feeOps : List Op := demoOps
def gFee : St := { g0 with feeTo := some 5 }
def demoFee : St := (run cfg0 gFee feeOps).toOption.getD g0

example : Genesis gFee ∧ (run cfg0 gFee feeOps).isOk = true ∧ demoFee.feeTo = some 5 ∧
    demoFee.led.iss 1124 = 2000000000 ∧
    ((run cfg0 demoFee [.swapSupply 8 100000000 0 [1, 2] 8 none]).toOption.map
      fun s => s.led.bal 1124 5) = some 45458 := by
  refine ⟨⟨Ledger.sound_empty, fun _ _ => rfl, fun _ => rfl, fun _ => rfl, fun _ => rfl, fun _ => rfl⟩, ?_⟩
  decide +kernel

/-- Fee on, fund the pool, fee off, trade a lot. -/
def toggleOps : List Op :=
  [.setFeeTo (some 5), .add 7 1 2 1000000000 4000000000 0 0 7 none, .setFeeTo none,
   .swapSupply 7 500000000 0 [1, 2] 7 none, .swapSupply 7 1000000000 0 [2, 1] 7 none]

/-- `demo` with the pool 1/2 funded while the fee was on, then traded while it was off. -/
def gToggle : List Op :=
  [.mintAsset 9 1 7 1000000000000, .mintAsset 9 2 7 1000000000000] ++ toggleOps

def sOff : St := (run cfg0 g0 gToggle).toOption.getD g0
def sOn : St := (step cfg0 sOff (.setFeeTo (some 5))).toOption.getD g0
def sTaxed : St := (step cfg0 sOn (.swapSupply 7 1000 0 [1, 2] 7 none)).toOption.getD g0

/-- C11 is false when the fee is switched off and on again: the growth of the pool while the fee was off
is taxed by the first swap after it is switched back on. -/
theorem C11_toggle_refuted :
    ∃ (s s1 s2 : St) (l : AssetId) (fee : Nat), Reach cfg0 s ∧ s.feeTo = none ∧
      step cfg0 s (.setFeeTo (some 5)) = .ok s1 ∧
      step cfg0 s1 (.swapSupply 7 1000 0 [1, 2] 7 none) = .ok s2 ∧
      s1.lp (1, 2) = some l ∧ s2.led.iss l = s1.led.iss l + fee ∧
      ¬ FeeBound (K s1 (1, 2)) (K s2 (1, 2)) (s1.led.iss l) fee := by
  have h0 : run cfg0 g0 gToggle = .ok sOff :=
    ok_getD (by decide +kernel)
  refine ⟨sOff, sOn, sTaxed, 1124, 302978, run_reach gToggle (.init genesis_g0) (by decide) h0,
    by decide +kernel, ok_getD (by decide +kernel),
    ok_getD (by decide +kernel), by decide +kernel,
    by decide +kernel, by unfold FeeBound; decide +kernel⟩

end Verif.Dex
