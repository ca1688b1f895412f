import Verif.EvmMoney.Props
import Verif.Dex.LiveProps

/-!
# C201 Admission of transactions that pay for gas in another asset

Models `transaction_asset_check` (runtime/src/lib.rs:2125-2170): the check the transaction pool makes, on
top of the ones every Ethereum transaction gets, for a transaction to the fee-preference address.
-/

namespace Verif.EvmMoney
open Verif.Dex (Keyed)

/-- An Ethereum transaction as the pool sees it: signer, whether it is addressed to the fee-preference
address, whether it is an EIP-1559 transaction, what `decode_input` (fee-proxy runner.rs:141-187) makes of
its input, and its gas limit and fee caps, which are 256-bit numbers. -/
structure PoolTx where
  src : Acct
  toProxy : Bool
  eip1559 : Bool
  decoded : Option Pref
  gas : Nat
  maxFee : Nat
  prio : Nat

/-- runtime/src/lib.rs:2145 `gas_limit.as_u64()` (dependency `primitive-types`): panics when the value does
not fit. -/
def asU64 (x : Nat) : Except Err Nat := if x < U64 then .ok x else .error "Panic"

/-- runtime/src/lib.rs:2125-2170 `transaction_asset_check`. The balance is `reducible_balance` with
`Expendable`: the whole balance, as locks are not modelled. -/
def assetCheck (c : Cfg) (s : St) (base : Nat) (t : PoolTx) : Except Err Unit :=
  if t.toProxy then do
    ensure (t.eip1559 = true) "Call"
    let p ← okOr t.decoded "Call"
    let gas ← asU64 t.gas
    let (_, m) ← feeData gas base (some t.maxFee) (some t.prio)
    let amts ← Dex.getAmountsIn c.dex s.dex m [p.asset, c.xrp]
    ensure (amts.headD 0 ≤ s.dex.led.bal p.asset t.src) "Payment"
  else .ok ()

theorem assetCheck_ok {c : Cfg} {s : St} {base : Nat} {t : PoolTx} (hp : t.toProxy = true)
    (h : assetCheck c s base t = .ok ()) : ∃ p tot m amts, t.eip1559 = true ∧ t.decoded = some p ∧ t.gas < U64 ∧
      feeData t.gas base (some t.maxFee) (some t.prio) = .ok (tot, m) ∧
      Dex.getAmountsIn c.dex s.dex m [p.asset, c.xrp] = .ok amts ∧
      amts.headD 0 ≤ s.dex.led.bal p.asset t.src := by
  unfold assetCheck at h
  rw [if_pos hp] at h
  simp only [bind_ok, ensure_ok, okOr_ok, Prod.exists] at h
  obtain ⟨_, h1, p, h2, g, h3, tot, m, h4, amts, h5, h6⟩ := h
  unfold asU64 at h3
  split at h3
  · rename_i hg
    cases h3
    exact ⟨p, tot, m, amts, h1, h2, hg, h4, h5, h6⟩
  · cases h3

/-- The total fee is at most the maximal fee, also in drops. -/
theorem feeData_le {gas base t m : Nat} {mf pr : Option Nat} (h : feeData gas base mf pr = .ok (t, m)) : t ≤ m := by
  unfold feeData totalGas at h
  simp only [bind_ok, ensure_ok, pure_ok, Prod.exists] at h
  obtain ⟨tw, mw, ⟨pg, g1, tt, g2, db, g3, df, g4, mm, g5, _, g6, e⟩, t6, g7, m6, g8, e2⟩ := h
  cases e; cases e2
  obtain ⟨_, _, w1, w2⟩ := weiTo_ok.mp g7
  obtain ⟨_, _, w3, w4⟩ := weiTo_ok.mp g8
  have hpow : (10 : Nat) ^ (18 - 6) = 1000000000000 := by norm_num
  rw [hpow] at w1 w2 w3 w4
  omega

/-- A transaction that the pool admits can pay: executed in the same state, its payment asset is exchanged
and the fee for its whole gas limit is withdrawn, if the EVM charges at most base fee plus tip per gas and
the issuance of the two assets leaves room. -/
theorem C201_admitted_partial {c : Cfg} {G : St → Prop} {s : St} (hp : PotOk c) (hr : Reach c G s)
    (hd : 1 < c.dex.feeD) {t : PoolTx} {base rate : Nat} (hk : Keyed t.src) (hfee : s.dex.feeTo ≠ some t.src)
    (hproxy : t.toProxy = true) (h : assetCheck c s base t = .ok ()) (hrate : rate ≤ base + t.prio)
    (hroom : ∀ p, t.decoded = some p → Dex.Room c.dex s.dex [p.asset, c.xrp]) :
    ∃ p s1 r, t.decoded = some p ∧ prefSwap c s t.src p t.gas base (some t.maxFee) (some t.prio) = .ok s1 ∧
      withdrawFee c s1.dex.led t.src (t.gas * rate) = .ok r := by
  obtain ⟨p, tot, m, amts, _, h2, _, h4, h5, h6⟩ := assetCheck_ok hproxy h
  have hi : Dex.Inv s.dex := (books_zero.mp (hr.books hp)).1
  have hroom := hroom p h2
  have hq := h5
  unfold Dex.getAmountsIn at hq
  simp only [bind_ok, ensure_ok] at hq
  obtain ⟨_, hl, ha⟩ := hq
  simp only [Dex.amountsInLoop, bind_ok, ensure_ok, pure_ok] at ha
  obtain ⟨tl, ht, _, hen, _, hres, x, hx, _, hx0, rfl⟩ := ha
  cases ht
  simp only [List.headD_cons] at hx h6
  have hne := Dex.enabled_ne hi hen
  have hback := hi.backed (Dex.mkPair p.asset c.xrp)
  have hiss := (hi.sound p.asset).1.le t.src
  obtain ⟨hri, hro⟩ : (Dex.getLiquidity s.dex p.asset c.xrp).1 ≤ s.dex.led.iss p.asset ∧
      (Dex.getLiquidity s.dex p.asset c.xrp).2 ≤ s.dex.led.iss c.xrp := by
    have sa := (hi.sound p.asset).1.le (Dex.poolAddr (Dex.mkPair p.asset c.xrp))
    have sb := (hi.sound c.xrp).1.le (Dex.poolAddr (Dex.mkPair p.asset c.xrp))
    rw [Dex.liquidity_eq]
    rcases Dex.mkPair_cases p.asset c.xrp hne with ⟨e, _⟩ | ⟨e, _⟩
    · rw [e] at hback sa sb ⊢
      simp only [if_true]
      exact ⟨le_trans hback.1 sa, le_trans hback.2 sb⟩
    · rw [e] at hback sa sb ⊢
      simp only [hne, if_false]
      exact ⟨le_trans hback.2 sa, le_trans hback.1 sb⟩
  have ra := hroom.assets p.asset (by simp)
  have rx := hroom.assets c.xrp (by simp)
  obtain ⟨g1, g2, g3, g4, g5, g6, g7⟩ := Dex.getAmountIn_ok hx
  -- the quote for selling the quoted input exists
  obtain ⟨y, hy⟩ : ∃ y, Dex.getAmountOut c.dex x (Dex.getLiquidity s.dex p.asset c.xrp).1
      (Dex.getLiquidity s.dex p.asset c.xrp).2 = .ok y := by
    generalize (Dex.getLiquidity s.dex p.asset c.xrp).1 = ri at *
    generalize (Dex.getLiquidity s.dex p.asset c.xrp).2 = ro at *
    have b1 : x * (c.dex.feeD - c.dex.feeN) < U128 := by
      refine lt_of_le_of_lt ?_ ra
      exact Nat.mul_le_mul (by omega) (by omega)
    have b2 : ri * c.dex.feeD < U128 := by
      refine lt_of_le_of_lt ?_ ra
      exact Nat.mul_le_mul_right _ (by omega)
    have b3 : ro < U128 := by have := (hi.sound c.xrp).2; omega
    unfold Dex.getAmountOut
    simp only [bind_ok, ensure_ok, Dex.mul256_ok, Dex.subC_ok, Dex.divC_ok, Dex.add256_ok, pure_ok]
    refine ⟨_, (), by omega, (), ⟨g2, g3⟩, _, ⟨g4, rfl⟩, _, ⟨Dex.small256 (by omega), rfl⟩, _, ⟨Dex.lt256 b1 b3, rfl⟩,
      _, ⟨Dex.small256 (by omega), rfl⟩, _, ⟨Dex.small256 (by omega), rfl⟩, _, ⟨?_, rfl⟩, rfl⟩
    have : 0 < ri * c.dex.feeD := Nat.mul_pos g2 (by omega)
    omega
  have hxu : x < U128 - 1 := by
    have h2 : (s.dex.led.iss p.asset + s.dex.led.iss p.asset / 5) * 2 ≤
      (s.dex.led.iss p.asset + s.dex.led.iss p.asset / 5) * c.dex.feeD := Nat.mul_le_mul_left _ hd
    have : 1 ≤ x := by omega
    omega
  have hmu : m < U128 := by have := (hi.sound c.xrp).2; omega
  have hmy : m ≤ y := Dex.C04_quote_in_suffices hmu hxu hx hy
  have hout : Dex.getAmountsOut c.dex s.dex x [p.asset, c.xrp] = .ok [x, y] := by
    unfold Dex.getAmountsOut
    simp only [bind_ok, ensure_ok, Dex.amountsOutLoop, pure_ok]
    exact ⟨(), hl, (), hen, (), hres, y, hy, (), by omega, [y], rfl, rfl⟩
  have htm := feeData_le h4
  have hfin : (if m - tot = 1 then m else tot) ≤ [x, y].getLastD 0 := by
    show _ ≤ y
    split <;> omega
  obtain ⟨f1, f2⟩ := Dex.amountsOutLoop_feasible (c := c.dex) hi (by omega) [p.asset, c.xrp] x [x, y] (by omega) (by
    unfold Dex.getAmountsOut at hout
    simp only [bind_ok, ensure_ok] at hout
    exact hout.choose_spec.2)
  obtain ⟨d, hd'⟩ := Dex.payAndSwap_live hi (dst := t.src) hk (amts := [x, y]) (path := [p.asset, c.xrp]) rfl
    (by simp) f1 f2 hroom (by simp [Dex.hops]) (by
      intro a e
      cases e
      exact h6)
  have hswap : prefSwap c s t.src p t.gas base (some t.maxFee) (some t.prio) = .ok { s with dex := d } := by
    unfold prefSwap
    simp only [bind_ok, pure_ok, Prod.exists]
    refine ⟨tot, m, h4, _, h5, d, ?_, rfl⟩
    unfold Dex.swapExactSupply
    simp only [bind_ok, ensure_ok]
    exact ⟨(), trivial, [x, y], hout, (), hfin, hd'⟩
  obtain ⟨r, hr'⟩ := C113_enough (t := ⟨t.src, some p, t.gas, base, some t.maxFee, some t.prio, rate, 0, [], false, 0⟩)
    hk hfee hne hrate hswap
  exact ⟨p, _, r, h2, hswap, hr'⟩

/-- No transaction that could pay is turned away: an EIP-1559 transaction whose exchange would succeed is
admitted. -/
theorem C201_no_refusal {c : Cfg} {s s1 : St} {t : PoolTx} {p : Pref} {base : Nat} (he : t.eip1559 = true)
    (hdec : t.decoded = some p) (hg : t.gas < U64)
    (h : prefSwap c s t.src p t.gas base (some t.maxFee) (some t.prio) = .ok s1) :
    assetCheck c s base t = .ok () := by
  obtain ⟨tot, m, amts, d, h1, h2, h3, _⟩ := prefSwap_ok h
  obtain ⟨_, amts', _, h4, _, h5⟩ := Dex.swapExactSupply_ok h3
  have hsh := Dex.amountsOutLoop_shape [p.asset, c.xrp] _ amts' (by simp) h4
  obtain ⟨a, b, rest, led, e, h6, _⟩ := Dex.payAndSwap_ok h5
  obtain ⟨rfl, _⟩ := List.cons.inj e
  have hbal := (Ledger.transfer_ok h6).1
  rw [hsh.2] at hbal
  unfold assetCheck
  cases hp : t.toProxy with
  | false => rfl
  | true =>
    rw [if_pos rfl]
    simp only [bind_ok, ensure_ok, okOr_ok, Prod.exists]
    exact ⟨(), he, p, hdec, t.gas, if_pos hg, tot, m, h1, amts, h2, hbal⟩

/-- The transaction `tx2` as the pool sees it. -/
def pool2 : PoolTx where
  src := 8
  toProxy := true
  eip1559 := true
  decoded := some ⟨1, some 5⟩
  gas := 50000
  maxFee := 20000000000000
  prio := 7500000000000

/-- Non-vacuity: `pool2` is admitted in `d0`, as is the same transaction of the account without XRP. -/
example : (assetCheck cfg d0 7500000000000 pool2).isOk = true ∧ (assetCheck cfg poor 7500000000000 pool2).isOk = true ∧
    d0.dex.feeTo ≠ some 8 ∧ tx2.rate ≤ 7500000000000 + pool2.prio := by decide +kernel

example : Dex.Room cfg.dex d0.dex [1, cfg.xrp] where
  assets := by
    have h1 : d0.dex.led.iss 1 = 1005000000000 ∧ d0.dex.led.iss 2 = 1005000000000 := by decide +kernel
    intro t ht
    simp only [List.mem_cons, List.not_mem_nil, or_false] at ht
    rcases ht with rfl | rfl
    · rw [h1.1]; unfold U128 cfg Dex.cfg0; norm_num
    · rw [show d0.dex.led.iss cfg.xrp = 1005000000000 from h1.2]; unfold U128 cfg Dex.cfg0; norm_num
  fees := by
    have h : ∀ p ∈ Dex.hops [1, cfg.xrp],
        ((d0.dex.lp p).map fun l => decide (d0.dex.led.iss l + d0.dex.led.iss l / 5 < U128)).getD true = true := by
      decide +kernel
    intro p hp l hl
    have := h p hp
    rw [hl] at this
    simpa using this

/-- The check itself crashes on transactions anyone can sign and send: a gas limit of 2^64, or a maximal fee
per gas of 10^50. -/
theorem C201_crash_refuted : Reach cfg (Small cfg) d0 ∧
    errIs (assetCheck cfg d0 7500000000000 { pool2 with gas := U64 }) "Panic" = true ∧
    errIs (assetCheck cfg d0 7500000000000 { pool2 with maxFee := 10 ^ 50 }) "Panic" = true :=
  ⟨reach0, by decide +kernel, by decide +kernel⟩

/-- The state after account 8 has sent away its asset 1. -/
def spent : St := exec d0 [.exchange (.transfer 8 1 7 4999999000)]

/-- Not in later states: the check is not made again when the transaction is included in a block. An
admitted transaction whose sender has spent the payment asset since takes its place in the block, has no
effect and pays nothing. -/
theorem C201_later_refuted : Reach cfg (Small cfg) d0 ∧ (assetCheck cfg d0 tx2.base pool2).isOk = true ∧
    pool2.src = tx2.who ∧ pool2.decoded = tx2.pref ∧
    errIs (evmTx cfg spent tx2) "BalanceLow" = true ∧ 0 < spent.xrp cfg tx2.who :=
  ⟨reach0, by decide +kernel, rfl, rfl, by decide +kernel, by decide +kernel⟩

end Verif.EvmMoney
