import Verif.DexEvm.Lemmas
import Verif.Dex.Demo

/-!
# Theorems about the exchange contract (C152-C158)

Token addresses are the numbers the caller passes; `assetAt` is the asset at an address. Amounts of XRP are in drops, the
value of a call is in wei (10^12 wei are a drop).
-/

namespace Verif.DexEvm
open Verif.Dex (Keyed poolAddr mkPair TradeEffect cfg0 g0 demo)

/-- The address of a token contract, for the examples. -/
def tok (n : Nat) : Nat := Precompile.encode Precompile.prefix20 n

/-- A call with no value. -/
def plain (who : Acct) (i : Input) : Call where
  who := who
  value := 0
  isStatic := false
  input := i

/-- A call with a value. -/
def paid (who : Acct) (v : Nat) (i : Input) : Call where
  who := who
  value := v
  isStatic := false
  input := i

theorem Reach.ofNative {c : Dex.Cfg} : ∀ (ops : List Dex.Op) {s s' : Dex.St}, Reach c s →
    (∀ op ∈ ops, ∀ w, op.signer = some w → w < 1000) → Dex.run c s ops = .ok s' → Reach c s'
  | [], s, s', h, _, e => by cases e; exact h
  | op :: ops, s, s', h, hk, e => by
    simp only [Dex.run, bind_ok] at e
    obtain ⟨s1, e1, e2⟩ := e
    refine Reach.ofNative ops (h.step (op := .native op) (fun w hw => ?_) e1) (fun o ho => hk o (by simp [ho])) e2
    have := hk op (by simp) w hw
    refine ⟨Dex.keyed_small this, fun e => ?_⟩
    rw [e] at this
    exact absurd this (by decide)

theorem demo_reach : Reach cfg0 demo :=
  Reach.ofNative Dex.demoOps (.init Dex.genesis_g0) (by decide) Dex.demo_run

/-! ## C152: trades -/

/-- The functions that sell an exact amount of tokens, with their arguments: amount, least result, path, recipient,
deadline. -/
inductive Sells : Input → Nat → Nat → List Nat → Acct → Nat → Prop where
  | tokens {i m p d t} : Sells (.swapExactTokensForTokens i m p d t) i m p d t
  | forXrp {i m p d t} : Sells (.swapExactTokensForETH i m p d t) i m p d t

/-- The functions that buy an exact amount with tokens: amount, highest price, path, recipient, deadline. -/
inductive Buys : Input → Nat → Nat → List Nat → Acct → Nat → Prop where
  | tokens {o m p d t} : Buys (.swapTokensForExactTokens o m p d t) o m p d t
  | forXrp {o m p d t} : Buys (.swapTokensForExactETH o m p d t) o m p d t

/-- C152: a successful call that sells an exact amount carries no value, happens not after its deadline, takes exactly the
amount of the first token of the path from the caller and gives the recipient at least the stated minimum of the last
token; nobody else loses or gains (`TradeEffect`). The call answers with the amount paid first and the amount received
last. -/
theorem C152_sell {c : Dex.Cfg} {s s' : Dex.St} {k : Call} {out : List Nat} {amount least : Nat} {path : List Nat}
    {dst : Acct} {deadline : Nat} (hi : Sells k.input amount least path dst deadline)
    (h : call c s k = .ok (s', out)) :
    k.value = 0 ∧ s.now ≤ deadline ∧ ∃ first last got,
      path.head?.bind assetAt = some first ∧ path.getLast?.bind assetAt = some last ∧ least ≤ got ∧
      TradeEffect s s' k.who dst first last amount got ∧ out.head? = some amount ∧ out.getLast? = some got := by
  obtain ⟨who, value, st, input⟩ := k
  have key : value = 0 ∧ sell c s who amount least path dst deadline = .ok (s', out) := by
    cases hi with
    | tokens => exact call_free h (by intro e; cases e)
    | forXrp => exact call_free h (by intro e; cases e)
  obtain ⟨hv, hd⟩ := key
  obtain ⟨_, _, _, p, hp, hs, ho⟩ := sell_ok hd
  obtain ⟨hdl, amts, h2, ha, hm, hpay⟩ := Dex.swapExactSupply_ok hs
  have hsh := Dex.amountsOutLoop_shape p amount amts (by rintro rfl; simp at h2) ha
  obtain ⟨first, last, e1, e2, he⟩ := Dex.trade_effect hsh.1 hpay
  have eo : out = amts := by
    simp only [Dex.getAmountsOut, bind_ok, ensure_ok] at ho
    obtain ⟨_, _, ho⟩ := ho
    rw [ha] at ho; cases ho; rfl
  have hlen : amts ≠ [] := by rintro rfl; have := hsh.1; simp at this; omega
  refine ⟨hv, hdl, first, last, amts.getLastD 0, assetsAt_head hp e1, assetsAt_last hp e2, hm, ?_, ?_, ?_⟩
  · rw [hsh.2] at he; exact he
  · rw [eo, ← hsh.2]
    cases amts with
    | nil => exact absurd rfl hlen
    | cons x xs => rfl
  · rw [eo]
    cases amts with
    | nil => exact absurd rfl hlen
    | cons x xs => rw [List.getLastD_eq_getLast?]; simp [List.getLast?_cons]

/-- C152: a successful call that buys an exact amount carries no value, happens not after its deadline, gives the recipient
exactly the amount of the last token of the path and takes at most the stated maximum of the first token from the
caller; nobody else loses or gains. -/
theorem C152_buy {c : Dex.Cfg} {s s' : Dex.St} {k : Call} {out : List Nat} {amount most : Nat} {path : List Nat}
    {dst : Acct} {deadline : Nat} (hi : Buys k.input amount most path dst deadline)
    (h : call c s k = .ok (s', out)) :
    k.value = 0 ∧ s.now ≤ deadline ∧ ∃ first last price,
      path.head?.bind assetAt = some first ∧ path.getLast?.bind assetAt = some last ∧ price ≤ most ∧
      TradeEffect s s' k.who dst first last price amount ∧ out.head? = some price ∧ out.getLast? = some amount := by
  obtain ⟨who, value, st, input⟩ := k
  have key : value = 0 ∧ buy c s who amount most path dst deadline = .ok (s', out) := by
    cases hi with
    | tokens => exact call_free h (by intro e; cases e)
    | forXrp => exact call_free h (by intro e; cases e)
  obtain ⟨hv, hd⟩ := key
  obtain ⟨_, _, _, p, hp, hs, ho⟩ := buy_ok hd
  obtain ⟨hdl, amts, h2, ha, hm, hpay⟩ := Dex.swapExactTarget_ok hs
  have hsh := Dex.amountsInLoop_shape p amount amts (by rintro rfl; simp at h2) ha
  obtain ⟨first, last, e1, e2, he⟩ := Dex.trade_effect hsh.1 hpay
  have eo : out = amts := by
    simp only [Dex.getAmountsIn, bind_ok, ensure_ok] at ho
    obtain ⟨_, _, ho⟩ := ho
    rw [ha] at ho; cases ho; rfl
  have hlen : amts ≠ [] := by rintro rfl; have := hsh.1; simp at this; omega
  refine ⟨hv, hdl, first, last, amts.headD 0, assetsAt_head hp e1, assetsAt_last hp e2, hm, ?_, ?_, ?_⟩
  · rw [hsh.2] at he; exact he
  · rw [eo]
    cases amts with
    | nil => exact absurd rfl hlen
    | cons x xs => rfl
  · rw [eo, ← hsh.2]
    cases amts with
    | nil => exact absurd rfl hlen
    | cons x xs => rw [List.getLastD_eq_getLast?]; simp [List.getLast?_cons]

/-- Non-vacuity: account 8 sells token 1 for XRP and for token 3, and buys; limits one off are refused. -/
example :
    (call cfg0 demo (plain 8 (.swapExactTokensForTokens 1000000 5946302 [tok 1, tok 2, tok 3] 8 12))).isOk = true ∧
    (call cfg0 demo (plain 8 (.swapExactTokensForTokens 1000000 5946303 [tok 1, tok 2, tok 3] 8 12))).isOk = false ∧
    (call cfg0 demo (plain 8 (.swapTokensForExactETH 1000 251 [tok 1, tok 2] 8 10))).isOk = true ∧
    (call cfg0 demo (plain 8 (.swapTokensForExactETH 1000 250 [tok 1, tok 2] 8 10))).isOk = false := by decide +kernel

/-! ## C153: liquidity -/

/-- C153: a successful `addLiquidity` carries no value, happens not after its deadline, takes from the caller at most the
desired amounts and (if a minimum does not exceed the desired amount) at least the minimums, and gives the recipient
a positive number of liquidity tokens, at least the number answered. -/
theorem C153_add {c : Dex.Cfg} {s s' : Dex.St} {k : Call} {out : List Nat} {ta tb da db ma mb deadline : Nat} {dst : Acct}
    (hr : Reach c s) (hw : Keyed k.who) (hi : k.input = .addLiquidity ta tb da db ma mb dst deadline)
    (h : call c s k = .ok (s', out)) :
    k.value = 0 ∧ s.now ≤ deadline ∧ ∃ a b l xa xb liq,
      assetAt ta = some a ∧ assetAt tb = some b ∧ s'.lp (mkPair a b) = some l ∧
      s'.led.bal a k.who + xa = s.led.bal a k.who ∧ s'.led.bal b k.who + xb = s.led.bal b k.who ∧
      xa ≤ da ∧ xb ≤ db ∧ (ma ≤ da → ma ≤ xa) ∧ (mb ≤ db → mb ≤ xb) ∧
      s.led.bal l dst + liq ≤ s'.led.bal l dst ∧ 0 < liq ∧ out.getLast? = some liq := by
  obtain ⟨who, value, st, input⟩ := k
  obtain rfl : input = _ := hi
  obtain ⟨hv, hd⟩ := call_free h (by intro e; cases e)
  simp only [dispatch, bind_ok, okOr_ok] at hd
  obtain ⟨a, ea, b, eb, hd⟩ := hd
  obtain ⟨hda, hdb, _, _, _, ev, hd, eo⟩ := add_ok hd
  obtain ⟨hdl, l, xa, xb, h1, h2, h3, h4, h5, h6, h7, h8, h9⟩ := Dex.C61_add_limits hr.native hw hda hdb hd
  refine ⟨hv, hdl _ rfl, a, b, l, xa, xb, ev.liq, ea, eb, h1, h2, h3, h4, h5, h6, h7, h8, h9, ?_⟩
  rw [eo]; unfold addOut; split <;> rfl

/-- The functions that withdraw liquidity: both tokens, liquidity, minimums, recipient, deadline. -/
inductive Removes : Input → Option AssetId → Option AssetId → Nat → Nat → Nat → Acct → Nat → Prop where
  | tokens {ta tb l ma mb d t} : Removes (.removeLiquidity ta tb l ma mb d t) (assetAt ta) (assetAt tb) l ma mb d t
  | forXrp {ta l ma mb d t} : Removes (.removeLiquidityETH ta l ma mb d t) (assetAt ta) (some xrp) l ma mb d t

/-- C153: a successful withdrawal carries no value, happens not after its deadline, takes exactly the stated liquidity
tokens from the caller and gives the recipient exactly the two amounts answered, at least the minimums. For
`removeLiquidityETH` the second token is XRP. -/
theorem C153_remove {c : Dex.Cfg} {s s' : Dex.St} {k : Call} {out : List Nat} {oa ob : Option AssetId}
    {liq ma mb deadline : Nat} {dst : Acct} (hr : Reach c s) (hw : Keyed k.who) (hdst : Keyed dst)
    (hi : Removes k.input oa ob liq ma mb dst deadline) (h : call c s k = .ok (s', out)) :
    k.value = 0 ∧ s.now ≤ deadline ∧ ∃ a b l xa xb, oa = some a ∧ ob = some b ∧ s.lp (mkPair a b) = some l ∧
      s'.led.bal l k.who + liq = s.led.bal l k.who ∧
      s'.led.bal a dst = s.led.bal a dst + xa ∧ s'.led.bal b dst = s.led.bal b dst + xb ∧ ma ≤ xa ∧ mb ≤ xb ∧
      out = [xa, xb] := by
  obtain ⟨who, value, st, input⟩ := k
  have key : value = 0 ∧ ∃ a b, oa = some a ∧ ob = some b ∧ remove s who a b liq ma mb dst deadline = .ok (s', out) := by
    cases hi with
    | tokens =>
      obtain ⟨hv, hd⟩ := call_free h (by intro e; cases e)
      simp only [dispatch, bind_ok, okOr_ok] at hd
      obtain ⟨a, ea, b, eb, hd⟩ := hd
      exact ⟨hv, a, b, ea, eb, hd⟩
    | forXrp =>
      obtain ⟨hv, hd⟩ := call_free h (by intro e; cases e)
      simp only [dispatch, bind_ok, okOr_ok] at hd
      obtain ⟨a, ea, hd⟩ := hd
      exact ⟨hv, a, xrp, ea, rfl, hd⟩
  obtain ⟨hv, a, b, ea, eb, hd⟩ := key
  obtain ⟨_, _, _, _, ev, hd, eo⟩ := remove_ok hd
  obtain ⟨hdl, ⟨l, hl, hb⟩, _, _⟩ := Dex.C61_remove_limits hr.native hw hdst hd
  refine ⟨hv, hdl _ rfl, a, b, l, ?_⟩
  simp only [Dex.removeLiquidity, bind_ok, ensure_ok, okOr_ok] at hd
  obtain ⟨_, _, l', hl', _, hne, led, ht, hd⟩ := hd
  obtain rfl : l = l' := Option.some.inj (hl.symm.trans hl')
  obtain ⟨hlt, hl1, hl2⟩ := hr.native.inv.lpOrd _ _ hl
  have F1 := (Ledger.transfer_ok ht).2.2.1 _ hl1.symm
  have F2 := (Ledger.transfer_ok ht).2.2.1 _ hl2.symm
  have core : ∀ {m0 m1 : Nat}, Dex.removeOrdered { s with led := led } (mkPair a b) l m0 m1 dst = .ok (s', ev) →
      s'.led.bal (mkPair a b).1 dst = s.led.bal (mkPair a b).1 dst + ev.amt0 ∧
      s'.led.bal (mkPair a b).2 dst = s.led.bal (mkPair a b).2 dst + ev.amt1 ∧ m0 ≤ ev.amt0 ∧ m1 ≤ ev.amt1 := by
    intro m0 m1 hx
    obtain ⟨led1, led2, k, _, _, _, _, _, _, hm0, hm1, hbn, t1, t2, _⟩ := Dex.removeOrdered_ok hx
    have hp : (mkPair a b).1 ≠ (mkPair a b).2 := ne_of_lt hlt
    have T1 := (Ledger.transfer_ok t1).2.2.2 dst
    have T2 := (Ledger.transfer_ok t2).2.2.2 dst
    rw [(Ledger.transfer_ok t1).2.2.1 _ hp.symm, (Ledger.burn_ok hbn).2.2.2.1 _ hl2.symm] at T2
    rw [(Ledger.burn_ok hbn).2.2.2.1 _ hl1.symm] at T1
    simp only [if_true, if_neg (hdst.2 _), Nat.add_zero] at T1 T2
    rw [F1] at T1; rw [F2] at T2
    rw [(Ledger.transfer_ok t2).2.2.1 _ hp]
    exact ⟨by omega, by omega, hm0, hm1⟩
  rcases Dex.mkPair_cases a b hne with ⟨ep, _⟩ | ⟨ep, _⟩
  · rw [if_pos (by rw [ep])] at hd
    have x := core hd
    rw [ep] at x
    refine ⟨ev.amt0, ev.amt1, ea, eb, hl, hb, x.1, x.2.1, x.2.2.1, x.2.2.2, ?_⟩
    rw [eo, removeOut, if_pos (by rw [ep])]
  · rw [if_neg (by rw [ep]; exact hne)] at hd
    have x := core hd
    rw [ep] at x
    refine ⟨ev.amt1, ev.amt0, ea, eb, hl, hb, x.2.1, x.1, x.2.2.2, x.2.2.1, ?_⟩
    rw [eo, removeOut, if_neg (by rw [ep]; exact hne)]

/-- Non-vacuity: deposits and withdrawals through the contract, and limits one off. -/
example :
    (call cfg0 demo (plain 8 (.addLiquidity (tok 2) (tok 1) 4000000 2000000 4000000 1000000 8 10))).isOk = true ∧
    (call cfg0 demo (plain 8 (.addLiquidity (tok 2) (tok 1) 4000000 2000000 4000000 1000001 8 10))).isOk = false ∧
    ((call cfg0 demo (plain 7 (.removeLiquidityETH (tok 1) 2000 1000 4000 7 10))).toOption.map Prod.snd
      = some [1000, 4000]) ∧
    (call cfg0 demo (plain 7 (.removeLiquidityETH (tok 1) 2000 1001 4000 7 10))).isOk = false ∧
    (call cfg0 demo (plain 7 (.removeLiquidity (tok 1) (tok 2) 2000 1000 4000 7 9))).isOk = false := by decide +kernel

/-! ## C154: paying with XRP -/

/-- The value in whole drops, rounded up. -/
def DropsOf (wei drops : Nat) : Prop := wei ≤ drops * 1000000000000 ∧ drops * 1000000000000 < wei + 1000000000000

/-- What a trade with value attached does: the caller pays `spent` of `first` for the trade and `drops` of XRP to the
contract's own account; the recipient receives `got` of `last`. -/
def PaidTrade (s s' : Dex.St) (who dst : Acct) (first last : AssetId) (spent got drops : Nat) : Prop :=
  ∀ (t : AssetId) (x : Acct), (∀ p, x ≠ poolAddr p) → ∃ fee,
    s'.led.bal t x + (if t = first ∧ x = who then spent else 0) + (if t = xrp ∧ x = who then drops else 0) =
      s.led.bal t x + (if t = last ∧ x = dst then got else 0) + (if t = xrp ∧ x = dexAddr then drops else 0) + fee ∧
    (fee ≠ 0 → s.feeTo = some x ∧ ∃ p, s.lp p = some t)

theorem paid_trade {s s1 s' : Dex.St} {who dst : Acct} {first last : AssetId} {v spent got : Nat}
    (h : payValue s who v = .ok s1) (he : TradeEffect s1 s' who dst first last spent got) :
    ∃ drops, DropsOf v drops ∧ PaidTrade s s' who dst first last spent got drops := by
  obtain ⟨d, h1, h2, L, hL, rfl⟩ := payValue_ok h
  refine ⟨d, ⟨h1, h2⟩, fun t x hx => ?_⟩
  obtain ⟨fee, e, hf⟩ := he t x hx
  refine ⟨fee, ?_, hf⟩
  dsimp only at e
  by_cases ht : t = xrp
  · subst ht
    have T := (Ledger.transfer_ok hL).2.2.2 x
    simp only [true_and] at *
    omega
  · rw [(Ledger.transfer_ok hL).2.2.1 t ht] at e
    simp only [ht, false_and, if_false]
    omega

/-- C154 (partial): what `swapExactETHForTokens` does. The trade sells the *number of wei* as an amount of the first token
of the path, whatever that token is, from the caller's balance; the value itself goes to the contract's account. -/
theorem C154_sell_partial {c : Dex.Cfg} {s s' : Dex.St} {k : Call} {out : List Nat} {least : Nat} {path : List Nat}
    {dst : Acct} {deadline : Nat} (hi : k.input = .swapExactETHForTokens least path dst deadline)
    (h : call c s k = .ok (s', out)) :
    s.now ≤ deadline ∧ ∃ first last got drops,
      path.head?.bind assetAt = some first ∧ path.getLast?.bind assetAt = some last ∧ least ≤ got ∧
      DropsOf k.value drops ∧ PaidTrade s s' k.who dst first last k.value got drops := by
  obtain ⟨who, value, st, input⟩ := k
  obtain rfl : input = _ := hi
  obtain ⟨s1, h1, _, _, h2⟩ := call_ok h
  obtain ⟨_, _, _, p, hp, hs, _⟩ := sell_ok h2
  obtain ⟨hdl, first, last, got, e1, e2, hm, he⟩ := Dex.C02_exact_supply hs
  obtain ⟨drops, hd, ht⟩ := paid_trade h1 he
  have hnow : s1.now = s.now := by obtain ⟨_, _, _, _, _, rfl⟩ := payValue_ok h1; rfl
  exact ⟨hnow ▸ hdl _ rfl, first, last, got, drops, assetsAt_head hp e1, assetsAt_last hp e2, hm, hd, ht⟩

/-- C154 (partial): what `swapETHForExactTokens` does: the price is at most the number of wei, and the whole value goes to
the contract's account on top. -/
theorem C154_buy_partial {c : Dex.Cfg} {s s' : Dex.St} {k : Call} {out : List Nat} {amount : Nat} {path : List Nat}
    {dst : Acct} {deadline : Nat} (hi : k.input = .swapETHForExactTokens amount path dst deadline)
    (h : call c s k = .ok (s', out)) :
    s.now ≤ deadline ∧ ∃ first last price drops,
      path.head?.bind assetAt = some first ∧ path.getLast?.bind assetAt = some last ∧ price ≤ k.value ∧
      DropsOf k.value drops ∧ PaidTrade s s' k.who dst first last price amount drops := by
  obtain ⟨who, value, st, input⟩ := k
  obtain rfl : input = _ := hi
  obtain ⟨s1, h1, _, _, h2⟩ := call_ok h
  obtain ⟨_, _, _, p, hp, hs, _⟩ := buy_ok h2
  obtain ⟨hdl, first, last, price, e1, e2, hm, he⟩ := Dex.C03_exact_target hs
  obtain ⟨drops, hd, ht⟩ := paid_trade h1 he
  have hnow : s1.now = s.now := by obtain ⟨_, _, _, _, _, rfl⟩ := payValue_ok h1; rfl
  exact ⟨hnow ▸ hdl _ rfl, first, last, price, drops, assetsAt_head hp e1, assetsAt_last hp e2, hm, hd, ht⟩

/-- C154 (partial): what `addLiquidityETH` does: it takes at most the desired tokens and at most the number of wei, in
drops, of XRP, and the value goes to the contract's account on top. -/
theorem C154_add_partial {c : Dex.Cfg} {s s' : Dex.St} {k : Call} {out : List Nat} {ta da ma mb deadline : Nat} {dst : Acct}
    (hr : Reach c s) (hw : Keyed k.who) (hne : k.who ≠ dexAddr) (hi : k.input = .addLiquidityETH ta da ma mb dst deadline)
    (h : call c s k = .ok (s', out)) :
    s.now ≤ deadline ∧ ∃ a l xa xb drops liq, assetAt ta = some a ∧ a ≠ xrp ∧ s'.lp (mkPair a xrp) = some l ∧
      DropsOf k.value drops ∧
      s'.led.bal a k.who + xa = s.led.bal a k.who ∧ s'.led.bal xrp k.who + xb + drops = s.led.bal xrp k.who ∧
      xa ≤ da ∧ xb ≤ k.value ∧ (ma ≤ da → ma ≤ xa) ∧ (mb ≤ k.value → mb ≤ xb) ∧ 0 < liq ∧ out.getLast? = some liq := by
  obtain ⟨who, value, st, input⟩ := k
  obtain rfl : input = _ := hi
  obtain ⟨s1, h1, _, _, hd⟩ := call_ok h
  have hr1 := payValue_reach hr.native hw h1
  simp only [dispatch, bind_ok, okOr_ok] at hd
  obtain ⟨a, ea, hd⟩ := hd
  obtain ⟨hda, hdb, _, _, _, ev, hd, eo⟩ := add_ok hd
  have hax : a ≠ xrp := by
    have := hd
    simp only [Dex.addLiquidity, bind_ok, ensure_ok] at this
    obtain ⟨_, hne, _⟩ := this
    exact hne
  obtain ⟨hdl, l, xa, xb, g1, g2, g3, g4, g5, g6, g7, g8, g9⟩ := Dex.C61_add_limits hr1 hw hda hdb hd
  obtain ⟨d, hd1, hd2, L, hL, rfl⟩ := payValue_ok h1
  have T := (Ledger.transfer_ok hL).2.2.2 who
  rw [if_pos rfl, if_neg hne] at T
  dsimp only at g2 g3 hdl
  rw [(Ledger.transfer_ok hL).2.2.1 a hax] at g2
  refine ⟨hdl _ rfl, a, l, xa, xb, d, ev.liq, ea, hax, g1, ⟨hd1, hd2⟩, g2, ?_, g4, g5, g6, g7, g9, ?_⟩
  · show s'.led.bal xrp who + xb + d = s.led.bal xrp who
    omega
  · rw [eo]; unfold addOut; split <;> rfl

/-- C154 is refuted for every use: whenever `swapExactETHForTokens` succeeds with value on a path from XRP to another
token, the caller's XRP balance falls by the number of wei, counted in drops, plus the value; that is more than 10^12
times what was sent. -/
theorem C154_refuted {c : Dex.Cfg} {s s' : Dex.St} {k : Call} {out : List Nat} {least : Nat} {path : List Nat}
    {dst : Acct} {deadline : Nat} (hw : Keyed k.who) (hne : k.who ≠ dexAddr) (hfee : s.feeTo ≠ some k.who)
    (hi : k.input = .swapExactETHForTokens least path dst deadline)
    (hf : path.head?.bind assetAt = some xrp) (hl : path.getLast?.bind assetAt ≠ some xrp) (hv : 0 < k.value)
    (h : call c s k = .ok (s', out)) :
    ∃ drops, DropsOf k.value drops ∧ s'.led.bal xrp k.who + k.value + drops = s.led.bal xrp k.who ∧
      (s.led.bal xrp k.who - s'.led.bal xrp k.who) * 1000000000000 > k.value * 1000000000000 ∧
      s.led.bal xrp k.who - s'.led.bal xrp k.who ≠ drops := by
  obtain ⟨_, first, last, got, drops, e1, e2, _, hd, ht⟩ := C154_sell_partial hi h
  rw [hf] at e1; cases e1
  rw [e2] at hl
  obtain ⟨fee, e, hf0⟩ := ht xrp k.who hw.2
  have z : fee = 0 := by by_contra hz; exact hfee (hf0 hz).1
  have hlx : ¬ (xrp = last ∧ k.who = dst) := fun x => hl (by rw [x.1])
  rw [if_pos ⟨rfl, rfl⟩, if_pos ⟨rfl, rfl⟩, if_neg hlx, if_neg (fun x => hne x.2), z] at e
  have hd' := hd
  unfold DropsOf at hd'
  refine ⟨drops, hd, by omega, by omega, by omega⟩

/-- Non-vacuity, and the scale of it: account 8 sends a millionth of a millionth of an XRP (10^6 wei) and is charged one
XRP (10^6 drops) for the trade and one drop for the contract. -/
theorem C154_refuted_case :
    let k := paid 8 1000000 (.swapExactETHForTokens 1 [tok 2, tok 1] 8 12)
    ∃ s' out, Reach cfg0 demo ∧ call cfg0 demo k = .ok (s', out) ∧
      s'.led.bal xrp 8 + 1000001 = demo.led.bal xrp 8 ∧ s'.led.bal xrp dexAddr = demo.led.bal xrp dexAddr + 1 := by
  refine ⟨((call cfg0 demo (paid 8 1000000 (.swapExactETHForTokens 1 [tok 2, tok 1] 8 12))).toOption.getD (demo, [])).1,
    ((call cfg0 demo (paid 8 1000000 (.swapExactETHForTokens 1 [tok 2, tok 1] 8 12))).toOption.getD (demo, [])).2,
    demo_reach, ?_, ?_, ?_⟩
  · exact ok_getD (d := (demo, [])) (by decide +kernel)
  · decide +kernel
  · decide +kernel

/-- C154: the first token of an XRP-paying trade need not be XRP: `swapExactETHForTokens` on a path from token 1 takes
the caller's token 1 (and the value), and gives XRP. -/
theorem C154_refuted_token : ∃ s' out,
    call cfg0 demo (paid 8 1000000 (.swapExactETHForTokens 1 [tok 1, tok 2] 8 12)) = .ok (s', out) ∧
      s'.led.bal 1 8 + 1000000 = demo.led.bal 1 8 ∧ demo.led.bal xrp 8 < s'.led.bal xrp 8 := by
  refine ⟨((call cfg0 demo (paid 8 1000000 (.swapExactETHForTokens 1 [tok 1, tok 2] 8 12))).toOption.getD (demo, [])).1,
    ((call cfg0 demo (paid 8 1000000 (.swapExactETHForTokens 1 [tok 1, tok 2] 8 12))).toOption.getD (demo, [])).2,
    ?_, ?_, ?_⟩
  · exact ok_getD (d := (demo, [])) (by decide +kernel)
  · decide +kernel
  · decide +kernel

/-- C154: the last token of a trade for XRP need not be XRP: `swapExactTokensForETH` and `swapTokensForExactETH` deliver
whatever the path ends in. -/
theorem C154_refuted_delivery : ∃ s1 o1 s2 o2,
    call cfg0 demo (plain 8 (.swapExactTokensForETH 1000000 1 [tok 2, tok 1] 8 12)) = .ok (s1, o1) ∧
      s1.led.bal xrp 8 < demo.led.bal xrp 8 ∧ demo.led.bal 1 8 < s1.led.bal 1 8 ∧
    call cfg0 demo (plain 8 (.swapTokensForExactETH 1000 100000 [tok 2, tok 1] 8 12)) = .ok (s2, o2) ∧
      s2.led.bal xrp 8 < demo.led.bal xrp 8 ∧ s2.led.bal 1 8 = demo.led.bal 1 8 + 1000 := by
  refine ⟨((call cfg0 demo (plain 8 (.swapExactTokensForETH 1000000 1 [tok 2, tok 1] 8 12))).toOption.getD (demo, [])).1,
    ((call cfg0 demo (plain 8 (.swapExactTokensForETH 1000000 1 [tok 2, tok 1] 8 12))).toOption.getD (demo, [])).2,
    ((call cfg0 demo (plain 8 (.swapTokensForExactETH 1000 100000 [tok 2, tok 1] 8 12))).toOption.getD (demo, [])).1,
    ((call cfg0 demo (plain 8 (.swapTokensForExactETH 1000 100000 [tok 2, tok 1] 8 12))).toOption.getD (demo, [])).2,
    ?_, ?_, ?_, ?_, ?_, ?_⟩
  · exact ok_getD (d := (demo, [])) (by decide +kernel)
  · decide +kernel
  · decide +kernel
  · exact ok_getD (d := (demo, [])) (by decide +kernel)
  · decide +kernel
  · decide +kernel

end Verif.DexEvm
