import Verif.DexEvm.Props

/-!
# The exchange contract: stuck XRP, refused calls, quotes, reported amounts (C155-C158)
-/

namespace Verif.DexEvm
open Verif.Dex (Keyed poolAddr mkPair TradeEffect cfg0 g0 demo)

/-! ## C155: XRP sent with a call -/

/-- A history from one state to another: any operations by accounts other than pools, the burn account and the contract. -/
inductive Later (c : Dex.Cfg) : Dex.St → Dex.St → Prop where
  | refl {s : Dex.St} : Later c s s
  | step {s s1 s2 : Dex.St} {op : Op} : Later c s s1 → (∀ w, op.signer = some w → Keyed w ∧ w ≠ dexAddr) →
      step c s1 op = .ok s2 → Later c s s2

/-- No operation lowers any balance of the contract's account. -/
theorem step_keeps {c : Dex.Cfg} {s s' : Dex.St} {op : Op} (hk : ∀ w, op.signer = some w → Keyed w ∧ w ≠ dexAddr)
    (h : step c s op = .ok s') (t : AssetId) : s.led.bal t dexAddr ≤ s'.led.bal t dexAddr := by
  cases op with
  | native op => exact EvmMoney.dex_mono h (fun e => (hk _ e).2 rfl) dexAddr_keyed.2 t
  | contract k =>
    obtain ⟨out, h⟩ := Dex.map_fst_ok h
    obtain ⟨s1, h1, _, _, h2⟩ := call_ok h
    have hne := (hk k.who rfl).2
    obtain ⟨d, _, _, L, hL, rfl⟩ := payValue_ok h1
    have hm : s.led.bal t dexAddr ≤ L.bal t dexAddr := by
      by_cases ht : t = xrp
      · subst ht
        have T := (Ledger.transfer_ok hL).2.2.2 dexAddr
        rw [if_neg (Ne.symm hne), if_pos rfl] at T
        omega
      · rw [(Ledger.transfer_ok hL).2.2.1 t ht]
    rcases dispatch_native h2 with rfl | ⟨op, ho, h2⟩
    · exact hm
    · refine le_trans hm (EvmMoney.dex_mono h2 (fun e => ?_) dexAddr_keyed.2 t)
      rw [ho] at e; exact hne (Option.some.inj e)

theorem Later.keeps {c : Dex.Cfg} {s s' : Dex.St} (h : Later c s s') (t : AssetId) :
    s.led.bal t dexAddr ≤ s'.led.bal t dexAddr := by
  induction h with
  | refl => exact le_refl _
  | step _ hk hs ih => exact le_trans ih (step_keeps hk hs t)

/-- C155 is refuted for every use: the XRP sent with any successful call stays in the contract's account for ever, whatever
happens afterwards. -/
theorem C155_refuted {c : Dex.Cfg} {s s1 s2 : Dex.St} {k : Call} {out : List Nat} (hne : k.who ≠ dexAddr)
    (h : call c s k = .ok (s1, out)) (hl : Later c s1 s2) :
    ∃ drops, DropsOf k.value drops ∧ s.led.bal xrp dexAddr + drops ≤ s2.led.bal xrp dexAddr := by
  obtain ⟨s0, h1, _, _, h2⟩ := call_ok h
  obtain ⟨d, hd1, hd2, L, hL, rfl⟩ := payValue_ok h1
  refine ⟨d, ⟨hd1, hd2⟩, le_trans ?_ (hl.keeps xrp)⟩
  have T := (Ledger.transfer_ok hL).2.2.2 dexAddr
  rw [if_neg (Ne.symm hne), if_pos rfl] at T
  have hm : L.bal xrp dexAddr ≤ s1.led.bal xrp dexAddr := by
    rcases dispatch_native h2 with rfl | ⟨op, ho, h2⟩
    · exact le_refl _
    · refine EvmMoney.dex_mono h2 (fun e => ?_) dexAddr_keyed.2 xrp
      rw [ho] at e; exact hne (Option.some.inj e)
  omega

/-- C155 (partial): a token sale leaves all balances of the contract's account as they are, unless the contract is itself named
as recipient. -/
theorem C155_clean_partial {c : Dex.Cfg} {s s' : Dex.St} {k : Call} {out : List Nat} {amount least : Nat} {path : List Nat}
    {dst : Acct} {deadline : Nat} (hi : Sells k.input amount least path dst deadline) (hne : k.who ≠ dexAddr)
    (hd : dst ≠ dexAddr) (hfee : s.feeTo ≠ some dexAddr) (h : call c s k = .ok (s', out)) (t : AssetId) :
    s'.led.bal t dexAddr = s.led.bal t dexAddr := by
  obtain ⟨_, _, first, last, got, _, _, _, he, _⟩ := C152_sell hi h
  obtain ⟨fee, e, hf⟩ := he t dexAddr dexAddr_keyed.2
  have z : fee = 0 := by by_contra hz; exact hfee (hf hz).1
  rw [if_neg (fun x => hne x.2.symm), if_neg (fun x => hd x.2.symm), z] at e
  omega

/-- Non-vacuity: one drop stays at the contract after a trade, another after a deposit, and a transfer in between does not
bring them back. -/
example :
    let ops := [Op.contract (paid 8 1000000 (.swapExactETHForTokens 1 [tok 2, tok 1] 8 12)),
      .native (.transfer 8 2 7 5),
      .contract (paid 8 1000000 (.addLiquidityETH (tok 1) 1000000 1 1 8 12))]
    (ops.foldl (fun s op => (step cfg0 s op).toOption.getD s) demo).led.bal xrp dexAddr = 2 := by decide +kernel

/-! ## C156: refused calls -/

/-- The functions that are meant to receive XRP. -/
def takesXrp : Input → Bool
  | .addLiquidityETH .. | .swapExactETHForTokens .. | .swapETHForExactTokens .. => true
  | _ => false

/-- The functions that change nothing. -/
def isQuery : Input → Bool
  | .quote .. | .getAmountIn .. | .getAmountOut .. | .getAmountsIn .. | .getAmountsOut .. => true
  | _ => false

/-- The amounts among the arguments that must fit a balance. The first argument of `quote` may be any number. -/
def amountsOf : Input → List Nat
  | .addLiquidity _ _ da db ma mb _ _ => [da, db, ma, mb]
  | .addLiquidityETH _ d m me _ _ => [d, m, me]
  | .removeLiquidity _ _ l ma mb _ _ => [l, ma, mb]
  | .removeLiquidityETH _ l m me _ _ => [l, m, me]
  | .swapExactTokensForTokens i m _ _ _ => [i, m]
  | .swapTokensForExactTokens o m _ _ _ => [o, m]
  | .swapExactETHForTokens m _ _ _ => [m]
  | .swapTokensForExactETH o m _ _ _ => [o, m]
  | .swapExactTokensForETH i m _ _ _ => [i, m]
  | .swapETHForExactTokens o _ _ _ => [o]
  | .quote _ ra rb => [ra, rb]
  | .getAmountIn o ri ro => [o, ri, ro]
  | .getAmountOut i ri ro => [i, ri, ro]
  | .getAmountsIn o _ => [o]
  | .getAmountsOut i _ => [i]

/-- The token addresses among the arguments. -/
def tokensOf : Input → List Nat
  | .addLiquidity ta tb _ _ _ _ _ _ => [ta, tb]
  | .addLiquidityETH t _ _ _ _ _ => [t]
  | .removeLiquidity ta tb _ _ _ _ _ => [ta, tb]
  | .removeLiquidityETH t _ _ _ _ _ => [t]
  | .swapExactTokensForTokens _ _ p _ _ => p
  | .swapTokensForExactTokens _ _ p _ _ => p
  | .swapExactETHForTokens _ p _ _ => p
  | .swapTokensForExactETH _ _ p _ _ => p
  | .swapExactTokensForETH _ _ p _ _ => p
  | .swapETHForExactTokens _ p _ _ => p
  | .getAmountsIn _ p => p
  | .getAmountsOut _ p => p
  | _ => []

/-- The deadline, if the function has one. -/
def deadlineOf : Input → Option Nat
  | .addLiquidity _ _ _ _ _ _ _ t => some t
  | .addLiquidityETH _ _ _ _ _ t => some t
  | .removeLiquidity _ _ _ _ _ _ t => some t
  | .removeLiquidityETH _ _ _ _ _ t => some t
  | .swapExactTokensForTokens _ _ _ _ t => some t
  | .swapTokensForExactTokens _ _ _ _ t => some t
  | .swapExactETHForTokens _ _ _ t => some t
  | .swapTokensForExactETH _ _ _ _ t => some t
  | .swapExactTokensForETH _ _ _ _ t => some t
  | .swapETHForExactTokens _ _ _ t => some t
  | _ => none

theorem assetAt_prefix {a : Nat} {x : AssetId} (h : assetAt a = some x) : a / 2 ^ 128 = 0xCCCCCCCC := by
  unfold assetAt Precompile.decode at h
  split at h
  · assumption
  · cases h

theorem assetsAt_prefix : ∀ {path : List Nat} {p : List AssetId}, assetsAt path = .ok p →
    ∀ a ∈ path, a / 2 ^ 128 = 0xCCCCCCCC
  | [], _, _, a, ha => by cases ha
  | b :: rest, p, h, a, ha => by
    simp only [assetsAt, bind_ok, okOr_ok] at h
    obtain ⟨x, hx, xs, hxs, _⟩ := h
    rcases List.mem_cons.mp ha with rfl | ha
    · exact assetAt_prefix hx
    · exact assetsAt_prefix hxs a ha

theorem sell_args {c : Dex.Cfg} {s s' : Dex.St} {who dst : Acct} {i m dl : Nat} {path : List Nat} {out : List Nat}
    (h : sell c s who i m path dst dl = .ok (s', out)) :
    i < U128 ∧ m < U128 ∧ (s.now ≤ dl ∧ dl < U32) ∧ ∀ a ∈ path, a / 2 ^ 128 = 0xCCCCCCCC := by
  obtain ⟨h1, h2, h3, p, hp, hs, _⟩ := sell_ok h
  obtain ⟨hd, _⟩ := Dex.C02_exact_supply hs
  exact ⟨h1, h2, ⟨hd _ rfl, h3⟩, assetsAt_prefix hp⟩

theorem buy_args {c : Dex.Cfg} {s s' : Dex.St} {who dst : Acct} {i m dl : Nat} {path : List Nat} {out : List Nat}
    (h : buy c s who i m path dst dl = .ok (s', out)) :
    i < U128 ∧ m < U128 ∧ (s.now ≤ dl ∧ dl < U32) ∧ ∀ a ∈ path, a / 2 ^ 128 = 0xCCCCCCCC := by
  obtain ⟨h1, h2, h3, p, hp, hs, _⟩ := buy_ok h
  obtain ⟨hd, _⟩ := Dex.C03_exact_target hs
  exact ⟨h1, h2, ⟨hd _ rfl, h3⟩, assetsAt_prefix hp⟩

theorem add_args {c : Dex.Cfg} {s s' : Dex.St} {who dst : Acct} {a b : AssetId} {da db ma mb dl : Nat} {out : List Nat}
    (h : add c s who a b da db ma mb dst dl = .ok (s', out)) :
    da < U128 ∧ db < U128 ∧ ma < U128 ∧ mb < U128 ∧ (s.now ≤ dl ∧ dl < U32) := by
  obtain ⟨h1, h2, h3, h4, h5, ev, h, _⟩ := add_ok h
  obtain ⟨_, hd, _⟩ := Dex.addLiquidity_ok h
  exact ⟨h1, h2, h3, h4, hd, h5⟩

theorem remove_args {s s' : Dex.St} {who dst : Acct} {a b : AssetId} {l ma mb dl : Nat} {out : List Nat}
    (h : remove s who a b l ma mb dst dl = .ok (s', out)) :
    l < U128 ∧ ma < U128 ∧ mb < U128 ∧ (s.now ≤ dl ∧ dl < U32) := by
  obtain ⟨h1, h3, h4, h5, ev, h, _⟩ := remove_ok h
  simp only [Dex.removeLiquidity, bind_ok, ensure_ok] at h
  obtain ⟨_, hd, _⟩ := h
  exact ⟨h1, h3, h4, hd, h5⟩

theorem dispatch_args {c : Dex.Cfg} {s s' : Dex.St} {who : Acct} {v : Nat} {i : Input} {out : List Nat}
    (h : dispatch c s who v i = .ok (s', out)) :
    (∀ x ∈ amountsOf i, x < U128) ∧ (∀ a ∈ tokensOf i, a / 2 ^ 128 = 0xCCCCCCCC) ∧
    (∀ d, deadlineOf i = some d → s.now ≤ d ∧ d < U32) ∧ (takesXrp i = true → v < U128) := by
  cases i with
  | addLiquidity ta tb da db ma mb dst dl =>
    simp only [dispatch, bind_ok, okOr_ok] at h
    obtain ⟨a, ha, b, hb, h⟩ := h
    obtain ⟨h1, h2, h3, h4, h5⟩ := add_args h
    refine ⟨by simp [amountsOf, h1, h2, h3, h4], ?_, fun d e => by cases e; exact h5, fun e => by cases e⟩
    intro x hx
    simp only [tokensOf, List.mem_cons, List.not_mem_nil, or_false] at hx
    rcases hx with rfl | rfl
    · exact assetAt_prefix ha
    · exact assetAt_prefix hb
  | addLiquidityETH t d m me dst dl =>
    simp only [dispatch, bind_ok, okOr_ok] at h
    obtain ⟨a, ha, h⟩ := h
    obtain ⟨h1, h2, h3, h4, h5⟩ := add_args h
    refine ⟨by simp [amountsOf, h1, h3, h4], ?_, fun d e => by cases e; exact h5, fun _ => h2⟩
    intro x hx
    simp only [tokensOf, List.mem_cons, List.not_mem_nil, or_false] at hx
    rw [hx]; exact assetAt_prefix ha
  | removeLiquidity ta tb l ma mb dst dl =>
    simp only [dispatch, bind_ok, okOr_ok] at h
    obtain ⟨a, ha, b, hb, h⟩ := h
    obtain ⟨h1, h3, h4, h5⟩ := remove_args h
    refine ⟨by simp [amountsOf, h1, h3, h4], ?_, fun d e => by cases e; exact h5, fun e => by cases e⟩
    intro x hx
    simp only [tokensOf, List.mem_cons, List.not_mem_nil, or_false] at hx
    rcases hx with rfl | rfl
    · exact assetAt_prefix ha
    · exact assetAt_prefix hb
  | removeLiquidityETH t l m me dst dl =>
    simp only [dispatch, bind_ok, okOr_ok] at h
    obtain ⟨a, ha, h⟩ := h
    obtain ⟨h1, h3, h4, h5⟩ := remove_args h
    refine ⟨by simp [amountsOf, h1, h3, h4], ?_, fun d e => by cases e; exact h5, fun e => by cases e⟩
    intro x hx
    simp only [tokensOf, List.mem_cons, List.not_mem_nil, or_false] at hx
    rw [hx]; exact assetAt_prefix ha
  | swapExactTokensForTokens i m path dst dl =>
    obtain ⟨h1, h2, h3, h4⟩ := sell_args h
    exact ⟨by simp [amountsOf, h1, h2], h4, fun d e => by cases e; exact h3, fun e => by cases e⟩
  | swapTokensForExactTokens o m path dst dl =>
    obtain ⟨h1, h2, h3, h4⟩ := buy_args h
    exact ⟨by simp [amountsOf, h1, h2], h4, fun d e => by cases e; exact h3, fun e => by cases e⟩
  | swapExactETHForTokens m path dst dl =>
    obtain ⟨h1, h2, h3, h4⟩ := sell_args h
    exact ⟨by simp [amountsOf, h2], h4, fun d e => by cases e; exact h3, fun _ => h1⟩
  | swapTokensForExactETH o m path dst dl =>
    obtain ⟨h1, h2, h3, h4⟩ := buy_args h
    exact ⟨by simp [amountsOf, h1, h2], h4, fun d e => by cases e; exact h3, fun e => by cases e⟩
  | swapExactTokensForETH i m path dst dl =>
    obtain ⟨h1, h2, h3, h4⟩ := sell_args h
    exact ⟨by simp [amountsOf, h1, h2], h4, fun d e => by cases e; exact h3, fun e => by cases e⟩
  | swapETHForExactTokens o path dst dl =>
    obtain ⟨h1, h2, h3, h4⟩ := buy_args h
    exact ⟨by simp [amountsOf, h1], h4, fun d e => by cases e; exact h3, fun _ => h2⟩
  | quote a ra rb =>
    simp only [dispatch, bind_ok, toBalance_ok] at h
    obtain ⟨_, ⟨h1, _⟩, _, ⟨h2, _⟩, _⟩ := h
    exact ⟨by simp [amountsOf, h1, h2], by simp [tokensOf], fun d e => (by cases e), fun e => by cases e⟩
  | getAmountIn o ri ro =>
    simp only [dispatch, bind_ok, toBalance_ok] at h
    obtain ⟨_, ⟨h1, _⟩, _, ⟨h2, _⟩, _, ⟨h3, _⟩, _⟩ := h
    exact ⟨by simp [amountsOf, h1, h2, h3], by simp [tokensOf], fun d e => (by cases e), fun e => by cases e⟩
  | getAmountOut o ri ro =>
    simp only [dispatch, bind_ok, toBalance_ok] at h
    obtain ⟨_, ⟨h1, _⟩, _, ⟨h2, _⟩, _, ⟨h3, _⟩, _⟩ := h
    exact ⟨by simp [amountsOf, h1, h2, h3], by simp [tokensOf], fun d e => (by cases e), fun e => by cases e⟩
  | getAmountsIn o path =>
    simp only [dispatch, bind_ok, toBalance_ok] at h
    obtain ⟨p, hp, _, ⟨h1, _⟩, _⟩ := h
    exact ⟨by simp [amountsOf, h1], assetsAt_prefix hp, fun d e => (by cases e), fun e => by cases e⟩
  | getAmountsOut o path =>
    simp only [dispatch, bind_ok, toBalance_ok] at h
    obtain ⟨p, hp, _, ⟨h1, _⟩, _⟩ := h
    exact ⟨by simp [amountsOf, h1], assetsAt_prefix hp, fun d e => (by cases e), fun e => by cases e⟩

/-- C156: a call is refused, without any effect, if it carries value and the function does not take XRP, if it is a static
call of a function that changes something, if an amount does not fit a balance, if a token address is not in the
range of the asset contracts, if the value does not fit a balance, or if the deadline has passed or is no block number. -/
theorem C156_refused {c : Dex.Cfg} {s : Dex.St} {k : Call}
    (hbad : (k.value ≠ 0 ∧ takesXrp k.input = false) ∨ (k.isStatic = true ∧ isQuery k.input = false) ∨
      (∃ x ∈ amountsOf k.input, 2 ^ 128 ≤ x) ∨ (∃ a ∈ tokensOf k.input, a / 2 ^ 128 ≠ 0xCCCCCCCC) ∨
      (takesXrp k.input = true ∧ 2 ^ 128 ≤ k.value) ∨
      (∃ d, deadlineOf k.input = some d ∧ (d < s.now ∨ 2 ^ 32 ≤ d))) :
    ∃ e, call c s k = .error e := by
  cases h : call c s k with
  | error e => exact ⟨e, rfl⟩
  | ok r =>
    exfalso
    obtain ⟨s', out⟩ := r
    obtain ⟨s1, h1, hst, hpay, h2⟩ := call_ok h
    have hnow : s1.now = s.now := by obtain ⟨_, _, _, _, _, rfl⟩ := payValue_ok h1; rfl
    obtain ⟨a1, a2, a3, a4⟩ := dispatch_args h2
    rw [hnow] at a3
    rcases hbad with ⟨hv, ht⟩ | ⟨hs, hq⟩ | ⟨x, hx, hge⟩ | ⟨a, ha, hne⟩ | ⟨ht, hge⟩ | ⟨d, hd, hge⟩
    · rcases hpay with hp | hp
      · revert ht hp
        cases k.input <;> simp [takesXrp, modifierOf]
      · exact hv hp
    · refine hst ⟨hs, fun hp => ?_⟩
      revert hq hp
      cases k.input <;> simp [isQuery, modifierOf]
    · have := a1 x hx
      unfold U128 at this
      omega
    · exact hne (a2 a ha)
    · have := a4 ht
      unfold U128 at this
      omega
    · have := a3 d hd
      unfold U32 at this
      omega

/-- Non-vacuity: each kind of refusal next to the call that is accepted. -/
example :
    (call cfg0 demo (plain 8 (.swapExactTokensForTokens 1000 1 [tok 1, tok 2] 8 10))).isOk = true ∧
    (call cfg0 demo (paid 8 1 (.swapExactTokensForTokens 1000 1 [tok 1, tok 2] 8 10))).isOk = false ∧
    (call cfg0 demo { plain 8 (.swapExactTokensForTokens 1000 1 [tok 1, tok 2] 8 10) with isStatic := true }).isOk = false ∧
    (call cfg0 demo (plain 8 (.swapTokensForExactTokens 1000 (2 ^ 128 - 1) [tok 1, tok 2] 8 10))).isOk = true ∧
    (call cfg0 demo (plain 8 (.swapTokensForExactTokens 1000 (2 ^ 128) [tok 1, tok 2] 8 10))).isOk = false ∧
    (call cfg0 demo (plain 8 (.swapExactTokensForTokens 1000 1 [1, tok 2] 8 10))).isOk = false ∧
    (call cfg0 demo (plain 8 (.swapExactTokensForTokens 1000 1 [tok 1, tok 2] 8 9))).isOk = false ∧
    (call cfg0 demo (plain 8 (.swapExactTokensForTokens 1000 1 [tok 1, tok 2] 8 (2 ^ 32 - 1)))).isOk = true ∧
    (call cfg0 demo (plain 8 (.swapExactTokensForTokens 1000 1 [tok 1, tok 2] 8 (2 ^ 32)))).isOk = false := by
  decide +kernel

/-! ## C157: quotes -/

/-- C157: queries change nothing, and answer the same in a static call and for every caller. -/
theorem C157_query {c : Dex.Cfg} {s s' : Dex.St} {k : Call} {out : List Nat} (hq : isQuery k.input = true)
    (h : call c s k = .ok (s', out)) :
    s' = s ∧ k.value = 0 ∧ ∀ who b, call c s { k with who := who, isStatic := b } = .ok (s, out) := by
  obtain ⟨who, value, st, input⟩ := k
  obtain ⟨hv, hd⟩ := call_free h (by intro e; revert hq e; cases input <;> simp [isQuery, modifierOf])
  have hs : s' = s := by
    cases input with
    | quote a ra rb =>
      simp only [dispatch, bind_ok, pure_ok, Prod.mk.injEq] at hd
      obtain ⟨_, _, _, _, _, _, rfl, _⟩ := hd; rfl
    | getAmountIn o ri ro =>
      simp only [dispatch, bind_ok, pure_ok, Prod.mk.injEq] at hd
      obtain ⟨_, _, _, _, _, _, _, _, rfl, _⟩ := hd; rfl
    | getAmountOut o ri ro =>
      simp only [dispatch, bind_ok, pure_ok, Prod.mk.injEq] at hd
      obtain ⟨_, _, _, _, _, _, _, _, rfl, _⟩ := hd; rfl
    | getAmountsIn o path =>
      simp only [dispatch, bind_ok, pure_ok, Prod.mk.injEq] at hd
      obtain ⟨_, _, _, _, _, _, rfl, _⟩ := hd; rfl
    | getAmountsOut o path =>
      simp only [dispatch, bind_ok, pure_ok, Prod.mk.injEq] at hd
      obtain ⟨_, _, _, _, _, _, rfl, _⟩ := hd; rfl
    | _ => cases hq
  subst hs
  refine ⟨rfl, hv, fun w b => ?_⟩
  obtain rfl : value = 0 := hv
  have hm : checkModifier b 0 (modifierOf input) = .ok () := by
    refine checkModifier_ok.mpr ⟨fun x => ?_, .inr rfl⟩
    refine x.2 ?_
    revert hq
    cases input <;> simp [isQuery, modifierOf]
  have hd' : dispatch c s' w 0 input = .ok (s', out) := by
    cases input with
    | quote a ra rb => exact hd
    | getAmountIn o ri ro => exact hd
    | getAmountOut o ri ro => exact hd
    | getAmountsIn o path => exact hd
    | getAmountsOut o path => exact hd
    | _ => cases hq
  show call c s' { who := w, value := 0, isStatic := b, input := input } = _
  simp only [call, bind_ok, payValue_zero]
  exact ⟨s', rfl, (), hm, hd'⟩

/-- C157: a sale executes at the quote: if selling succeeds, then `getAmountsOut`, asked in the same state by anyone, gives
the same amounts; what the recipient gets is the last of them (C152). -/
theorem C157_sell {c : Dex.Cfg} {s s' : Dex.St} {k : Call} {out : List Nat} {amount least : Nat} {path : List Nat}
    {dst : Acct} {deadline : Nat} (hi : Sells k.input amount least path dst deadline)
    (h : call c s k = .ok (s', out)) (who : Acct) :
    call c s (plain who (.getAmountsOut amount path)) = .ok (s, out) := by
  obtain ⟨w, value, st, input⟩ := k
  have key : sell c s w amount least path dst deadline = .ok (s', out) := by
    cases hi with
    | tokens => exact (call_free h (by intro e; cases e)).2
    | forXrp => exact (call_free h (by intro e; cases e)).2
  obtain ⟨h1, _, _, p, hp, _, ho⟩ := sell_ok key
  simp only [call, plain, bind_ok, payValue_zero]
  refine ⟨s, rfl, (), rfl, ?_⟩
  simp only [dispatch, bind_ok, pure_ok]
  exact ⟨p, hp, amount, toBalance_ok.mpr ⟨h1, rfl⟩, out, ho, rfl⟩

/-- C157: a purchase executes at the quote of `getAmountsIn`. -/
theorem C157_buy {c : Dex.Cfg} {s s' : Dex.St} {k : Call} {out : List Nat} {amount most : Nat} {path : List Nat}
    {dst : Acct} {deadline : Nat} (hi : Buys k.input amount most path dst deadline)
    (h : call c s k = .ok (s', out)) (who : Acct) :
    call c s (plain who (.getAmountsIn amount path)) = .ok (s, out) := by
  obtain ⟨w, value, st, input⟩ := k
  have key : buy c s w amount most path dst deadline = .ok (s', out) := by
    cases hi with
    | tokens => exact (call_free h (by intro e; cases e)).2
    | forXrp => exact (call_free h (by intro e; cases e)).2
  obtain ⟨h1, _, _, p, hp, _, ho⟩ := buy_ok key
  simp only [call, plain, bind_ok, payValue_zero]
  refine ⟨s, rfl, (), rfl, ?_⟩
  simp only [dispatch, bind_ok, pure_ok]
  exact ⟨p, hp, amount, toBalance_ok.mpr ⟨h1, rfl⟩, out, ho, rfl⟩

/-- Non-vacuity: a quote and the sale at that quote. -/
example :
    ((call cfg0 demo (plain 5 (.getAmountsOut 1000000 [tok 1, tok 2, tok 3]))).toOption.map Prod.snd
      = some [1000000, 3984027, 5946302]) ∧
    ((call cfg0 demo (plain 8 (.swapExactTokensForTokens 1000000 1 [tok 1, tok 2, tok 3] 8 12))).toOption.map
      (fun r => (r.2, r.1.led.bal 3 8)) = some ([1000000, 3984027, 5946302], 5946302)) ∧
    (call cfg0 demo { plain 5 (.getAmountsIn 1000 [tok 1, tok 2]) with isStatic := true }).isOk = true := by
  decide +kernel

/-! ## C158: reported deposits -/

/-- What the pool of `a` and `b` holds of `a` beyond its recorded reserve. -/
def surplus (s : Dex.St) (a b : AssetId) : Nat := s.led.bal a (poolAddr (mkPair a b)) - (Dex.getLiquidity s a b).1

theorem addOrdered_taken {s s' : Dex.St} {who dst : Acct} {p : Dex.Pair} {l : AssetId} {d0 d1 m0 m1 : Nat}
    {ev : Dex.Added} (hp : p.1 ≠ p.2) (hl1 : l ≠ p.1) (hl2 : l ≠ p.2) (hw : who ≠ poolAddr p)
    (hb : (s.res p).1 ≤ s.led.bal p.1 (poolAddr p) ∧ (s.res p).2 ≤ s.led.bal p.2 (poolAddr p))
    (h : Dex.addOrdered s who p l d0 d1 m0 m1 dst = .ok (s', ev)) :
    ∃ t0 t1, s'.led.bal p.1 who + t0 = s.led.bal p.1 who ∧ s'.led.bal p.2 who + t1 = s.led.bal p.2 who ∧
      ev.amt0 = t0 + (s.led.bal p.1 (poolAddr p) - (s.res p).1) ∧
      ev.amt1 = t1 + (s.led.bal p.2 (poolAddr p) - (s.res p).2) := by
  obtain ⟨amts, led1, led2, ll, k, ho, t1, t2, _, _, e0, e1, hq, hz, hm, e⟩ := Dex.addOrdered_ok h
  have T1 := (Ledger.transfer_ok t1).2.2.2 who
  have T2 := (Ledger.transfer_ok t2).2.2.2 who
  have P1 := (Ledger.transfer_ok t1).2.2.2 (poolAddr p)
  have P2 := (Ledger.transfer_ok t2).2.2.2 (poolAddr p)
  rw [(Ledger.transfer_ok t1).2.2.1 _ hp.symm] at T2 P2
  simp only [if_true, if_neg hw, if_neg (Ne.symm hw), Nat.add_zero] at T1 T2 P1 P2
  have B0 : led2.bal p.1 = led1.bal p.1 := (Ledger.transfer_ok t2).2.2.1 _ hp
  have hll : ∀ t, t ≠ l → ll.bal t = led2.bal t := by
    rcases Dex.liquidityFor_led hq with ⟨_, hbm, _⟩ | ⟨_, hll, _⟩
    · exact fun t ht => (Ledger.mint_ok hbm).2.2.2.1 _ ht
    · rw [hll]; exact fun _ _ => rfl
  refine ⟨Dex.sat128 amts.1, Dex.sat128 amts.2, ?_, ?_, ?_, ?_⟩
  · rw [(Ledger.mint_ok hm).2.2.2.1 _ hl1.symm, hll _ hl1.symm, B0]; exact T1
  · rw [(Ledger.mint_ok hm).2.2.2.1 _ hl2.symm, hll _ hl2.symm]; exact T2
  · rw [e0, B0]; omega
  · rw [e1]; omega

/-- C158 (partial): `addLiquidity` answers, in the order of its arguments, what it took from the caller plus whatever the
pool held beyond its reserves (tokens sent to the pool's address directly). So the answer is exact when nothing was. -/
theorem C158_partial {c : Dex.Cfg} {s s' : Dex.St} {k : Call} {out : List Nat} {ta tb da db ma mb deadline : Nat}
    {dst : Acct} (hr : Reach c s) (hw : Keyed k.who) (hi : k.input = .addLiquidity ta tb da db ma mb dst deadline)
    (h : call c s k = .ok (s', out)) :
    ∃ a b xa xb liq, assetAt ta = some a ∧ assetAt tb = some b ∧
      s'.led.bal a k.who + xa = s.led.bal a k.who ∧ s'.led.bal b k.who + xb = s.led.bal b k.who ∧
      out = [xa + surplus s a b, xb + surplus s b a, liq] := by
  obtain ⟨who, value, st, input⟩ := k
  obtain rfl : input = _ := hi
  obtain ⟨hv, hd⟩ := call_free h (by intro e; cases e)
  simp only [dispatch, bind_ok, okOr_ok] at hd
  obtain ⟨a, ea, b, eb, hd⟩ := hd
  obtain ⟨_, _, _, _, _, ev, hd, eo⟩ := add_ok hd
  have hi' := hr.native.inv.addLiquidity hw hd
  simp only [Dex.addLiquidity, bind_ok, ensure_ok] at hd
  obtain ⟨_, hne, _, _, _, _, sl, hsl, _, _, hd⟩ := hd
  have hsame : sl.1.led = s.led ∧ sl.1.lp (mkPair a b) = some sl.2 ∧ sl.1.res = s.res := by
    rcases Dex.getOrCreateLp_cases hsl with ⟨hl, e⟩ | ⟨hn, hc⟩
    · rw [e]; exact ⟨rfl, hl, rfl⟩
    · obtain ⟨_, n, er⟩ := Dex.createLp_ok hc
      rw [er]; exact ⟨rfl, upd_same _ _ _, rfl⟩
  have elp : s'.lp (mkPair a b) = some sl.2 := by
    split at hd <;>
      (obtain ⟨_, _, _, _, _, _, _, _, _, _, _, _, _, _, _, e⟩ := Dex.addOrdered_ok hd; rw [e]; exact hsame.2.1)
  obtain ⟨hlt, hl1, hl2⟩ := hi'.lpOrd _ _ elp
  have hbk := hr.native.inv.backed (mkPair a b)
  have hcomm : mkPair b a = mkPair a b := by
    rcases Dex.mkPair_cases a b hne with ⟨e, hlt⟩ | ⟨e, hlt⟩ <;>
      rcases Dex.mkPair_cases b a hne.symm with ⟨e', hlt'⟩ | ⟨e', hlt'⟩
    · exact absurd hlt (not_lt.mpr (le_of_lt hlt'))
    · rw [e, e']
    · rw [e, e']
    · exact absurd hlt (not_lt.mpr (le_of_lt hlt'))
  have hbk' : (sl.1.res (mkPair a b)).1 ≤ sl.1.led.bal (mkPair a b).1 (poolAddr (mkPair a b)) ∧
      (sl.1.res (mkPair a b)).2 ≤ sl.1.led.bal (mkPair a b).2 (poolAddr (mkPair a b)) := by
    rw [hsame.1, hsame.2.2]; exact hbk
  rcases Dex.mkPair_cases a b hne with ⟨ep, _⟩ | ⟨ep, _⟩
  · rw [if_pos (by rw [ep])] at hd
    obtain ⟨t0, t1, x1, x2, x3, x4⟩ := addOrdered_taken (ne_of_lt hlt) hl1 hl2 (hw.2 _) hbk' hd
    rw [hsame.1] at x1 x2 x3 x4
    rw [hsame.2.2] at x3 x4
    refine ⟨a, b, t0, t1, ev.liq, ea, eb, by rw [ep] at x1; exact x1, by rw [ep] at x2; exact x2, ?_⟩
    rw [eo, addOut, if_pos (by rw [ep]), x3, x4]
    unfold surplus Dex.getLiquidity
    rw [hcomm]
    simp only [ep, if_true, if_neg hne.symm]
  · rw [if_neg (by rw [ep]; exact hne)] at hd
    obtain ⟨t0, t1, x1, x2, x3, x4⟩ := addOrdered_taken (ne_of_lt hlt) hl1 hl2 (hw.2 _) hbk' hd
    rw [hsame.1] at x1 x2 x3 x4
    rw [hsame.2.2] at x3 x4
    refine ⟨a, b, t1, t0, ev.liq, ea, eb, by rw [ep] at x2; exact x2, by rw [ep] at x1; exact x1, ?_⟩
    rw [eo, addOut, if_neg (by rw [ep]; exact hne), x3, x4]
    unfold surplus Dex.getLiquidity
    rw [hcomm]
    simp only [ep, if_true, if_neg hne]

/-- The demo after account 7 sent 5000 of token 1 straight to the pool of tokens 1 and 2. -/
def donated : Dex.St :=
  (step cfg0 demo (.native (.transfer 7 1 (poolAddr (mkPair 1 2)) 5000))).toOption.getD demo

theorem donated_reach : Reach cfg0 donated := by
  refine demo_reach.step (op := .native (.transfer 7 1 (poolAddr (mkPair 1 2)) 5000)) (fun w e => ?_)
    (ok_getD (d := demo) (by decide +kernel))
  cases e
  exact ⟨Dex.keyed_small (by decide), by decide⟩

/-- C158 is refuted: after somebody sent tokens straight to the pool, a deposit of 1000000 of token 1 answers 1005000. -/
theorem C158_refuted : ∃ s' out, Reach cfg0 donated ∧
    call cfg0 donated (plain 8 (.addLiquidity (tok 1) (tok 2) 1000000 4000000 1 1 8 12)) = .ok (s', out) ∧
    s'.led.bal 1 8 + 1000000 = donated.led.bal 1 8 ∧ out.head? = some 1005000 := by
  refine ⟨((call cfg0 donated (plain 8 (.addLiquidity (tok 1) (tok 2) 1000000 4000000 1 1 8 12))).toOption.getD
      (demo, [])).1,
    ((call cfg0 donated (plain 8 (.addLiquidity (tok 1) (tok 2) 1000000 4000000 1 1 8 12))).toOption.getD (demo, [])).2,
    donated_reach, ?_, ?_, ?_⟩
  · exact ok_getD (d := (demo, [])) (by decide +kernel)
  · decide +kernel
  · decide +kernel

/-- Non-vacuity of the exact case: nothing beyond the reserves in the demo, in both argument orders. -/
example : surplus demo 1 2 = 0 ∧ surplus demo 2 1 = 0 ∧
    ((call cfg0 demo (plain 8 (.addLiquidity (tok 2) (tok 1) 4000000 2000000 1 1 8 12))).toOption.map
      (fun r => r.2.take 2) = some [4000000, 1000000]) := by decide +kernel

end Verif.DexEvm
