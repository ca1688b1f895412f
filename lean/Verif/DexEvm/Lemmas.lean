import Verif.DexEvm.Model
import Verif.Dex.Limits
import Verif.EvmMoney.Inv

/-! Inversion lemmas and reachability for the exchange contract. -/

namespace Verif.DexEvm
open Verif.Dex (Keyed poolAddr mkPair)

theorem toBalance_ok {x y : Nat} : toBalance x = .ok y ↔ x < U128 ∧ y = x := by
  unfold toBalance
  split
  · rename_i h
    constructor
    · intro e; cases e; exact ⟨h, rfl⟩
    · rintro ⟨_, rfl⟩; rfl
  · rename_i h
    constructor
    · intro e; cases e
    · rintro ⟨h2, _⟩; exact absurd h2 h

theorem toBlock_ok {x y : Nat} : toBlock x = .ok y ↔ x < U32 ∧ y = x := by
  unfold toBlock
  split
  · rename_i h
    constructor
    · intro e; cases e; exact ⟨h, rfl⟩
    · rintro ⟨_, rfl⟩; rfl
  · rename_i h
    constructor
    · intro e; cases e
    · rintro ⟨h2, _⟩; exact absurd h2 h

theorem assetsAt_map : ∀ {path : List Nat} {p : List AssetId}, assetsAt path = .ok p → path.map assetAt = p.map some
  | [], p, h => by cases h; rfl
  | a :: rest, p, h => by
    simp only [assetsAt, bind_ok, okOr_ok, pure_ok] at h
    obtain ⟨x, hx, xs, hxs, rfl⟩ := h
    simp only [List.map_cons, hx, assetsAt_map hxs]

theorem assetsAt_head {path : List Nat} {p : List AssetId} {first : AssetId} (h : assetsAt path = .ok p)
    (hf : p.head? = some first) : path.head?.bind assetAt = some first := by
  have e := congrArg List.head? (assetsAt_map h)
  rw [List.head?_map, List.head?_map, hf] at e
  cases hp : path.head? with
  | none => rw [hp] at e; cases e
  | some a => rw [hp] at e; simpa using e

theorem assetsAt_last {path : List Nat} {p : List AssetId} {last : AssetId} (h : assetsAt path = .ok p)
    (hf : p.getLast? = some last) : path.getLast?.bind assetAt = some last := by
  have e := congrArg List.getLast? (assetsAt_map h)
  rw [List.getLast?_map, List.getLast?_map, hf] at e
  cases hp : path.getLast? with
  | none => rw [hp] at e; cases e
  | some a => rw [hp] at e; simpa using e

theorem assetsAt_unique {path : List Nat} {p q : List AssetId} (h : assetsAt path = .ok p) (h' : assetsAt path = .ok q) :
    p = q := by rw [h] at h'; cases h'; rfl

theorem checkModifier_ok {st : Bool} {v : Nat} {m : Modifier} :
    checkModifier st v m = .ok () ↔ ¬ (st = true ∧ m ≠ .view) ∧ (m = .payable ∨ v = 0) := by
  simp only [checkModifier, bind_ok, ensure_ok]
  constructor
  · rintro ⟨_, h1, h2⟩; exact ⟨h1, h2⟩
  · rintro ⟨h1, h2⟩; exact ⟨(), h1, h2⟩

theorem transfer_zero (L : Ledger) (a : AssetId) (x y : Acct) : L.transfer a x y 0 = .ok L := by
  have hs : (L.transfer a x y 0).isOk = true := by unfold Ledger.transfer; rw [if_pos (Nat.zero_le _)]; rfl
  cases h : L.transfer a x y 0 with
  | error e => rw [h] at hs; cases hs
  | ok L' =>
    obtain ⟨_, h1, h2, h3⟩ := Ledger.transfer_ok h
    have : L'.bal = L.bal := by
      funext t z
      by_cases ht : t = a
      · subst ht
        have := h3 z
        split at this <;> split at this <;> omega
      · rw [h2 t ht]
    obtain ⟨b, i⟩ := L'
    obtain ⟨b', i'⟩ := L
    cases h1; cases this; rfl

theorem payValue_zero (s : Dex.St) (who : Acct) : payValue s who 0 = .ok s := rfl

/-- The effect of moving the value: the caller pays the value, rounded up to drops, to the contract. -/
theorem payValue_ok {s s' : Dex.St} {who : Acct} {v : Nat} (h : payValue s who v = .ok s') :
    ∃ drops, v ≤ drops * 1000000000000 ∧ drops * 1000000000000 < v + 1000000000000 ∧
      ∃ L, s.led.transfer xrp who dexAddr drops = .ok L ∧ s' = { s with led := L } := by
  unfold payValue at h
  split at h
  · rename_i hv
    cases h
    refine ⟨0, by omega, by omega, s.led, ?_, rfl⟩
    exact transfer_zero _ _ _ _
  · simp only [bind_ok, ensure_ok, pure_ok] at h
    obtain ⟨_, _, d, hd, L, hL, rfl⟩ := h
    obtain ⟨_, h1, h2⟩ := EvmMoney.toDrops_ok.mp hd
    exact ⟨d, h1, h2, L, hL, rfl⟩

theorem call_ok {c : Dex.Cfg} {s : Dex.St} {k : Call} {r : Dex.St × List Nat} (h : call c s k = .ok r) :
    ∃ s1, payValue s k.who k.value = .ok s1 ∧ ¬ (k.isStatic = true ∧ modifierOf k.input ≠ .view) ∧
      (modifierOf k.input = .payable ∨ k.value = 0) ∧ dispatch c s1 k.who k.value k.input = .ok r := by
  simp only [call, bind_ok] at h
  obtain ⟨s1, h1, _, h2, h3⟩ := h
  obtain ⟨a, b⟩ := checkModifier_ok.mp h2
  exact ⟨s1, h1, a, b, h3⟩

/-- A function that is not payable runs in the state the call was made in. -/
theorem call_free {c : Dex.Cfg} {s : Dex.St} {k : Call} {r : Dex.St × List Nat} (h : call c s k = .ok r)
    (hm : modifierOf k.input ≠ .payable) : k.value = 0 ∧ dispatch c s k.who 0 k.input = .ok r := by
  obtain ⟨s1, h1, _, h2, h3⟩ := call_ok h
  have hv : k.value = 0 := h2.resolve_left hm
  rw [hv] at h1 h3
  cases h1
  exact ⟨hv, h3⟩

theorem supply_ok {c : Dex.Cfg} {s s' : Dex.St} {who dst : Acct} {i m dl : Nat} {path : List AssetId} {out : List Nat}
    (h : supply c s who i m path dst dl = .ok (s', out)) :
    Dex.step c s (.swapSupply who i m path dst (some dl)) = .ok s' ∧ Dex.getAmountsOut c s i path = .ok out := by
  simp only [supply, bind_ok, pure_ok, Prod.mk.injEq] at h
  obtain ⟨s1, h1, o, h2, rfl, rfl⟩ := h
  exact ⟨h1, h2⟩

theorem target_ok {c : Dex.Cfg} {s s' : Dex.St} {who dst : Acct} {i m dl : Nat} {path : List AssetId} {out : List Nat}
    (h : target c s who i m path dst dl = .ok (s', out)) :
    Dex.step c s (.swapTarget who i m path dst (some dl)) = .ok s' ∧ Dex.getAmountsIn c s i path = .ok out := by
  simp only [target, bind_ok, pure_ok, Prod.mk.injEq] at h
  obtain ⟨s1, h1, o, h2, rfl, rfl⟩ := h
  exact ⟨h1, h2⟩

theorem sell_ok {c : Dex.Cfg} {s s' : Dex.St} {who dst : Acct} {i m dl : Nat} {path : List Nat} {out : List Nat}
    (h : sell c s who i m path dst dl = .ok (s', out)) :
    i < U128 ∧ m < U128 ∧ dl < U32 ∧ ∃ p, assetsAt path = .ok p ∧
      Dex.step c s (.swapSupply who i m p dst (some dl)) = .ok s' ∧ Dex.getAmountsOut c s i p = .ok out := by
  simp only [sell, bind_ok, toBalance_ok, toBlock_ok] at h
  obtain ⟨p, hp, _, ⟨hi, rfl⟩, _, ⟨hm, rfl⟩, _, ⟨hd, rfl⟩, h⟩ := h
  obtain ⟨h1, h2⟩ := supply_ok h
  exact ⟨hi, hm, hd, p, hp, h1, h2⟩

theorem buy_ok {c : Dex.Cfg} {s s' : Dex.St} {who dst : Acct} {o m dl : Nat} {path : List Nat} {out : List Nat}
    (h : buy c s who o m path dst dl = .ok (s', out)) :
    o < U128 ∧ m < U128 ∧ dl < U32 ∧ ∃ p, assetsAt path = .ok p ∧
      Dex.step c s (.swapTarget who o m p dst (some dl)) = .ok s' ∧ Dex.getAmountsIn c s o p = .ok out := by
  simp only [buy, bind_ok, toBalance_ok, toBlock_ok] at h
  obtain ⟨p, hp, _, ⟨hi, rfl⟩, _, ⟨hm, rfl⟩, _, ⟨hd, rfl⟩, h⟩ := h
  obtain ⟨h1, h2⟩ := target_ok h
  exact ⟨hi, hm, hd, p, hp, h1, h2⟩

theorem add_ok {c : Dex.Cfg} {s s' : Dex.St} {who dst : Acct} {a b : AssetId} {da db ma mb dl : Nat} {out : List Nat}
    (h : add c s who a b da db ma mb dst dl = .ok (s', out)) :
    da < U128 ∧ db < U128 ∧ ma < U128 ∧ mb < U128 ∧ dl < U32 ∧ ∃ ev,
      Dex.addLiquidity c s who a b da db ma mb dst (some dl) = .ok (s', ev) ∧ out = addOut a b ev := by
  simp only [add, bind_ok, toBalance_ok, toBlock_ok, pure_ok] at h
  obtain ⟨_, ⟨h1, rfl⟩, _, ⟨h2, rfl⟩, _, ⟨h3, rfl⟩, _, ⟨h4, rfl⟩, _, ⟨h5, rfl⟩, ⟨t, ev⟩, h6, e⟩ := h
  cases e
  exact ⟨h1, h2, h3, h4, h5, ev, h6, rfl⟩

theorem remove_ok {s s' : Dex.St} {who dst : Acct} {a b : AssetId} {l ma mb dl : Nat} {out : List Nat}
    (h : remove s who a b l ma mb dst dl = .ok (s', out)) :
    l < U128 ∧ ma < U128 ∧ mb < U128 ∧ dl < U32 ∧ ∃ ev,
      Dex.removeLiquidity s who a b l ma mb dst (some dl) = .ok (s', ev) ∧ out = removeOut a b ev := by
  simp only [remove, bind_ok, toBalance_ok, toBlock_ok, pure_ok] at h
  obtain ⟨_, ⟨h1, rfl⟩, _, ⟨h2, rfl⟩, _, ⟨h3, rfl⟩, _, ⟨h4, rfl⟩, ⟨t, ev⟩, h6, e⟩ := h
  cases e
  exact ⟨h1, h2, h3, h4, ev, h6, rfl⟩

/-- Every function is one operation of the exchange signed by the caller, or changes nothing. -/
theorem dispatch_native {c : Dex.Cfg} {s s' : Dex.St} {who : Acct} {v : Nat} {i : Input} {out : List Nat}
    (h : dispatch c s who v i = .ok (s', out)) :
    s' = s ∨ ∃ op, op.signer = some who ∧ Dex.step c s op = .ok s' := by
  cases i with
  | addLiquidity ta tb da db ma mb dst dl =>
    simp only [dispatch, bind_ok, okOr_ok] at h
    obtain ⟨a, _, b, _, h⟩ := h
    obtain ⟨_, _, _, _, _, ev, h, _⟩ := add_ok h
    exact .inr ⟨.add who a b da db ma mb dst (some dl), rfl, by simp only [Dex.step, h, Except.map]⟩
  | addLiquidityETH t d m me dst dl =>
    simp only [dispatch, bind_ok, okOr_ok] at h
    obtain ⟨a, _, h⟩ := h
    obtain ⟨_, _, _, _, _, ev, h, _⟩ := add_ok h
    exact .inr ⟨.add who a xrp d v m me dst (some dl), rfl, by simp only [Dex.step, h, Except.map]⟩
  | removeLiquidity ta tb l ma mb dst dl =>
    simp only [dispatch, bind_ok, okOr_ok] at h
    obtain ⟨a, _, b, _, h⟩ := h
    obtain ⟨_, _, _, _, ev, h, _⟩ := remove_ok h
    exact .inr ⟨.remove who a b l ma mb dst (some dl), rfl, by simp only [Dex.step, h, Except.map]⟩
  | removeLiquidityETH t l m me dst dl =>
    simp only [dispatch, bind_ok, okOr_ok] at h
    obtain ⟨a, _, h⟩ := h
    obtain ⟨_, _, _, _, ev, h, _⟩ := remove_ok h
    exact .inr ⟨.remove who a xrp l m me dst (some dl), rfl, by simp only [Dex.step, h, Except.map]⟩
  | swapExactTokensForTokens i m path dst dl =>
    obtain ⟨_, _, _, p, _, h, _⟩ := sell_ok h
    exact .inr ⟨_, rfl, h⟩
  | swapTokensForExactTokens o m path dst dl =>
    obtain ⟨_, _, _, p, _, h, _⟩ := buy_ok h
    exact .inr ⟨_, rfl, h⟩
  | swapExactETHForTokens m path dst dl =>
    obtain ⟨_, _, _, p, _, h, _⟩ := sell_ok h
    exact .inr ⟨_, rfl, h⟩
  | swapTokensForExactETH o m path dst dl =>
    obtain ⟨_, _, _, p, _, h, _⟩ := buy_ok h
    exact .inr ⟨_, rfl, h⟩
  | swapExactTokensForETH i m path dst dl =>
    obtain ⟨_, _, _, p, _, h, _⟩ := sell_ok h
    exact .inr ⟨_, rfl, h⟩
  | swapETHForExactTokens o path dst dl =>
    obtain ⟨_, _, _, p, _, h, _⟩ := buy_ok h
    exact .inr ⟨_, rfl, h⟩
  | quote a ra rb =>
    simp only [dispatch, bind_ok, pure_ok, Prod.mk.injEq] at h
    obtain ⟨_, _, _, _, _, _, rfl, _⟩ := h
    exact .inl rfl
  | getAmountIn o ri ro =>
    simp only [dispatch, bind_ok, pure_ok, Prod.mk.injEq] at h
    obtain ⟨_, _, _, _, _, _, _, _, rfl, _⟩ := h
    exact .inl rfl
  | getAmountOut o ri ro =>
    simp only [dispatch, bind_ok, pure_ok, Prod.mk.injEq] at h
    obtain ⟨_, _, _, _, _, _, _, _, rfl, _⟩ := h
    exact .inl rfl
  | getAmountsIn o path =>
    simp only [dispatch, bind_ok, pure_ok, Prod.mk.injEq] at h
    obtain ⟨_, _, _, _, _, _, rfl, _⟩ := h
    exact .inl rfl
  | getAmountsOut o path =>
    simp only [dispatch, bind_ok, pure_ok, Prod.mk.injEq] at h
    obtain ⟨_, _, _, _, _, _, rfl, _⟩ := h
    exact .inl rfl

theorem dexAddr_keyed : Keyed dexAddr := by
  refine ⟨by decide, fun p e => ?_⟩
  unfold dexAddr poolAddr at e
  simp only [Nat.reducePow, Nat.reduceMul] at e
  change (_ : Nat) = (_ : Nat) at e
  omega

/-- Moving the value of a call is an ordinary transfer signed by the caller. -/
theorem payValue_reach {c : Dex.Cfg} {s s' : Dex.St} {who : Acct} {v : Nat} (hr : Dex.Reach c s) (hw : Keyed who)
    (h : payValue s who v = .ok s') : Dex.Reach c s' := by
  obtain ⟨d, _, _, L, hL, rfl⟩ := payValue_ok h
  refine hr.step (op := .transfer who xrp dexAddr d) (fun w e => by cases e; exact hw) ?_
  simp only [Dex.step, Dex.directTransfer, bind_ok, pure_ok]
  exact ⟨L, hL, rfl⟩

theorem Reach.native {c : Dex.Cfg} {s : Dex.St} (h : Reach c s) : Dex.Reach c s := by
  induction h with
  | init hg => exact .init hg
  | step hr hk hs ih =>
    rename_i s s' op
    cases op with
    | native op => exact ih.step (fun w hw => (hk w hw).1) hs
    | contract k =>
      obtain ⟨out, hs⟩ := Dex.map_fst_ok hs
      obtain ⟨s1, h1, _, _, h2⟩ := call_ok hs
      have hw := (hk k.who rfl).1
      have hr1 := payValue_reach ih hw h1
      rcases dispatch_native h2 with rfl | ⟨op, ho, h2⟩
      · exact hr1
      · refine hr1.step (fun w e => ?_) h2
        rw [ho] at e; cases e; exact hw

end Verif.DexEvm
