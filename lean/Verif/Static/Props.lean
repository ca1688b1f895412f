import Verif.Static.Model
import Verif.MarketEvm.Offers
import Verif.Evm20.Props
import Verif.PegEvm.Props

/-! # C205: static calls of built-in contracts -/

namespace Verif.Static

open Verif

/-! ## The contracts that keep to it -/

/-- **C205** — the marketplace's contract: a static call changes nothing. -/
theorem C205_market {c : Market.Cfg} {s s' : Market.St} {caller : Acct} {value : Nat} {i : MarketEvm.Input}
    {a : MarketEvm.Answer} (h : MarketEvm.call c s true caller value i = .ok (s', a)) : s' = s ∧ value = 0 := by
  simp only [MarketEvm.call, DexEvm.checkModifier, bind_ok, ensure_ok] at h
  obtain ⟨_, ⟨_, h1, h2⟩, h3⟩ := h
  have hv : MarketEvm.isView i = true := by
    by_contra k
    rw [if_neg k] at h1
    exact h1 ⟨trivial, by decide⟩
  rw [if_pos hv] at h2
  refine ⟨?_, h2.resolve_left (by decide)⟩
  cases i <;> cases hv
  all_goals
    simp only [MarketEvm.run, bind_ok, pure_ok, Prod.mk.injEq] at h3
    obtain ⟨_, _, _, _, h3, _⟩ := h3
    exact h3.symm

/-- **C205** — the contract of an asset: a static call changes nothing and leaves no log. -/
theorem C205_erc20 {s s' : Evm20.St} {m : Evm20.Msg} {k : Evm20.Call} {l : List Evm20.Log} {o : Evm20.Out}
    (hst : m.static = true) (h : Evm20.execute s m k = .ok (s', l, o)) : s' = s ∧ l = [] ∧ m.value = 0 := by
  simp only [Evm20.execute, bind_ok, ensure_ok] at h
  obtain ⟨_, _, _, hv, _, h0, h⟩ := h
  have hv : Evm20.view k = true := hv.resolve_left (by rw [hst]; decide)
  cases k <;> cases hv
  all_goals
    cases h
    exact ⟨rfl, rfl, h0⟩

/-- **C205** — the bridge's contract cannot be called statically. -/
theorem C205_peg {c : Outbound.Cfg} {w : PegEvm.World} {k : PegEvm.Ctx} (hst : k.isStatic = true) :
    (∀ ben addr amount r, PegEvm.erc20Withdraw c w k ben addr amount ≠ .ok r) ∧
    ∀ ben addrs serials r, PegEvm.erc721Withdraw c w k ben addrs serials ≠ .ok r := by
  constructor
  · intro ben addr amount r h
    rw [(PegEvm.erc20_ok h).1] at hst
    cases hst
  · intro ben addrs serials r h
    rw [(PegEvm.erc721_ok h).1] at hst
    cases hst

example : (MarketEvm.call Market.cfg0 Market.g0 true 5 0 (.registerMarketplace 5 1000)).isOk = false ∧
    (MarketEvm.call Market.cfg0 Market.g0 false 5 0 (.registerMarketplace 5 1000)).isOk = true := by decide +kernel

/-! ## Futurepasses -/

open Futurepass

/-- The full claim: a static call of a futurepass or of the registrar leaves all futurepasses, delegates and balances alone. -/
def C205_full : Prop := ∀ (c : Cfg) (g s s' : St) (m : Acct) (a : Act), Reach c (NoKey c) g s →
  staticAct c s m a = .ok s' → s' = s

/-- **C205 fails** — in a static call a contract gives its futurepass away, renounces it, or removes a delegate. -/
theorem C205_futurepass_refuted : ¬ C205_full := by
  intro h
  have e := h Demo.cfg Demo.g0 Demo.d1 ((staticAct Demo.cfg Demo.d1 1 (.direct (.pass 1001 (.transferOwnership 5)))).toOption.getD
    Demo.d1) 1 (.direct (.pass 1001 (.transferOwnership 5))) Demo.reach1 (ok_getD (by decide +kernel))
  have e1 := congrArg (fun s : St => s.holder 5) e
  revert e1
  decide +kernel

/-- What else goes through: renouncing, registering and removing delegates, also through `proxyCall`. -/
example : (staticAct Demo.cfg Demo.d1 1 (.direct (.pass 1001 .renounceOwnership))).toOption.map (fun s => s.holder 1) =
      some none ∧
    (staticAct Demo.cfg Demo.d1 1 (.direct (.pass 1001 (.register 3 .any 100 77)))).toOption.map
      (fun s => (s.proxies 1001).map Def.who) = some [1, 3] ∧
    (staticAct Demo.cfg Demo.d2 1 (.proxied 1001 (.pass 1001 (.unregister 3)))).toOption.map
      (fun s => (s.proxies 1001).map Def.who) = some [1] := by decide +kernel

/-- **C205, proved in part** — a static call can do no more than a call with the same caller could; the registrar creates no
futurepass; and what is proxied to other contracts changes nothing. Missing: calls that arrive at a futurepass. -/
theorem C205_futurepass_partial {c : Cfg} {s s' : St} {m : Acct} {a : Act} (h : staticAct c s m a = .ok s') :
    s' = s ∨ (runAct c s m a = .ok s' ∧ ∃ fp sel, a = .direct (.pass fp sel) ∨ ∃ real, a = .proxied real (.pass fp sel)) := by
  cases a with
  | direct t =>
    cases t with
    | pass fp sel => exact .inr ⟨h, fp, sel, .inl rfl⟩
    | registrar o => cases h
    | other =>
      cases h
      exact .inl rfl
  | proxied real t =>
    simp only [staticAct, staticProxy, bind_ok, ensure_ok, okOr_ok] at h
    obtain ⟨b, h1, _, h2, d, h3, _, h4, ok, h5, _, h6, h7⟩ := h
    cases t with
    | pass fp sel =>
      refine .inr ⟨?_, fp, sel, .inr ⟨real, rfl⟩⟩
      simp only [runAct, evmProxy, bind_ok, ensure_ok, okOr_ok]
      exact ⟨b, h1, (), h2, d, h3, (), h4, ok, h5, (), h6, h7⟩
    | registrar o => cases h7
    | other =>
      cases h7
      exact .inl rfl

example : (staticAct Demo.cfg Demo.d1 2 (.direct (.registrar (some 2)))).isOk = false ∧
    (runAct Demo.cfg Demo.d1 2 (.direct (.registrar (some 2)))).isOk = true := by decide +kernel

end Verif.Static
