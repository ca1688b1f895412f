import Verif.Futurepass.Demo

/-!
# Static calls of the futurepass contracts

On top of `Verif.Futurepass`. The EVM (a dependency) tells a contract of the chain whether it runs in a static call; a call it
makes in turn is static if it is itself (`StackSubstateMetadata::spit_child`). What the contract does with this is up to it.
Line numbers: `evm` is /repo/evm-precompiles/futurepass/src/lib.rs, `reg` /repo/evm-precompiles/futurepass-registrar/src/lib.rs.
-/

namespace Verif.Static

open Verif Futurepass

/-- evm 142-175 `execute`: nothing is asked. reg 65-70: `create` is refused. Anything else is taken to change nothing. -/
def staticCall (c : Cfg) (s : St) (caller : Acct) : Target → Except Err St
  | .pass fp sel => evmCall c s caller (.pass fp sel)
  | .registrar _ => .error "Can't call non-static function in static context"
  | .other => .ok s

/-- evm 300-331 `proxy_call`, 338-583 `do_proxy` in a static call. -/
def staticProxy (c : Cfg) (s : St) (caller fp : Acct) (t : Target) : Except Err St := do
  let m ← evmManages t
  ensure (m = false ∨ s.holder caller = some fp) "NotFuturepassOwner"
  let d ← okOr (findProxy s fp caller none) "NotProxy"
  ensure (d.delay = 0) "Unannounced"
  let ok ← evmFilter d.ty t
  ensure (ok = true) "CallFiltered"
  staticCall c s fp t

/-- A contract makes a static call. -/
def staticAct (c : Cfg) (s : St) (caller : Acct) : Act → Except Err St
  | .direct t => staticCall c s caller t
  | .proxied fp t => staticProxy c s caller fp t

end Verif.Static
