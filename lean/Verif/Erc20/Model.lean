import Verif.Ledger

/-!
# The ERC-20 interface of an asset (`evm-precompiles/erc20`, `pallet/token-approvals`)

Line numbers refer to `/repo/evm-precompiles/erc20/src/lib.rs` (prefix `pre`) and `/repo/pallet/token-approvals/src/lib.rs`
(prefix `app`). Gas, logs and the decoding of arguments are not modelled. A failing call is rolled back by the EVM.
-/

namespace Verif.Erc20

/-- The balances and app:75-83, the table of allowances. -/
structure St where
  ledger : Ledger
  /-- app:75-83 `ERC20Approvals` -/
  allow : Acct → AssetId → Acct → Option Nat

/-- `U256::saturated_into::<Balance>` (pre:233, 274, 314). -/
def sat (x : Nat) : Nat := min x (U128 - 1)

/-- The allowance table with one entry changed. -/
def setAllow (s : St) (o : Acct) (a : AssetId) (p : Acct) (v : Option Nat) : St :=
  { s with allow := upd s.allow o (upd (s.allow o) a (upd (s.allow o a) p v)) }

/-- app:168-179 `erc20_approval`. -/
def approval (s : St) (o p : Acct) (a : AssetId) (x : Nat) : Except Err St := do
  ensure (o ≠ p) "CallerNotOperator"
  pure (setAllow s o a p (some x))

/-- app:185-203 `erc20_update_approval`. -/
def updateApproval (s : St) (o p : Acct) (a : AssetId) (x : Nat) : Except Err St := do
  let v ← okOr (s.allow o a p) "CallerNotApproved"
  ensure (x ≤ v) "ApprovedAmountTooLow"
  pure (setAllow s o a p (if v - x = 0 then none else some (v - x)))

/-- pre:223-258 `approve`. -/
def approve (s : St) (caller : Acct) (a : AssetId) (spender : Acct) (x : Nat) : Except Err St :=
  approval s caller spender a (sat x)

/-- pre:260-298 `transfer`. -/
def transfer (s : St) (caller : Acct) (a : AssetId) (rcv : Acct) (x : Nat) : Except Err St := do
  let L ← s.ledger.transfer a caller rcv (sat x)
  pure { s with ledger := L }

/-- pre:300-358 `transfer_from`. -/
def transferFrom (s : St) (caller : Acct) (a : AssetId) (src rcv : Acct) (x : Nat) : Except Err St := do
  let s1 ← updateApproval s src caller a (sat x)
  let L ← s1.ledger.transfer a src rcv (sat x)
  pure { s1 with ledger := L }

/-- pre:196-221 `allowance`. -/
def allowance (s : St) (o : Acct) (a : AssetId) (p : Acct) : Nat := (s.allow o a p).getD 0

/-- Calls of the interface, and anything other pallets do to the balances. -/
inductive Op where
  | approve (caller : Acct) (a : AssetId) (spender : Acct) (x : Nat)
  | transfer (caller : Acct) (a : AssetId) (rcv : Acct) (x : Nat)
  | transferFrom (caller : Acct) (a : AssetId) (src rcv : Acct) (x : Nat)
  | ledger (L : Ledger)

/-- The functions of the contract (pre:229-361), each defined above. -/
def step (s : St) : Op → Except Err St
  | .approve w a p x => approve s w a p x
  | .transfer w a r x => transfer s w a r x
  | .transferFrom w a o r x => transferFrom s w a o r x
  | .ledger L => .ok { s with ledger := L }

/-- Every operation of the list succeeds, one after the other. -/
inductive Run : St → List Op → St → Prop
  | nil {s : St} : Run s [] s
  | cons {s s1 s' : St} {op : Op} {ops : List Op} : step s op = .ok s1 → Run s1 ops s' → Run s (op :: ops) s'

/-- Run operations; `none` if one fails. -/
def exec (s : St) : List Op → Option St
  | [] => some s
  | op :: ops => match step s op with
    | .ok s1 => exec s1 ops
    | .error _ => none

theorem exec_run : ∀ (ops : List Op) {s s' : St}, exec s ops = some s' → Run s ops s'
  | [], _, _, h => by cases h; exact .nil
  | op :: ops, s, s', h => by
    unfold exec at h
    cases he : step s op with
    | ok s1 => rw [he] at h; exact .cons he (exec_run ops h)
    | error _ => rw [he] at h; cases h

end Verif.Erc20
