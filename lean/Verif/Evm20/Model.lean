import Verif.Erc20.Model

/-!
# The contract of an asset (`evm-precompiles/erc20`), with its logs

Line numbers refer to `/repo/evm-precompiles/erc20/src/lib.rs` (prefix `pre`), `/repo/pallet/assets-ext/src/lib.rs` (prefix
`ext`) and `/repo/pallet/token-approvals/src/lib.rs` (prefix `app`). In contrast to `Verif.Erc20` balances have the minimum
and the locks of `pallet-assets` and `pallet-balances`, and calls have logs, answers, a value and may be static. The name,
symbol and decimals of an asset, gas and the decoding of arguments are not modelled. A failing call is rolled back by the
EVM.
-/

namespace Verif.Evm20

/-- An asset of `pallet-assets`, or the native token of `pallet-balances` (dependencies).  -/
structure Asset where
  /-- `asset_exists` (ext:346-352) -/
  live : Bool
  /-- `T::NativeAssetId` -/
  native : Bool
  /-- `minimum_balance`: an account holds nothing or at least this; `1` unless the creator of the asset chose otherwise
  (ext:640-646), and `1` for the native token (runtime/src/constants.rs) -/
  min : Nat
  supply : Nat
  bal : Acct → Nat
  /-- what an account cannot move: staked or vesting native tokens; everything if the account is frozen -/
  lock : Acct → Nat

/-- The balances of assets and app:75-83, the table of allowances. -/
structure St where
  asset : AssetId → Asset
  /-- app:75-83 `ERC20Approvals` -/
  allow : Acct → AssetId → Acct → Option Nat

/-- ext:389-411 `reducible_balance` with `Expendable` and `Polite`. -/
def reducible (t : Asset) (w : Acct) : Nat := t.bal w - t.lock w

/-- What is left below the minimum when `x` leaves an account goes with it (`prep_debit` of `pallet-assets`). -/
def dust (t : Asset) (w : Acct) (x : Nat) : Nat := if x ≠ 0 ∧ t.bal w - x < t.min then t.bal w - x else 0

/-- ext:485-513 `transfer` with `Expendable`: `Mutate::transfer` of `fungibles`, which asks `can_withdraw` and `can_deposit`,
then `decrease_balance`, `increase_balance`. As ext:500-501 says, nothing can be sent to an account that does not exist,
unless the asset is native. The supply is left as it is. -/
def move (t : Asset) (src dst : Acct) (x : Nat) : Except Err Asset := do
  ensure (x ≤ reducible t src) "BalanceLow"
  ensure (t.bal dst ≠ 0 ∨ t.min ≤ x ∨ (t.native = true ∧ x = 0)) "BelowMinimum"
  ensure (src = dst ∨ t.bal dst + x < U128) "Overflow"
  if src = dst then pure t
  else
    let b1 := upd t.bal src (t.bal src - (x + dust t src x))
    pure { t with bal := upd b1 dst (t.bal dst + x) }

/-- The call: asset addressed, caller, XRP attached in wei, static or not. -/
structure Msg where
  asset : AssetId
  caller : Acct
  value : Nat
  static : Bool

/-- pre:41-53 `Action`, without `name`, `symbol` and `decimals`; amounts are `uint256`. -/
inductive Call where
  | totalSupply
  | balanceOf (w : Acct)
  | allowance (o p : Acct)
  | transfer (dst : Acct) (x : Nat)
  | approve (p : Acct) (x : Nat)
  | transferFrom (src dst : Acct) (x : Nat)
  deriving DecidableEq

/-- The logs of the contract: `Transfer` and `Approval` (pre:36-39). -/
inductive Log where
  | transfer (src dst : Acct) (x : Nat)
  | approval (o p : Acct) (x : Nat)
  deriving DecidableEq

/-- The answers of the contract: `uint256` or `bool`. -/
inductive Out where
  | num (n : Nat)
  | flag (b : Bool)
  deriving DecidableEq

/-- pre:100-105: the functions that are let through in a static call. -/
def view : Call → Bool
  | .approve _ _ => false
  | .transfer _ _ => false
  | .transferFrom _ _ _ => false
  | _ => true

/-- The table of allowances with one entry changed. -/
def setAllow (s : St) (o : Acct) (a : AssetId) (p : Acct) (v : Option Nat) : St :=
  { s with allow := upd s.allow o (upd (s.allow o) a (upd (s.allow o a) p v)) }

/-- One asset changed. -/
def setAsset (s : St) (a : AssetId) (t : Asset) : St := { s with asset := upd s.asset a t }

/-- pre:229-264 `approve`, app:168-179 `erc20_approval`. -/
def approve (s : St) (m : Msg) (p : Acct) (x : Nat) : Except Err (St × List Log × Out) := do
  ensure (m.caller ≠ p) "CallerNotOperator"
  pure (setAllow s m.caller m.asset p (some (Erc20.sat x)), [.approval m.caller p (Erc20.sat x)], .flag true)

/-- pre:266-301 `transfer`, ext:255-276. -/
def transfer (s : St) (m : Msg) (dst : Acct) (x : Nat) : Except Err (St × List Log × Out) := do
  let t ← move (s.asset m.asset) m.caller dst (Erc20.sat x)
  pure (setAsset s m.asset t, [.transfer m.caller dst (Erc20.sat x)], .flag true)

/-- pre:303-361 `transfer_from`, app:185-203 `erc20_update_approval`. -/
def transferFrom (s : St) (m : Msg) (src dst : Acct) (x : Nat) : Except Err (St × List Log × Out) := do
  let v ← okOr (s.allow src m.asset m.caller) "CallerNotApproved"
  ensure (Erc20.sat x ≤ v) "ApprovedAmountTooLow"
  let s1 := setAllow s src m.asset m.caller (if v - Erc20.sat x = 0 then none else some (v - Erc20.sat x))
  let t ← move (s1.asset m.asset) src dst (Erc20.sat x)
  pure (setAsset s1 m.asset t, [.transfer src dst (Erc20.sat x)], .flag true)

/-- pre:109-119. -/
def run (s : St) (m : Msg) : Call → Except Err (St × List Log × Out)
  | .totalSupply => .ok (s, [], .num (s.asset m.asset).supply)
  | .balanceOf w => .ok (s, [], .num (reducible (s.asset m.asset) w))
  | .allowance o p => .ok (s, [], .num ((s.allow o m.asset p).getD 0))
  | .transfer dst x => transfer s m dst x
  | .approve p x => approve s m p x
  | .transferFrom src dst x => transferFrom s m src dst x

/-- pre:84-125 `execute` with /repo/evm-precompiles/utils/src/modifier.rs:36-50. If there is no such asset the address is
that of an ordinary account (`none` there, an error here). -/
def execute (s : St) (m : Msg) (k : Call) : Except Err (St × List Log × Out) := do
  ensure ((s.asset m.asset).live = true) "no such contract"
  ensure (m.static = false ∨ view k = true) "Can't call non-static function in static context"
  ensure (m.value = 0) "Function is not payable"
  run s m k

/-- ext:235-252 `mint`: `pallet_assets::mint`, by the owner of the asset; also what the other pallets create (`mint_into`).
The native token grows by staking rewards only. -/
def mint (t : Asset) (w : Acct) (x : Nat) : Except Err Asset := do
  ensure (t.live = true) "Unknown"
  ensure (t.bal w ≠ 0 ∨ t.min ≤ x) "BelowMinimum"
  ensure (t.supply + x < U128) "Overflow"
  pure { t with
    bal := upd t.bal w (t.bal w + x)
    supply := t.supply + x }

/-- ext:278-297 `burn_from`: `pallet_assets::burn`, by the owner of the asset; also what the other pallets destroy. What it
takes, dust included, leaves the supply. -/
def burn (t : Asset) (w : Acct) (x : Nat) : Except Err Asset := do
  ensure (t.live = true) "Unknown"
  ensure (x ≤ reducible t w) "BalanceLow"
  pure { t with
    bal := upd t.bal w (t.bal w - (x + dust t w x))
    supply := t.supply - (x + dust t w x) }

/-- ext:635-670 `create` with a new number (`Verif.Dex`-independent: C27). -/
def create (s : St) (a : AssetId) (least : Option Nat) : Except Err St := do
  ensure ((s.asset a).live = false ∧ (s.asset a).native = false) "InUse"
  ensure (least.getD 1 ≠ 0) "MinBalanceZero"
  pure (setAsset s a {
    live := true
    native := false
    min := least.getD 1
    supply := 0
    bal := fun _ => 0
    lock := fun _ => 0 })

/-- What happens: calls of contracts, and everything else that changes balances. -/
inductive Op where
  | call (m : Msg) (k : Call)
  | mint (a : AssetId) (w : Acct) (x : Nat)
  | burn (a : AssetId) (w : Acct) (x : Nat)
  /-- a transfer that is not made through the contract, as of an extrinsic or another pallet -/
  | pay (a : AssetId) (src dst : Acct) (x : Nat)
  /-- tokens are locked or freed, accounts frozen or thawed -/
  | lock (a : AssetId) (w : Acct) (n : Nat)
  | create (a : AssetId) (least : Option Nat)

/-- What an operation does, with the logs, each with the contract that makes it. -/
def apply (s : St) : Op → Except Err (St × List (AssetId × Log))
  | .call m k => do
    let r ← execute s m k
    pure (r.1, r.2.1.map (fun l => (m.asset, l)))
  | .mint a w x => do
    let t ← mint (s.asset a) w x
    pure (setAsset s a t, [])
  | .burn a w x => do
    let t ← burn (s.asset a) w x
    pure (setAsset s a t, [])
  | .pay a src dst x => do
    ensure ((s.asset a).live = true) "Unknown"
    let t ← move (s.asset a) src dst x
    pure (setAsset s a t, [])
  | .lock a w n => .ok (setAsset s a { s.asset a with lock := upd (s.asset a).lock w n }, [])
  | .create a least => do
    let s1 ← create s a least
    pure (s1, [])

/-- The chain: its state and all logs. -/
structure World where
  st : St
  logs : List (AssetId × Log)

/-- One operation; a failing one has no effect. -/
def next (w : World) (op : Op) : World :=
  match apply w.st op with
  | .ok r => ⟨r.1, w.logs ++ r.2⟩
  | .error _ => w

/-- A history. -/
def exec (w : World) (ops : List Op) : World := ops.foldl next w

/-- The genesis: the native token with minimum `1`, everything else to come. -/
def Genesis (s : St) : Prop :=
  (∀ o a p, s.allow o a p = none) ∧
  ∀ a, (s.asset a).live = (s.asset a).native ∧ 1 ≤ (s.asset a).min ∧ ((s.asset a).native = true → (s.asset a).min = 1) ∧
    TotalIs (s.asset a).bal (s.asset a).supply ∧ (s.asset a).supply < U128

/-- Histories from genesis. -/
inductive Reach : World → Prop
  | start {s : St} : Genesis s → Reach ⟨s, []⟩
  | step {w : World} (op : Op) : Reach w → Reach (next w op)

end Verif.Evm20
