import Verif.Dex.Model

/-!
# The events of the exchange

What /repo/pallet/dex/src/lib.rs deposits with `deposit_event`, per operation, as a function of the state the operation finds.
Events of an operation that fails are rolled back with it. The precompile and the fee proxy call the same functions
(`do_swap_with_exact_supply` and so on), which deposit the same events. `AddProvision` and `ProvisioningToEnabled` are declared
but never deposited. Events of other pallets (transfers and minting of tokens) are not among them.
-/

namespace Verif.Dex

/-- lib.rs:186-215 `Event`. -/
inductive Ev where
  | feeTo (f : Option Acct)
  | added (who : Acct) (a : AssetId) (x : Nat) (b : AssetId) (y : Nat) (liq : Nat) (dst : Acct)
  | removed (who : Acct) (a : AssetId) (x : Nat) (b : AssetId) (y : Nat) (liq : Nat) (dst : Acct)
  | swap (who : Acct) (path : List AssetId) (supply target : Nat) (dst : Acct)
  | enable (p : Pair)
  | disable (p : Pair)
deriving DecidableEq

/-- lib.rs:719-727: the event of a deposit, in pair order. -/
def addEv (who : Acct) (p : Pair) (dst : Acct) : Except Err (St × Added) → Option Ev
  | .ok r => some (.added who p.1 r.2.amt0 p.2 r.2.amt1 r.2.liq dst)
  | .error _ => none

/-- lib.rs:840-848: the event of a withdrawal, in pair order. -/
def removeEv (who : Acct) (p : Pair) (dst : Acct) : Except Err (St × Removed) → Option Ev
  | .ok r => some (.removed who p.1 r.2.amt0 p.2 r.2.amt1 r.2.liq dst)
  | .error _ => none

/-- lib.rs:1223-1229: the event of a swap with exact supply. -/
def supplyEv (who : Acct) (path : List AssetId) (i : Nat) (dst : Acct) : Except Err (List Nat) → Option Ev
  | .ok amts => some (.swap who path i (amts.getLastD 0) dst)
  | .error _ => none

/-- lib.rs:1267: the event of a swap with exact target. -/
def targetEv (who : Acct) (path : List AssetId) (o : Nat) (dst : Acct) : Except Err (List Nat) → Option Ev
  | .ok amts => some (.swap who path (amts.headD 0) o dst)
  | .error _ => none

/-- The event of an operation that succeeds in state `s`. lib.rs:274 (`set_fee_to`), 473 (`reenable_trading_pair`), 506
(`disable_trading_pair`). Creation of a pair's liquidity token (lib.rs:539-574) has no event of its own. -/
def event (c : Cfg) (s : St) : Op → Option Ev
  | .swapSupply who i _ path dst _ => supplyEv who path i dst (getAmountsOut c s i path)
  | .swapTarget who o _ path dst _ => targetEv who path o dst (getAmountsIn c s o path)
  | .add who a b da db ma mb dst dl => addEv who (mkPair a b) dst (addLiquidity c s who a b da db ma mb dst dl)
  | .remove who a b l ma mb dst dl => removeEv who (mkPair a b) dst (removeLiquidity s who a b l ma mb dst dl)
  | .setFeeTo f => some (.feeTo f)
  | .reenable a b => some (.enable (mkPair a b))
  | .disable a b => some (.disable (mkPair a b))
  | .transfer .. | .createAsset .. | .mintAsset .. | .nextBlock => none

/-- Histories of operations that satisfy `P`, signed by accounts that can have a key, with the events they leave behind. -/
inductive Told (c : Cfg) (P : Op → Prop) (s : St) : St → List Ev → Prop where
  | refl : Told c P s s []
  | step {t u : St} {log : List Ev} {op : Op} : Told c P s t log → P op → (∀ w, op.signer = some w → Keyed w) →
      Dex.step c t op = .ok u → Told c P s u (log ++ (event c t op).toList)

/-- Run operations, skipping those that fail, and collect the events. -/
def runLog (c : Cfg) : List Op → St → St × List Ev
  | [], s => (s, [])
  | op :: ops, s =>
    match step c s op with
    | .ok t => ((runLog c ops t).1, (event c s op).toList ++ (runLog c ops t).2)
    | .error _ => runLog c ops s

end Verif.Dex
