import Verif.Evm20.Model
import Verif.Nft.Model

/-!
# Assets: creating, minting, burning, managing and destroying them

Line numbers with the prefix `ext` refer to `/repo/pallet/assets-ext/src/lib.rs`. Its calls sit on those of `pallet-assets` and
`pallet-balances` (dependencies, as documented there), which users can make as well: the filter of the runtime
(/repo/runtime/src/lib.rs:231-260) stops `Assets::create` only. Balances with their minimum and locks are those of `Verif.Evm20`.
Not modelled: freezing and approvals of `pallet-assets`, root's `force_*` calls, balances that other pallets move.
-/

namespace Verif.Asset

/-- An asset with its roles (`AssetDetails`, `AssetMetadata` of `pallet-assets`). -/
structure Info where
  owner : Acct
  issuer : Acct
  admin : Acct
  freezer : Acct
  dec : Nat
  /-- what the owner has reserved for the metadata -/
  metaDeposit : Nat
  /-- `AssetStatus::Destroying` -/
  destroying : Bool
  data : Evm20.Asset

/-- `T::NativeAssetId`, `T::ParachainId`. -/
structure Cfg where
  native : Nat
  chain : Nat

/-- The storage of the pallet (/repo/pallet/assets-ext/src/lib.rs:131-149), the table `Asset` of `pallet-assets` (dependency) and the
balances of the native token. -/
structure St where
  info : Nat → Option Info
  /-- ext:140-142 `NextAssetId` -/
  next : Nat
  /-- the native token: free and reserved -/
  free : Acct → Nat
  reserved : Acct → Nat
  /-- ext:144-149 `AssetDeposit` -/
  deposit : Nat
  /-- ghost: what each account has paid for creating assets -/
  paid : Acct → Nat

/-- `AssetsStringLimit` (/repo/runtime/src/lib.rs:390). -/
def textLimit : Nat := 50

/-- `MetadataDepositBase`, `MetadataDepositPerByte` (/repo/runtime/src/lib.rs:393-394). -/
def metaPrice (name symbol : Nat) : Nat := 68 + (name + symbol)

/-- ext:691-719 `create`: `fungibles::Create::create` makes the asset with a deposit of zero; all roles go to the owner. -/
def newInfo (owner least dec : Nat) : Info where
  owner := owner
  issuer := owner
  admin := owner
  freezer := owner
  dec := dec
  metaDeposit := 0
  destroying := false
  data := {
    live := true
    native := false
    min := least
    supply := 0
    bal := fun _ => 0
    lock := fun _ => 0 }

/-- ext:234-252 `create_asset`, 691-744 `create_with_metadata`; the name and the symbol by their lengths. `force_set_metadata` keeps the
deposit for the metadata, which is zero. The hook for EVM code is not modelled. -/
def create (c : Cfg) (s : St) (who : Acct) (name symbol dec : Nat) (least : Option Nat) (owner : Option Acct) : Except Err St := do
  ensure (dec ≤ 18) "DecimalsTooHigh"
  ensure (s.deposit ≤ s.free who) "InsufficientBalance"
  let id ← okOr (Nft.nextAssetUuid s.next c.chain) "NoAvailableIds"
  ensure (s.info id = none) "InUse"
  ensure (least.getD 1 ≠ 0) "MinBalanceZero"
  ensure (name ≤ textLimit ∧ symbol ≤ textLimit) "BadMetadata"
  pure { s with
    info := upd s.info id (some (newInfo (owner.getD who) (least.getD 1) dec))
    next := s.next + 1
    free := upd s.free who (s.free who - s.deposit)
    reserved := upd s.reserved who (s.reserved who + s.deposit)
    paid := upd s.paid who (s.paid who + s.deposit) }

/-- ext:256-270 `mint`; `pallet_assets::mint` does nothing for zero. -/
def mint (c : Cfg) (s : St) (who : Acct) (id : Nat) (w : Acct) (x : Nat) : Except Err St := do
  ensure (id ≠ c.native) "NoPermission"
  if x = 0 then pure s
  else
    let i ← okOr (s.info id) "Unknown"
    ensure (i.destroying = false) "AssetNotLive"
    ensure (i.issuer = who) "NoPermission"
    let d ← Evm20.mint i.data w x
    pure { s with info := upd s.info id (some { i with data := d }) }

/-- ext:300-314 `burn_from`; `pallet_assets::burn` does nothing for zero and takes what there is if that is less. -/
def burnFrom (c : Cfg) (s : St) (who : Acct) (id : Nat) (w : Acct) (x : Nat) : Except Err St := do
  ensure (id ≠ c.native) "NoPermission"
  let i ← okOr (s.info id) "Unknown"
  ensure (i.destroying = false) "AssetNotLive"
  if x = 0 then pure s
  else
    ensure (i.admin = who) "NoPermission"
    ensure (i.data.bal w ≠ 0) "NoAccount"
    let d ← Evm20.burn i.data w (min x (Evm20.reducible i.data w))
    pure { s with info := upd s.info id (some { i with data := d }) }

/-- ext:274-295 `transfer`. -/
def transfer (c : Cfg) (s : St) (who : Acct) (id : Nat) (dst : Acct) (x : Nat) (keep : Bool) : Except Err St :=
  if id = c.native then do
    ensure (x ≤ s.free who) "InsufficientBalance"
    ensure (keep = true → 1 + x ≤ s.free who) "InsufficientBalance"
    pure { s with free := Ledger.move s.free who dst x }
  else do
    let i ← okOr (s.info id) "Unknown"
    ensure (i.destroying = false) "AssetNotLive"
    ensure (keep = true → i.data.min + x ≤ i.data.bal who) "NotExpendable"
    let d ← Evm20.move i.data who dst x
    pure { s with info := upd s.info id (some { i with data := d }) }

/-- `pallet_assets::set_team`. -/
def setTeam (s : St) (who : Acct) (id issuer admin freezer : Nat) : Except Err St := do
  let i ← okOr (s.info id) "Unknown"
  ensure (i.destroying = false) "AssetNotLive"
  ensure (i.owner = who) "NoPermission"
  pure { s with info := upd s.info id (some { i with
    issuer := issuer
    admin := admin
    freezer := freezer }) }

/-- `pallet_assets::transfer_ownership`: what is reserved for the metadata goes along. -/
def transferOwnership (s : St) (who : Acct) (id : Nat) (new : Acct) : Except Err St := do
  let i ← okOr (s.info id) "Unknown"
  ensure (i.destroying = false) "AssetNotLive"
  ensure (i.owner = who) "NoPermission"
  pure { s with
    info := upd s.info id (some { i with owner := new })
    reserved := Ledger.move s.reserved who new i.metaDeposit }

/-- `pallet_assets::set_metadata`: any decimals of eight bits; the owner reserves, or gets back, the difference. -/
def setMetadata (s : St) (who : Acct) (id name symbol dec : Nat) : Except Err St := do
  ensure (dec < 256) "not a u8"
  ensure (name ≤ textLimit ∧ symbol ≤ textLimit) "BadMetadata"
  let i ← okOr (s.info id) "Unknown"
  ensure (i.destroying = false) "AssetNotLive"
  ensure (i.owner = who) "NoPermission"
  ensure (metaPrice name symbol - i.metaDeposit ≤ s.free who) "InsufficientBalance"
  pure { s with
    info := upd s.info id (some { i with
      dec := dec
      metaDeposit := metaPrice name symbol })
    free := upd s.free who (s.free who + i.metaDeposit - metaPrice name symbol)
    reserved := upd s.reserved who (s.reserved who + metaPrice name symbol - i.metaDeposit) }

/-- `pallet_assets::start_destroy`. -/
def startDestroy (s : St) (who : Acct) (id : Nat) : Except Err St := do
  let i ← okOr (s.info id) "Unknown"
  ensure (i.owner = who) "NoPermission"
  pure { s with info := upd s.info id (some { i with destroying := true }) }

/-- `pallet_assets::destroy_accounts`, called by anybody: some accounts are removed. -/
def destroyAccounts (s : St) (id : Nat) (ws : List Acct) : Except Err St := do
  let i ← okOr (s.info id) "Unknown"
  ensure (i.destroying = true) "IncorrectStatus"
  pure { s with info := upd s.info id (some { i with data := { i.data with
    bal := fun w => if w ∈ ws then 0 else i.data.bal w } }) }

/-- `pallet_assets::finish_destroy`, called by anybody, once no account is left (see `allowed`): the owner gets back what is reserved
for the asset (zero, see `newInfo`) and for its metadata. -/
def finishDestroy (s : St) (id : Nat) : Except Err St := do
  let i ← okOr (s.info id) "Unknown"
  ensure (i.destroying = true) "IncorrectStatus"
  pure { s with
    info := upd s.info id none
    free := upd s.free i.owner (s.free i.owner + min i.metaDeposit (s.reserved i.owner))
    reserved := upd s.reserved i.owner (s.reserved i.owner - i.metaDeposit) }

/-- Everything that can happen. -/
inductive Op where
  | create (who : Acct) (name symbol dec : Nat) (least : Option Nat) (owner : Option Acct)
  | mint (who : Acct) (id : Nat) (w : Acct) (x : Nat)
  | burnFrom (who : Acct) (id : Nat) (w : Acct) (x : Nat)
  | transfer (who : Acct) (id : Nat) (dst : Acct) (x : Nat) (keep : Bool)
  | setTeam (who : Acct) (id issuer admin freezer : Nat)
  | transferOwnership (who : Acct) (id : Nat) (new : Acct)
  | setMetadata (who : Acct) (id name symbol dec : Nat)
  | startDestroy (who : Acct) (id : Nat)
  | destroyAccounts (id : Nat) (ws : List Acct)
  | finishDestroy (id : Nat)
  /-- ext:218-229 `set_asset_deposit` (root) -/
  | setDeposit (x : Nat)

/-- What `finish_destroy` asks beside what `finishDestroy` checks: no account holds anything of the asset (`InUse`). -/
def allowed (s : St) : Op → Prop
  | .finishDestroy id => ∀ i, s.info id = some i → ∀ w, i.data.bal w = 0
  | _ => True

/-- One step; extrinsics are transactional. -/
def step (c : Cfg) (s : St) : Op → Except Err St
  | .create w n y d l o => create c s w n y d l o
  | .mint w id t x => mint c s w id t x
  | .burnFrom w id t x => burnFrom c s w id t x
  | .transfer w id d x k => transfer c s w id d x k
  | .setTeam w id i a f => setTeam s w id i a f
  | .transferOwnership w id n => transferOwnership s w id n
  | .setMetadata w id n y d => setMetadata s w id n y d
  | .startDestroy w id => startDestroy s w id
  | .destroyAccounts id ws => destroyAccounts s id ws
  | .finishDestroy id => finishDestroy s id
  | .setDeposit x => .ok { s with deposit := x }

/-- Before any of this: no assets but those of genesis, which nobody has paid for here, and whose numbers are not those given out. -/
structure Genesis (s : St) : Prop where
  info : ∀ id, s.info id = none
  next : s.next ≤ 4194303
  reserved : ∀ w, s.reserved w = 0
  paid : ∀ w, s.paid w = 0

/-- Histories. -/
inductive Reach (c : Cfg) (g : St) : St → Prop
  | init : Genesis g → Reach c g g
  | step {s s' : St} {op : Op} : Reach c g s → allowed s op → step c s op = .ok s' → Reach c g s'

/-- Continuing from a state. -/
inductive Run (c : Cfg) : St → List Op → St → Prop
  | nil {s : St} : Run c s [] s
  | cons {s s1 s' : St} {op : Op} {ops : List Op} : allowed s op → step c s op = .ok s1 → Run c s1 ops s' → Run c s (op :: ops) s'

end Verif.Asset
