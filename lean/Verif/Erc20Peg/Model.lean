import Verif.Ledger
import Verif.Nft.Model

/-!
# The ERC-20 bridge (`pallet/erc20-peg`)

Line numbers refer to `/repo/pallet/erc20-peg/src/lib.rs`. Ethereum addresses are `Nat`. A message to Ethereum is handed to
`pallet-ethy`, which accepts every message of this size (`/repo/pallet/ethy/src/impls.rs:45-68`); the messages are collected in
`outbox`. Three more fields record what the events of the pallet record: the deposits accepted, the delayed deposits that
failed and the money received from Ethereum.
-/

namespace Verif.Erc20Peg

abbrev Addr := Nat

/-- types.rs:47-56 `Erc20DepositEvent`. -/
structure Dep where
  token : Addr
  amount : Nat
  ben : Acct
deriving DecidableEq

/-- types.rs:60-68 `WithdrawMessage`. -/
structure Wd where
  token : Addr
  amount : Nat
  ben : Addr
deriving DecidableEq

/-- types.rs:39-44 `PendingPayment`. -/
inductive Payment where
  | deposit (d : Dep)
  | withdrawal (src : Acct) (w : Wd)
deriving DecidableEq

/-- Constants of `Config` (/repo/pallet/erc20-peg/src/lib.rs:89-114). -/
structure Cfg where
  native : AssetId
  /-- `PegPalletId` account -/
  peg : Acct
  /-- `MaxReadyBlocks` -/
  maxReady : Nat
  /-- `ParachainId`, part of new asset ids -/
  chainId : Nat

/-- The storage of the pallet (/repo/pallet/erc20-peg/src/lib.rs:117-186) and the balances. -/
structure St where
  ledger : Ledger
  /-- `NextAssetId` of the assets pallet -/
  nextAsset : Nat
  /-- `DepositsActive`, `WithdrawalsActive` -/
  depActive : Bool
  wdActive : Bool
  /-- `DepositsDelayActive`, `WithdrawalsDelayActive` -/
  depDelay : Bool
  wdDelay : Bool
  /-- `Erc20ToAssetId`, `AssetIdToErc20` -/
  toAsset : Addr → Option AssetId
  toErc : AssetId → Option Addr
  /-- `PaymentDelay` -/
  delay : AssetId → Option (Nat × Nat)
  /-- `DelayedPayments` -/
  payments : Nat → Option Payment
  /-- `DelayedPaymentSchedule`; `none` if the key is absent -/
  sched : Nat → Option (List Nat)
  /-- `ReadyBlocks` -/
  ready : List Nat
  /-- `NextDelayedPaymentId` -/
  nextId : Nat
  /-- `ContractAddress`, `RootPegContractAddress` -/
  contract : Addr
  rootContract : Addr
  now : Nat
  /-- messages sent to Ethereum: destination and content -/
  outbox : List (Addr × Wd)
  /-- deposits accepted (events `Erc20Deposit` and `Erc20DepositDelayed`) -/
  accepted : List Dep
  /-- delayed deposits that failed (event `DelayedErc20DepositFailed`) -/
  failed : List Dep

/-- 571-597 `burn_or_transfer`. -/
def burnOrTransfer (c : Cfg) (L : Ledger) (a : AssetId) (who : Acct) (x : Nat) : Except Err Ledger :=
  if a = c.native then L.transfer a who c.peg x else L.burn a who x

/-- 806-826 `mint_or_transfer`. -/
def mintOrTransfer (c : Cfg) (L : Ledger) (a : AssetId) (ben : Acct) (x : Nat) : Except Err Ledger :=
  if a = c.native then L.transfer a c.peg ben x else L.mint a ben x

/-- 600-628 `process_withdrawal`. -/
def processWithdrawal (c : Cfg) (s : St) (w : Wd) (a : AssetId) : St :=
  { s with outbox := s.outbox ++ [(if a = c.native then s.rootContract else s.contract, w)] }

/-- pallet/common/src/utils.rs:35-45 `next_asset_uuid`, as an asset id. -/
def newAsset (c : Cfg) (i : Nat) : Option AssetId :=
  match Nft.nextAssetUuid i c.chainId with
  | some n => if h : n < 4294967296 then some ⟨n, h⟩ else none
  | none => none

/-- 765-791: the asset of a token, created if the token is new. Metadata is not modelled. The new asset has no issuance. -/
def assetFor (c : Cfg) (s : St) (t : Addr) : Except Err (St × AssetId) :=
  match s.toAsset t with
  | some a => .ok (s, a)
  | none => do
    let a ← okOr (newAsset c s.nextAsset) "CreateAssetFailed"
    pure ({ s with
      nextAsset := s.nextAsset + 1
      toAsset := upd s.toAsset t (some a)
      toErc := upd s.toErc a (some t) }, a)

/-- 764-803 `process_deposit`. The mint for a new asset cannot fail, so a failing call leaves nothing behind. -/
def processDeposit (c : Cfg) (s : St) (d : Dep) : Except Err St := do
  let r ← assetFor c s d.token
  let L ← mintOrTransfer c r.1.ledger r.2 d.ben d.amount
  pure { r.1 with ledger := L }

/-- 631-665 `process_delayed_payment`: failures are only reported. -/
def process (c : Cfg) (s : St) (id : Nat) : St :=
  match s.payments id with
  | none => s
  | some (.deposit d) =>
    match processDeposit c { s with payments := upd s.payments id none } d with
    | .ok s1 => s1
    | .error _ => { s with
        payments := upd s.payments id none
        failed := s.failed ++ [d] }
  | some (.withdrawal _ w) =>
    match s.toAsset w.token with
    | some a => processWithdrawal c { s with payments := upd s.payments id none } w a
    | none => { s with payments := upd s.payments id none }

/-- 668-720 `delay_payment`. -/
def delayPayment (s : St) (delay : Nat) (p : Payment) : St :=
  if s.nextId + 1 < U64 then
    { s with
      payments := upd s.payments s.nextId (some p)
      nextId := s.nextId + 1
      sched := upd s.sched (min (s.now + delay) (U32 - 1))
        (some ((s.sched (min (s.now + delay) (U32 - 1))).getD [] ++ [s.nextId])) }
  else s

/-- The delay that applies to a payment of `x` (540-543, 742-746). -/
def delayFor (s : St) (on : Bool) (a : AssetId) (x : Nat) : Option Nat :=
  if on = true then
    match s.delay a with
    | some (m, d) => if m ≤ x then some d else none
    | none => none
  else none

/-- 522-568 `do_withdrawal`. -/
def withdraw (c : Cfg) (s : St) (who : Acct) (a : AssetId) (x : Nat) (ben : Addr) (evm : Bool) : Except Err St := do
  ensure (x < U128) "not a u128"
  ensure (s.wdActive = true) "WithdrawalsPaused"
  let t ← okOr (s.toErc a) "UnsupportedAsset"
  match delayFor s s.wdDelay a x with
  | some d => do
    ensure (evm = false) "EvmWithdrawalFailed"
    let L ← burnOrTransfer c s.ledger a who x
    pure (delayPayment { s with ledger := L } d (.withdrawal who ⟨t, x, ben⟩))
  | none => do
    let L ← burnOrTransfer c s.ledger a who x
    pure (processWithdrawal c { s with ledger := L } ⟨t, x, ben⟩ a)

/-- Record an accepted deposit. -/
def accept (s : St) (d : Dep) : St := { s with accepted := s.accepted ++ [d] }

/-- 730-757: the source has to match a known token; the delay that applies. -/
def checkKnown (c : Cfg) (s : St) (src : Addr) (d : Dep) : Except Err (Option Nat) :=
  match s.toAsset d.token with
  | none => .ok none
  | some a => do
    ensure (src = if a = c.native then s.rootContract else s.contract) "InvalidSourceAddress"
    pure (delayFor s s.depDelay a d.amount)

/-- 843-851 `verify_source`, 853-885 `on_event`, 725-760 `do_deposit`. -/
def deposit (c : Cfg) (s : St) (src : Addr) (d : Dep) : Except Err St := do
  ensure (src = s.contract ∨ src = s.rootContract) "Invalid source address"
  ensure (s.depActive = true) "DepositsPaused"
  ensure (d.amount < U128 - 1) "InvalidAmount"
  let r ← checkKnown c s src d
  match r with
  | some n => pure (accept (delayPayment s n (.deposit d)) d)
  | none => do
    let s1 ← processDeposit c s d
    pure (accept s1 d)

/-- 338-347 `on_initialize`: a block with scheduled payments becomes ready, unless the list is full. -/
def nextBlock (c : Cfg) (s : St) : Except Err St := do
  ensure (s.now + 2 < U32) "block number"
  pure (if (s.sched (s.now + 1)).isSome = true ∧ s.ready.length < c.maxReady then
    { s with
      now := s.now + 1
      ready := s.ready ++ [s.now + 1] }
  else { s with now := s.now + 1 })

/-- 301-328: the loop of `on_idle`; `n` payments and `k` blocks (a `u8` that wraps) have been processed. -/
def idleLoop (c : Cfg) (max : Nat) : List Nat → St → Nat → Nat → St × Nat
  | [], s, _, k => (s, k)
  | b :: bs, s, n, k =>
    let ids := (s.sched b).getD []
    let more := max - n < ids.length
    let s1 := { s with sched := upd s.sched b (if more then some (ids.drop (max - n)) else none) }
    let k1 := if more then k else (k + 1) % 256
    let s2 := (ids.take (max - n)).foldl (process c) s1
    let n1 := n + (ids.take (max - n)).length
    if max ≤ n1 then (s2, k1) else idleLoop c max bs s2 n1 k1

/-- 275-335 `on_idle`; `max` is the number of payments the remaining weight allows, a `u8`. -/
def idle (c : Cfg) (s : St) (max : Nat) : Except Err St := do
  ensure (max < 256) "not a u8"
  pure { (idleLoop c max s.ready s 0 0).1 with ready := s.ready.drop (idleLoop c max s.ready s 0 0).2 }

/-- 487-516 `claim_delayed_payment` (root). -/
def claim (c : Cfg) (s : St) (b id : Nat) : Except Err St := do
  ensure (id ∈ (s.sched b).getD []) "PaymentIdNotFound"
  pure (process c { s with sched := upd s.sched b (some (((s.sched b).getD []).erase id)) } id)

/-- The calls (/repo/pallet/erc20-peg/src/lib.rs:350-495), events of the bridge and blocks
(/repo/pallet/erc20-peg/src/lib.rs:272-348). -/
inductive Op where
  | withdraw (who : Acct) (a : AssetId) (x : Nat) (ben : Addr) (evm : Bool)
  | deposit (src : Addr) (d : Dep)
  | nextBlock
  | idle (max : Nat)
  /-- root calls, 355-483 -/
  | claim (b id : Nat)
  | setActive (dep wd depDelay wdDelay : Bool)
  | setContracts (peg root : Addr)
  | setMap (a : AssetId) (t : Addr)
  | setDelay (a : AssetId) (min delay : Nat)
  /-- other pallets create assets and move money -/
  | takeAsset
  | ledger (L : Ledger)

/-- Each case is the function of that name above, or written out. -/
def step (c : Cfg) (s : St) : Op → Except Err St
  | .withdraw w a x b e => withdraw c s w a x b e
  | .deposit src d => deposit c s src d
  | .nextBlock => nextBlock c s
  | .idle m => idle c s m
  | .claim b id => claim c s b id
  | .setActive d w dd wd => .ok { s with
      depActive := d
      wdActive := w
      depDelay := dd
      wdDelay := wd }
  | .setContracts p r => .ok { s with
      contract := p
      rootContract := r }
  | .setMap a t => .ok { s with
      toAsset := upd s.toAsset t (some a)
      toErc := upd s.toErc a (some t) }
  | .setDelay a m d => .ok { s with delay := upd s.delay a (some (m, d)) }
  | .takeAsset => do
    let _ ← okOr (newAsset c s.nextAsset) "NoAvailableIds"
    pure { s with nextAsset := s.nextAsset + 1 }
  | .ledger L => .ok { s with ledger := L }

/-- The state from which the history starts: mappings are one-to-one, nothing is pending, asset ids that have not been
handed out have no supply and no mapping. -/
structure Genesis (c : Cfg) (s : St) : Prop where
  sound : s.ledger.Sound
  map : ∀ t a, s.toAsset t = some a ↔ s.toErc a = some t
  next : s.nextAsset ≤ 4194303
  fresh : ∀ i a, s.nextAsset ≤ i → i ≤ 4194303 → newAsset c i = some a →
    s.ledger.iss a = 0 ∧ s.toErc a = none ∧ a ≠ c.native
  payments : ∀ i, s.payments i = none
  sched : ∀ b, s.sched b = none
  ready : s.ready = []
  outbox : s.outbox = []
  accepted : s.accepted = []
  failed : s.failed = []
  now : s.now + 1 < U32

/-- Histories from `g` whose operations satisfy `G`. -/
inductive Reach (c : Cfg) (G : St → Op → Prop) (g : St) : St → Prop
  | init : Genesis c g → Reach c G g g
  | step {s s' : St} {op : Op} : Reach c G g s → G s op → step c s op = .ok s' → Reach c G g s'

/-- The state after trying an operation. -/
def after (c : Cfg) (s : St) (op : Op) : St :=
  match step c s op with
  | .ok s1 => s1
  | .error _ => s

/-- Run operations, ignoring failing ones. -/
def exec (c : Cfg) (s : St) : List Op → St
  | [] => s
  | op :: ops => exec c (after c s op) ops

/-- Every operation of the run satisfies `G`. -/
def Along (c : Cfg) (G : St → Op → Prop) (s : St) : List Op → Prop
  | [] => True
  | op :: ops => G s op ∧ Along c G (after c s op) ops

theorem exec_reach {c : Cfg} {G : St → Op → Prop} {g : St} : ∀ (ops : List Op) {s : St}, Reach c G g s →
    Along c G s ops → Reach c G g (exec c s ops)
  | [], _, h, _ => h
  | op :: ops, s, h, hg => by
    unfold exec
    refine exec_reach ops ?_ hg.2
    unfold after
    cases he : step c s op with
    | ok s' => exact .step h hg.1 he
    | error _ => exact h

end Verif.Erc20Peg
