import Verif.Ethy.Model
import Verif.Abi.Spec

/-!
# Model of how a validator checks Ethereum (`/repo/pallet/ethy/src/impls.rs:149-181, 230-541`)

The off-chain worker of a validator: which challenged claim it looks at, what it asks an Ethereum node, how it votes;
the same for requested Ethereum calls; and how a claim is read from the data a relayer submits. The answers of the
Ethereum node (HTTP, JSON: ethereum_http_cli.rs) are arbitrary: a record `Rpc` of functions. Hashes, addresses
and block numbers (`U64`) are numbers. `ethabi::encode` (dependency) is the encoding of the Solidity documentation (`Verif.Abi.layout`). Lines without
a file are of /repo/pallet/ethy/src/impls.rs.
-/

namespace Verif.Notary

open Abi (Byte word layout padRight wordAt)

/-- /repo/pallet/ethy/src/types.rs:341-364 `Log` (the fields used). -/
structure Log where
  address : Nat
  topics : List Nat
  data : List Byte
  txHash : Option Nat
deriving DecidableEq

/-- types.rs:371-409 `TransactionReceipt` (the fields used). -/
structure Receipt where
  block : Nat
  logs : List Log
  status : Option Nat
  to_ : Option Nat
deriving DecidableEq

/-- types.rs:415- `EthBlock` (the fields used). -/
structure Block where
  number : Option Nat
  time : Nat
deriving DecidableEq

/-- types.rs:223-239 `BridgeEthereumRpcApi`: what the Ethereum node answers; the block `none` is the latest. -/
structure Rpc where
  receipt : Nat → Except Unit (Option Receipt)
  block : Option Nat → Except Unit (Option Block)
  ethCall : Nat → List Byte → Nat → Except Unit (List Byte)

/-- types.rs:122-133 `EventClaim`. -/
structure Claim where
  txHash : Nat
  source : Nat
  destination : Nat
  data : List Byte
deriving DecidableEq

/-- types.rs:242-263 `EventClaimResult`. -/
inductive Verdict where
  | valid | dataProviderErr | txStatusFailed | unexpectedContractAddress | noTxLogs | notEnoughConfirmations
  | unexpectedData | noTxReceipt | unexpectedSource
deriving DecidableEq

/-- Storage and constants: `ContractAddress`, `EventBlockConfirmations`, `SUBMIT_BRIDGE_EVENT_SELECTOR` (lib.rs:97),
`MaxEthData`. -/
structure Cfg where
  contract : Nat
  confirmations : Nat
  selector : Nat
  maxData : Nat

/-- 358-363: the data a log should have: number, source, destination, message. -/
def expected (id : Nat) (cl : Claim) : List Byte :=
  layout [(false, word id), (false, word cl.source), (false, word cl.destination),
    (true, word cl.data.length ++ padRight cl.data)]

/-- 353-356: the log looked at. -/
def findLog (c : Cfg) (tx : Nat) (r : Receipt) : Option Log :=
  r.logs.find? (fun l => decide (l.txHash = some tx) && l.topics.contains c.selector)

/-- 383-402: enough blocks on top? -/
def confirmed (c : Cfg) (rpc : Rpc) (r : Receipt) : Verdict :=
  match rpc.block none with
  | .error _ => .dataProviderErr
  | .ok none => .dataProviderErr
  | .ok (some b) => if b.number.getD 0 - r.block < c.confirmations then .notEnoughConfirmations else .valid

/-- 339-402: check a receipt. -/
def checkReceipt (c : Cfg) (rpc : Rpc) (id : Nat) (cl : Claim) (r : Receipt) : Verdict :=
  if r.status.getD 0 = 0 then .txStatusFailed
  else if r.to_ ≠ some cl.source then .unexpectedSource
  else match findLog c cl.txHash r with
    | none => .noTxLogs
    | some l =>
      if l.data ≠ expected id cl then .unexpectedData
      else if l.address ≠ c.contract then .unexpectedContractAddress
      else confirmed c rpc r

/-- 323-403 `offchain_try_notarize_event`. -/
def tryNotarize (c : Cfg) (rpc : Rpc) (id : Nat) (cl : Claim) : Verdict :=
  match rpc.receipt cl.txHash with
  | .error _ => .dataProviderErr
  | .ok none => .noTxReceipt
  | .ok (some r) => checkReceipt c rpc id cl r

/-- 149-181 `decode_event_data` with `ethabi::decode` (dependency): five words, the fourth pointing at the message;
offset and length have to fit `u32`; the high bytes of an address are ignored; the number is cut at `u64::MAX`, the
fee dropped. -/
def decodeEvent (c : Cfg) (tx : Nat) (bs : List Byte) : Option (Nat × Claim) := do
  let id ← wordAt bs 0
  let src ← wordAt bs 32
  let dst ← wordAt bs 64
  let off ← wordAt bs 96
  let _fee ← wordAt bs 128
  let len ← wordAt bs off
  if off < U32 ∧ len < U32 ∧ off + 32 + len ≤ bs.length ∧ len ≤ c.maxData then
    some (min id (U64 - 1), ⟨tx, src % 2 ^ 160, dst % 2 ^ 160, (bs.drop (off + 32)).take len⟩)
  else none

/-- 232-259 `find_active_ethy_key`: the first local key that is in the notary set, with its position. -/
def activeKey (notaries : List Nat) : List Nat → Option (Nat × Nat)
  | [] => none
  | k :: ks =>
    match notaries.findIdx? (· == k) with
    | some i => some (k, i)
    | none => activeKey notaries ks

/-- 273-308: the vote on one claim, unless there is one. A claim of the bridge model is a number; `claimOf` is its
content. -/
def voteOn (c : Cfg) (claimOf : Nat → Claim) (rpc : Rpc) (s : Ethy.St) (key idx id : Nat) : List (Nat × Nat × Verdict) :=
  match s.claims id with
  | none => []
  | some x => if (s.votes id).any (fun kv => kv.1 == key) then [] else [(idx, id, tryNotarize c rpc id (claimOf x))]

/-- 263-309 `do_event_notarization_ocw` (`CLAIMS_PER_BLOCK` is 1, lib.rs:87): the notarizations sent. -/
def eventVotes (c : Cfg) (claimOf : Nat → Claim) (paused : Bool) (rpc : Rpc) (s : Ethy.St) (key idx : Nat) :
    List (Nat × Nat × Verdict) :=
  if paused = true then []
  else (s.challenges.take 1).flatMap (voteOn c claimOf rpc s key idx)

/-- lib.rs:672-710 `offchain_worker` of a node running as validator: the votes on claims. -/
def worker (c : Cfg) (ec : Ethy.Cfg) (claimOf : Nat → Claim) (paused : Bool) (rpc : Rpc) (s : Ethy.St) (keys : List Nat) :
    List (Nat × Nat × Verdict) :=
  match activeKey s.notaryKeys keys with
  | none => []
  | some (key, idx) =>
    if Ethy.percent s.notaryKeys.length s.valCount < ec.thr then []
    else eventVotes c claimOf paused rpc s key idx

/-- What the chain makes of a vote (569-597): anything but `Valid` counts against the claim. -/
def toOp (v : Nat × Nat × Verdict) : Ethy.Op := .notarize v.1 v.2.1 (decide (v.2.2 = .valid))

/-! ## Ethereum calls -/

/-- types.rs:53-74 `CheckedEthCallRequest`. -/
structure Request where
  input : List Byte
  target : Nat
  timestamp : Nat
  maxLookBehind : Nat
  tryBlock : Nat
  checkTimestamp : Nat
deriving DecidableEq

/-- types.rs:79-92 `CheckedEthCallResult`. -/
inductive CallResult where
  | ok (data : List Byte) (block time : Nat)
  | returnDataExceedsLimit | returnDataEmpty | dataProviderErr | invalidEthBlock | invalidTimestamp
deriving DecidableEq

/-- 494-499: the oldest acceptable block; `now` is the time of this chain in seconds. -/
def oldest (q : Request) (now latest : Nat) : Nat :=
  latest - q.maxLookBehind - (now - q.checkTimestamp) / 12

/-- 518-540: the call at a block. -/
def callAt (rpc : Rpc) (q : Request) (n t : Nat) : CallResult :=
  match rpc.ethCall q.target q.input n with
  | .error _ => .dataProviderErr
  | .ok [] => .returnDataEmpty
  | .ok (b :: bs) => if (b :: bs).length = 32 then .ok (b :: bs) n t else .returnDataExceedsLimit

/-- `saturated_into::<u64>()`. -/
def sat64 (n : Nat) : Nat := min n (U64 - 1)

/-- 501-516, 518-540: choose the block. -/
def callFrom (rpc : Rpc) (q : Request) (now latest time : Nat) : CallResult :=
  if oldest q now latest ≤ q.tryBlock ∧ q.tryBlock < latest then
    match rpc.block (some q.tryBlock) with
    | .error _ => .dataProviderErr
    | .ok none => .dataProviderErr
    | .ok (some b) => callAt rpc q q.tryBlock (sat64 b.time)
  else callAt rpc q latest time

/-- 467-485: checks of the latest block. -/
def withLatest (rpc : Rpc) (q : Request) (now : Nat) (b : Block) : CallResult :=
  if sat64 b.time = U64 - 1 then .invalidTimestamp
  else if sat64 b.time < q.timestamp then .invalidTimestamp
  else match b.number with
    | none => .invalidEthBlock
    | some n => if n = 0 ∨ n = U64 - 1 then .invalidEthBlock else callFrom rpc q now n (sat64 b.time)

/-- 448-541 `offchain_try_eth_call`. -/
def tryEthCall (rpc : Rpc) (q : Request) (now : Nat) : CallResult :=
  match rpc.block none with
  | .error _ => .dataProviderErr
  | .ok none => .dataProviderErr
  | .ok (some b) => withLatest rpc q now b

end Verif.Notary
