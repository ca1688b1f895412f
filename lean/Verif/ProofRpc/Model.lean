import Verif.Witness.Expand
import Verif.Abi.Read

/-!
# Model of how proofs reach relayers

/repo/ethy-gadget/rpc/src/lib.rs and the parts of /repo/ethy-gadget/src/worker.rs and types.rs that keep proofs in the node's
database, on top of `Verif.Witness`. The proof is stored in SCALE encoding, whose round trip is taken for granted; conversion of
keys to Ethereum addresses and XRPL keys and of signatures to DER are opaque functions.
-/

namespace Verif.ProofRpc

open Witness (Chain Wit Proof)

/-- /repo/primitives/src/ethy.rs:92-99 `ValidatorSet`. -/
structure VSet where
  keys : List Nat
  id : Nat
  thr : Nat
deriving DecidableEq

/-- What the runtime answers and cryptographic functions. -/
structure Cfg where
  crypto : Witness.Cfg
  /-- /repo/pallet/ethy/src/impls.rs:559-566: what the runtime of a block says of the validators -/
  vals : Nat → VSet
  /-- /repo/runtime/src/lib.rs:2023-2030: what it says of the XRPL signers -/
  xrpl : Nat → VSet
  /-- ethy.rs:218-238 `EthyEcdsaToEthereum` -/
  addr : Nat → Nat
  /-- rpc lib.rs:254-269: the signature in DER, with the smaller of the two values for `s` -/
  der : Nat → Nat

/-- What is stored of a proof (worker.rs:367-375); the digest and the set's id are not used again. -/
structure Stored where
  event : Nat
  block : Nat
  sigs : List (Nat × Nat)
deriving DecidableEq

/-- rpc lib.rs `EthEventProofResponse` -/
structure EthResp where
  event : Nat
  sigs : List Nat
  validators : List Nat
  setId : Nat
  block : Nat
deriving DecidableEq

/-- rpc lib.rs `XrplEventProofResponse` -/
structure XrplResp where
  event : Nat
  sigs : List Nat
  signers : List Nat
  setId : Nat
  block : Nat
deriving DecidableEq

/-- What a node holds: worker.rs:63-88 `EthyWorker`, and its database. -/
structure St where
  /-- the record of witnesses -/
  rcd : Witness.St
  /-- the id of the set the worker holds -/
  setId : Nat
  /-- `best_grandpa_block_header`, its number; blocks are known by it -/
  best : Nat
  /-- the block in which an event was requested (`EventMetadata::block_hash`); as a ghost also what was requested -/
  req : Nat → Option (Nat × Chain × Nat)
  /-- the auxiliary database -/
  db : List Abi.Byte → Option Stored
  /-- blocks whose state the node no longer has -/
  pruned : Nat → Bool
  /-- ghost: what subscribers were sent, newest first -/
  told : List EthResp

/-- ethy.rs:72-79. -/
def chainByte : Chain → Abi.Byte
  | .ethereum => 1
  | .xrpl => 2

/-- types.rs:44-51 `make_proof_key` and rpc lib.rs:133-139, 157-163: "ETHY", the chain, the id in eight bytes. -/
def proofKey (ch : Chain) (e : Nat) : List Abi.Byte := [69, 84, 72, 89] ++ [chainByte ch] ++ Abi.be 8 e

/-- rpc lib.rs:178-213 `build_event_proof_response`. -/
def ethResponse (c : Cfg) (s : St) (p : Stored) : Option EthResp :=
  if s.pruned p.block then none
  else some {
    event := p.event
    sigs := Witness.expanded p.sigs (c.vals p.block).keys.length
    validators := (c.vals p.block).keys.map c.addr
    setId := (c.vals p.block).id
    block := p.block }

/-- rpc lib.rs:236-253: the key a signature is by, if it is an XRPL signer's. -/
def xrplSigner (v x : VSet) (q : Nat × Nat) : Option Nat :=
  match v.keys[q.1]? with
  | some a => if (Witness.authIndex x.keys a).isSome then some a else none
  | none => none

/-- rpc lib.rs:216-278 `build_xrpl_tx_proof_response`. -/
def xrplResponse (c : Cfg) (s : St) (p : Stored) : Option XrplResp :=
  if s.pruned p.block then none
  else some {
    event := p.event
    sigs := (p.sigs.filter (fun q => (xrplSigner (c.vals p.block) (c.xrpl p.block) q).isSome)).map (fun q => c.der q.2)
    signers := p.sigs.filterMap (xrplSigner (c.vals p.block) (c.xrpl p.block))
    setId := (c.xrpl p.block).id
    block := p.block }

/-- rpc lib.rs:131-150 `get_event_proof`. -/
def getEventProof (c : Cfg) (s : St) (e : Nat) : Option EthResp := (s.db (proofKey .ethereum e)).bind (ethResponse c s)

/-- rpc lib.rs:152-175 `get_xrpl_tx_proof`. -/
def getXrplProof (c : Cfg) (s : St) (e : Nat) : Option XrplResp := (s.db (proofKey .xrpl e)).bind (xrplResponse c s)

/-- worker.rs:367-396: store a proof and tell the subscribers (rpc lib.rs:112-129), whatever chain it is for. -/
def publish (c : Cfg) (s : St) (p : Proof) : St :=
  let t : Stored := ⟨p.event, ((s.req p.event).map Prod.fst).getD 0, p.sigs⟩
  { s with
    db := upd s.db (proofKey p.chain p.event) (some t)
    told := (ethResponse c s t).toList ++ s.told }

/-- Take over the record, with what it newly proved. -/
def advance (c : Cfg) (s : St) (r : Witness.St) : St :=
  (r.proofs.take (r.proofs.length - s.rcd.proofs.length)).foldl (publish c) { s with rcd := r }

/-- What a node handles: finalised blocks and votes (worker.rs:407-455), and requests of relayers (rpc lib.rs). -/
inductive Op where
  /-- a finalised block, with or without a log of a change of validators -/
  | enter (b : Nat) (change : Bool)
  /-- a request in that block, signed with the node's key if it has one -/
  | request (e : Nat) (ch : Chain) (data : Nat) (own : Option (Nat × Nat))
  | gossip (w : Wit)
  /-- the node drops the state of a block -/
  | prune (b : Nat)
deriving DecidableEq

/-- worker.rs:275-299: take over the sets of the block, if its header logs a change (or there is none yet) and the id differs. -/
def takeSets (c : Cfg) (s : St) (b : Nat) (change : Bool) : St :=
  if (change = true ∨ s.rcd.vals = []) ∧ ((c.vals b).id ≠ s.setId ∨ (c.vals b).id = 0 ∧ s.rcd.vals = []) then
    { s with
      setId := (c.vals b).id
      rcd := { s.rcd with
        vals := (c.vals b).keys
        thr := (c.vals b).thr
        xvals := (c.xrpl b).keys
        xthr := (c.xrpl b).thr } }
  else s

/-- One operation. Event ids are u64. -/
def step (c : Cfg) (s : St) : Op → Except Err St
  | .enter b change => do
    -- worker.rs:246-249
    ensure (s.best < b) "old block"
    pure { takeSets c s b change with best := b }
  | .request e ch data own => do
    ensure (e < 2 ^ 64) "not an event id"
    let r ← Witness.step c.crypto s.rcd (match own with
      | none => .finalPassive e ch data
      | some k => .finalActive e ch data k.1 k.2)
    pure (advance c { s with req := upd s.req e (some (s.best, ch, data)) } r)
  | .gossip w => do
    let r ← Witness.step c.crypto s.rcd (.gossip w)
    pure (advance c s r)
  | .prune b => .ok { s with pruned := upd s.pruned b true }

/-- The node holds the sets of this block. -/
structure Held (c : Cfg) (s : St) (b : Nat) : Prop where
  vals : s.rcd.vals = (c.vals b).keys
  thr : s.rcd.thr = (c.vals b).thr
  xvals : s.rcd.xvals = (c.xrpl b).keys
  xthr : s.rcd.xthr = (c.xrpl b).thr
  id : s.setId = (c.vals b).id

/-- A node that has just taken over the sets of its first finalised block. -/
structure Genesis (c : Cfg) (s : St) : Prop where
  rcd : Witness.Genesis s.rcd
  held : Held c s s.best
  req : ∀ e, s.req e = none
  db : ∀ k, s.db k = none

/-- What can be reached from the start by these operations; an operation that fails changes nothing.
Histories have no counterpart in the code. -/
inductive Reach (c : Cfg) (P : St → Op → Prop) : St → Prop where
  | init {s : St} : Genesis c s → Reach c P s
  | step {s s' : St} {op : Op} : Reach c P s → P s op → step c s op = .ok s' → Reach c P s'

/-- A history. No counterpart in the code. -/
def exec (c : Cfg) (s : St) : List Op → Except Err St
  | [] => .ok s
  | op :: ops => do
    let s1 ← step c s op
    exec c s1 ops

end Verif.ProofRpc
