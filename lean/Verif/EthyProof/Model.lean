import Verif.Ledger

/-!
# Outgoing side of the Ethereum bridge (`pallet/ethy`)

Requests for event proofs, pausing, the queue of delayed proofs and the change of the notary set.
Sources: /repo/pallet/ethy/src/impls.rs, /repo/pallet/ethy/src/lib.rs.

Simplifications: a message is its number and its length; the signing itself is done by the validators
outside the runtime (`Verif.Witness`); what the runtime does is to put a signing request into the block
digest, which is the list `sent`.
-/

namespace Verif.EthyProof

/-- A signing request (/repo/primitives/src/ethy.rs `EthySigningRequest`): an Ethereum event with the id
of the notary set that has to sign it, or an XRPL transaction. -/
inductive Req where
  | eth (setId msg : Nat)
  | xrpl (msg : Nat)
deriving DecidableEq

/-- Storage (lib.rs:225-345) and, as ghosts, the ids handed out and the requests put into a digest,
newest first. -/
structure St where
  /-- `NextEventProofId` -/
  nextId : Nat
  /-- `BridgePaused.manual_pause` -/
  manual : Bool
  /-- `BridgePaused.authorities_change` -/
  change : Bool
  /-- `NotarySetId` -/
  setId : Nat
  /-- `PendingEventProofs`, in some order -/
  pending : List (Nat × Req)
  /-- `DelayedEventProofsPerBlock` -/
  perBlock : Nat
  /-- ghost: ids returned to a requester -/
  issued : List Nat
  /-- ghost: digest entries -/
  sent : List (Nat × Req)
  /-- ghost: number of ids taken from the counter -/
  taken : Nat
deriving DecidableEq

/-- `MaxEthData` (/repo/runtime/src/lib.rs). -/
structure Cfg where
  maxData : Nat

/-- impls.rs:95-98 `bridge_paused`. -/
def paused (s : St) : Bool := s.manual || s.change

/-- impls.rs:957-969: the set id of a stale Ethereum request is raised to the current one. -/
def refresh (s : St) : Req → Req
  | .eth sid m => if s.setId > sid then .eth s.setId m else .eth sid m
  | .xrpl m => .xrpl m

/-- impls.rs:944-983 `do_request_event_proof`. -/
def doRequest (s : St) (id : Nat) (r : Req) : St :=
  if paused s then { s with pending := (id, r) :: s.pending.filter (fun p => p.1 ≠ id) }
  else { s with sent := (id, refresh s r) :: s.sent }

/-- impls.rs:50-51 and 77-78: take the next id (wrapping at 2^64). -/
def takeId (s : St) : St := { s with nextId := (s.nextId + 1) % 2 ^ 64, taken := s.taken + 1 }

/-- impls.rs:45-68 `send_event` and 76-84 `sign_xrpl_transaction`, before the error is acted on: the
state afterwards and whether the request was accepted. -/
def sendRaw (c : Cfg) (s : St) (mk : Req) (len : Nat) : St × Bool :=
  let s1 := takeId s
  if len ≤ c.maxData then ({ doRequest s1 s.nextId mk with issued := s.nextId :: s.issued }, true)
  else (s1, false)

/-- A request made by an extrinsic: an error rolls everything back. -/
def send (c : Cfg) (s : St) (mk : Req) (len : Nat) : Except Err St :=
  let r := sendRaw c s mk len
  if r.2 then .ok r.1 else .error "MessageTooLarge"

/-- Requests made by a hook: an error leaves what was written (hooks are not transactional). -/
def sendHook (c : Cfg) (s : St) (mk : Req) (len : Nat) : St := (sendRaw c s mk len).1

/-- impls.rs:821-909 `handle_authorities_change`: the handover event, then the XRPL signer-list requests
(one per door account, `xrplMsgs`; empty when the XRPL signers stay the same), then the pause. The event
message carries the id of the next set. -/
def handleChange (c : Cfg) (s : St) (msg len : Nat) (xrplMsgs : List (Nat × Nat)) : St :=
  let s1 := sendHook c s (.eth s.setId msg) len
  let s2 := xrplMsgs.foldl (fun t m => sendHook c t (.xrpl m.1) m.2) s1
  { s2 with change := true }

/-- impls.rs:912-941 `do_finalise_authorities_change`. `setId` is a u64 that counts eras; wrapping is left
out. -/
def finalise (s : St) : St := { s with change := false, setId := s.setId + 1 }

/-- lib.rs:630-669 `on_idle`, for at most `budget` rounds (the remaining weight), with `order` the
iteration order of the storage map. -/
def idle (s : St) (order : List (Nat × Req)) (budget : Nat) : Except Err St := do
  ensure (order.Perm s.pending) "not an iteration order"
  if paused s then pure s
  else
    let k := min s.perBlock budget
    pure ((order.take k).foldl (fun t p => doRequest t p.1 p.2) { s with pending := order.drop k })

/-- What can happen. -/
inductive Op where
  | send (mk : Req) (len : Nat)
  | sendHook (mk : Req) (len : Nat)
  | setPaused (b : Bool)
  | setPerBlock (n : Nat)
  | handleChange (msg len : Nat) (xrplMsgs : List (Nat × Nat))
  | finalise
  | idle (order : List (Nat × Req)) (budget : Nat)
deriving DecidableEq

/-- One operation. -/
def step (c : Cfg) (s : St) : Op → Except Err St
  | .send mk len => send c s mk len
  | .sendHook mk len => .ok (sendHook c s mk len)
  | .setPaused b => .ok { s with manual := b }
  | .setPerBlock n => .ok { s with perBlock := n }
  | .handleChange msg len xs => .ok (handleChange c s msg len xs)
  | .finalise => .ok (finalise s)
  | .idle order budget => idle s order budget

/-- Nothing requested yet. -/
structure Genesis (s : St) : Prop where
  nextId : s.nextId = 0
  pending : s.pending = []
  issued : s.issued = []
  sent : s.sent = []
  taken : s.taken = 0

/-- What can be reached from the start by these operations; an operation that fails changes nothing.
Histories have no counterpart in the code. -/
inductive Reach (c : Cfg) : St → Prop where
  | init {s : St} : Genesis s → Reach c s
  | step {s s' : St} {op : Op} : Reach c s → step c s op = .ok s' → Reach c s'

end Verif.EthyProof
