import Verif.Ledger
import Verif.Ethy.Model

/-!
# Model of the node's collection of bridge signatures

/repo/ethy-gadget/src/witness_record.rs and the parts of /repo/ethy-gadget/src/worker.rs that drive it.
Authorities, signatures, digests and messages are numbers. Hash maps are functions; a missing entry of
`witnesses`, `has_witnessed` or `unverified_witnesses` is the empty list. Lines are of witness_record.rs
unless stated otherwise.
-/

namespace Verif.Witness

/-- /repo/primitives/src/ethy.rs:65-70 `EthyChainId`. -/
inductive Chain where
  | ethereum
  | xrpl
deriving DecidableEq

/-- What is computed by cryptographic primitives. -/
structure Cfg where
  /-- types.rs `data_to_digest`: the digest of a message for a chain and a public key -/
  digestOf : Chain → Nat → Nat → Option Nat
  /-- `EthyKeystore::verify_prehashed` (authority, signature, digest) -/
  verify : Nat → Nat → Nat → Bool

/-- /repo/primitives/src/ethy.rs:149-165 `Witness` (the fields used here). -/
structure Wit where
  event : Nat
  auth : Nat
  digest : Nat
  sig : Nat
deriving DecidableEq

/-- A proof handed to the database and to subscribers (worker.rs:363-396): event, chain and message it is
for, the validator sets and the threshold at that moment, the signatures. -/
structure Proof where
  event : Nat
  chain : Chain
  data : Nat
  vals : List Nat
  xvals : List Nat
  need : Nat
  sigs : List (Nat × Nat)
deriving DecidableEq

/-- 56-72 `WitnessRecord`, with ghosts. -/
structure St where
  /-- `event_meta`: chain and message -/
  evMeta : Nat → Option (Chain × Nat)
  /-- `has_witnessed` -/
  seen : Nat → List Nat
  vals : List Nat
  thr : Nat
  xvals : List Nat
  xthr : Nat
  /-- `witnesses` -/
  wit : Nat → List (Nat × Nat)
  /-- `unverified_witnesses` -/
  unv : Nat → List Wit
  /-- `completed_events` -/
  completed : List Nat
  /-- ghost: events marked complete, newest first -/
  done : List Nat
  /-- ghost: proofs made, newest first -/
  proofs : List Proof
  /-- ghost: events whose request was seen in a finalised block -/
  finalised : List Nat

/-- 291-301: the loop over all but the last two elements: drop the leading run of consecutive ids except its
last element, but keep at least two elements (recursive form). -/
def compact : List Nat → List Nat
  | x :: y :: z :: r => if x + 1 = y then compact (y :: z :: r) else x :: y :: z :: r
  | l => l

/-- 85-95 `mark_complete`. Binary search of the sorted vector is modelled by membership and sorted
insertion. -/
def markComplete (s : St) (e : Nat) : St :=
  { s with
    wit := upd s.wit e []
    evMeta := upd s.evMeta e none
    seen := upd s.seen e []
    unv := upd s.unv e []
    completed := if e ∈ s.completed then s.completed else compact (Ethy.insertSorted e s.completed)
    done := e :: s.done }

/-- 172-187: the event counts as completed. -/
def isCompleted (s : St) (e : Nat) : Prop :=
  e ∈ s.completed ∨ (1 < s.completed.length ∧ e ≤ s.completed.headD 0)

instance (s : St) (e : Nat) : Decidable (isCompleted s e) := by unfold isCompleted; infer_instance

/-- 244-250: insertion by authority index, unless the index is there. -/
def insertIdx (i sig : Nat) : List (Nat × Nat) → List (Nat × Nat)
  | [] => [(i, sig)]
  | (j, t) :: l => if i < j then (i, sig) :: (j, t) :: l else if i = j then (j, t) :: l
      else (j, t) :: insertIdx i sig l

/-- /repo/primitives/src/ethy.rs:125 `authority_index`: the first position. -/
def authIndex (vals : List Nat) (a : Nat) : Option Nat := vals.findIdx? (· == a)

/-- 232-268: record a verified witness. -/
def record (s : St) (w : Wit) : Except Err St := do
  let i ← okOr (authIndex s.vals w.auth) "UnknownAuthority"
  pure { s with
    wit := upd s.wit w.event (insertIdx i w.sig (s.wit w.event))
    seen := upd s.seen w.event (Ethy.insertSorted w.auth (s.seen w.event)) }

/-- 169-271 `note_event_witness`. An error changes nothing. -/
def note (c : Cfg) (s : St) (w : Wit) : Except Err St := do
  ensure (¬ isCompleted s w.event) "CompletedEvent"
  ensure (w.auth ∉ s.seen w.event) "DuplicateWitness"
  match s.evMeta w.event with
  | some m => do
    let d ← okOr (c.digestOf m.1 m.2 w.auth) "DigestCreationFailed"
    ensure (d = w.digest) "MismatchedDigest"
    ensure (c.verify w.auth w.sig d = true) "SignatureVerificationFailed"
    record s w
  | none => .ok { s with unv := upd s.unv w.event (s.unv w.event ++ [w]) }

/-- The state after an attempt whose error is only logged. -/
def keep (s : St) (x : Except Err St) : St :=
  match x with
  | .ok s1 => s1
  | .error _ => s

/-- 143-151 `process_unverified_witnesses`. -/
def processUnverified (c : Cfg) (s : St) (e : Nat) : St :=
  (s.unv e).foldl (fun t w => keep t (note c t w)) { s with unv := upd s.unv e [] }

/-- 113-127: the signatures that count for a chain. -/
def support (vals xvals : List Nat) (ch : Chain) (sigs : List (Nat × Nat)) : List (Nat × Nat) :=
  match ch with
  | .ethereum => sigs
  | .xrpl => sigs.filter (fun p => match vals[p.1]? with
      | some a => (authIndex xvals a).isSome
      | none => false)

/-- 108-111. -/
def threshold (s : St) : Chain → Nat
  | .ethereum => s.thr
  | .xrpl => s.xthr

/-- 105-134 `has_consensus`. -/
def hasConsensus (s : St) (e : Nat) (ch : Chain) : Prop :=
  threshold s ch ≤ (support s.vals s.xvals ch (s.wit e)).length

instance (s : St) (e : Nat) (ch : Chain) : Decidable (hasConsensus s e ch) := by
  unfold hasConsensus; infer_instance

/-- worker.rs:358-400: make the proof if there is consensus. The digest in the proof (368-372) is not
modelled; its creation is assumed not to fail. -/
def makeProof (s : St) (e : Nat) (m : Chain × Nat) : St :=
  if hasConsensus s e m.1 then
    markComplete { s with proofs := ⟨e, m.1, m.2, s.vals, s.xvals, threshold s m.1, s.wit e⟩ :: s.proofs } e
  else s

/-- worker.rs:346-405 `try_make_proof`. -/
def tryMakeProof (c : Cfg) (s : St) (e : Nat) : St :=
  match s.evMeta e with
  | none => s
  | some m => makeProof (processUnverified c s e) e m

/-- worker.rs:316-336 `handle_witness` (gossiping is not modelled). -/
def handleWitness (c : Cfg) (s : St) (w : Wit) : St :=
  match note c s w with
  | .ok s1 => tryMakeProof c s1 w.event
  | .error _ => s

/-- 154-166 `note_event_metadata`: keeps an existing entry. -/
def noteMeta (s : St) (e : Nat) (ch : Chain) (data : Nat) : St :=
  { s with evMeta := upd s.evMeta e (some ((s.evMeta e).getD (ch, data))) }

/-- What the node handles. -/
inductive Op where
  /-- a signing request in a finalised block, seen by a node without a key (worker.rs:174-185) -/
  | finalPassive (e : Nat) (ch : Chain) (data : Nat)
  /-- the same, seen by a validator, who signs (worker.rs:189-238) -/
  | finalActive (e : Nat) (ch : Chain) (data auth sig : Nat)
  /-- a witness from gossip -/
  | gossip (w : Wit)
  /-- a change of validators (worker.rs:276-301, witness_record.rs:76-83) -/
  | setVals (vals : List Nat) (thr : Nat) (xvals : List Nat) (xthr : Nat)
deriving DecidableEq

/-- The request of an event is put into one block only (`Verif.EthyProof.C17_sent_or_pending`) and a block is
processed once (worker.rs:247-250): the model rejects a second request. -/
def step (c : Cfg) (s : St) : Op → Except Err St
  | .finalPassive e ch data => do
    ensure (e ∉ s.finalised) "requested twice"
    pure (tryMakeProof c (noteMeta { s with finalised := e :: s.finalised } e ch data) e)
  | .finalActive e ch data auth sig => do
    ensure (e ∉ s.finalised) "requested twice"
    let s1 := { s with finalised := e :: s.finalised }
    match c.digestOf ch data auth with
    | none => pure s1
    | some d => pure (handleWitness c (noteMeta s1 e ch data) ⟨e, auth, d, sig⟩)
  | .gossip w => .ok (handleWitness c s w)
  | .setVals vals thr xvals xthr => .ok { s with vals := vals, thr := thr, xvals := xvals, xthr := xthr }

/-- A node that has just been started (`WitnessRecord::default`). -/
structure Genesis (s : St) : Prop where
  evMeta : ∀ e, s.evMeta e = none
  seen : ∀ e, s.seen e = []
  wit : ∀ e, s.wit e = []
  unv : ∀ e, s.unv e = []
  completed : s.completed = []
  done : s.done = []
  proofs : s.proofs = []
  finalised : s.finalised = []

/-- States reachable by operations satisfying `P` from a start satisfying `G`. -/
inductive ReachP (c : Cfg) (P : Op → Prop) (G : St → Prop) : St → Prop where
  | init {s : St} : Genesis s → G s → ReachP c P G s
  | step {s s' : St} {op : Op} : ReachP c P G s → P op → step c s op = .ok s' → ReachP c P G s'

abbrev Reach (c : Cfg) : St → Prop := ReachP c (fun _ => True) (fun _ => True)

/-- A history; an operation that fails changes nothing. No counterpart in the code. -/
def exec (c : Cfg) (s : St) : List Op → St
  | [] => s
  | op :: ops => exec c (keep s (step c s op)) ops

theorem exec_reach {c : Cfg} {P : Op → Prop} {G : St → Prop} : ∀ (ops : List Op) {s : St},
    ReachP c P G s → (∀ op ∈ ops, P op) → ReachP c P G (exec c s ops)
  | [], _, h, _ => h
  | op :: ops, s, h, hp => by
    unfold exec
    refine exec_reach ops ?_ (fun o ho => hp o (List.mem_cons_of_mem _ ho))
    cases hs : step c s op with
    | ok s1 => exact h.step (hp op List.mem_cons_self) hs
    | error _ => exact h

end Verif.Witness
