import Verif.Witness.Model

/-!
# Model of the gossip of bridge signatures between nodes

/repo/ethy-gadget/src/gossip.rs on top of the node's record of signatures (`Verif.Witness`), and the block
bookkeeping of /repo/ethy-gadget/src/worker.rs. Lines are of gossip.rs unless stated otherwise. A message is a
decoded witness: one that does not decode is discarded without effect (200-201). The gossip engine of Substrate
is reduced to a queue of accepted messages from which the worker takes the oldest; its own suppression of
messages it saw byte for byte, and time (`next_rebroadcast`), are not modelled.
-/

namespace Verif.Gossip

open Verif.Witness (Cfg Wit Chain keep)

/-- /repo/primitives/src/ethy.rs:149-165 `Witness`: the part used by the record, and `block_number`. `chain_id`
and `validator_set_id` are read by neither. -/
structure Msg where
  wit : Wit
  block : Nat
deriving DecidableEq

/-- 47 -/
def cacheMax : Nat := 500

/-- 56 -/
def window : Nat := 90

/-- 65-80 `GossipValidator`, the worker's record and the engine's queue, with ghosts. -/
structure St where
  /-- the worker's `witness_record` -/
  rcd : Witness.St
  /-- `known_votes`; a missing entry is the empty list -/
  known : Nat → List Nat
  /-- `complete_events` -/
  complete : List Nat
  /-- `active_validators` -/
  active : List Nat
  /-- `backend.blockchain().info().finalized_number` -/
  finalized : Nat
  /-- accepted messages the worker has not taken yet, oldest first -/
  inbox : List Msg
  /-- ghost: every message ever received, newest first -/
  heard : List Msg
  /-- ghost: the accepted messages for events that were not completed since, newest first -/
  passed : List Msg
  /-- ghost: every validator that was ever active -/
  ever : List Nat

/-- 188, 213, 252: the block number is below the live window. -/
def old (s : St) (m : Msg) : Prop := m.block < s.finalized - window

instance (s : St) (m : Msg) : Decidable (old s m) := by unfold old; infer_instance

/-- 153-196: the vote is new, from an active validator, and its signature verifies: it is remembered
(171-184; binary search of the sorted vector is membership and sorted insertion). -/
def remembers (c : Cfg) (s : St) (m : Msg) : Prop :=
  m.wit.auth ∉ s.known m.wit.event ∧ m.wit.auth ∈ s.active ∧ c.verify m.wit.auth m.wit.sig m.wit.digest = true

instance (c : Cfg) (s : St) (m : Msg) : Decidable (remembers c s m) := by unfold remembers; infer_instance

/-- 135-202 `validate`: the state after it. -/
def validate (c : Cfg) (s : St) (m : Msg) : St :=
  if remembers c s m then
    { s with known := upd s.known m.wit.event (Ethy.insertSorted m.wit.auth (s.known m.wit.event)) }
  else s

/-- 135-202 `validate`: the answer is `ProcessAndKeep`. -/
def accepts (c : Cfg) (s : St) (m : Msg) : Prop := remembers c s m ∧ ¬ old s m

instance (c : Cfg) (s : St) (m : Msg) : Decidable (accepts c s m) := by unfold accepts; infer_instance

/-- A message arrives from a peer. -/
def receive (c : Cfg) (s : St) (m : Msg) : St :=
  let t := { validate c s m with heard := m :: s.heard }
  if accepts c s m then
    { t with
      inbox := s.inbox ++ [m]
      passed := m :: s.passed }
  else t

/-- 204-223 `message_expired`: the stored message is dropped. -/
def expired (s : St) (m : Msg) : Prop := old s m ∨ m.wit.event ∈ s.complete

/-- 246-262 `message_allowed` for any intent but the periodic rebroadcast: the message is sent to a peer. -/
def allowed (s : St) (m : Msg) : Prop := ¬ old s m ∧ m.wit.event ∉ s.complete

/-- 108-119: the cache of completed events after another one. -/
def noteComplete (l : List Nat) (e : Nat) : List Nat :=
  Ethy.insertSorted e (if cacheMax ≤ l.length then l.tail else l)

/-- 105-120 `mark_complete`. -/
def markComplete (s : St) (e : Nat) : St :=
  { s with
    known := upd s.known e []
    complete := noteComplete s.complete e
    passed := s.passed.filter (fun m => m.wit.event ≠ e) }

/-- worker.rs:398-399: the record changed to `r` while event `e` was handled; if a proof was made the gossip
validator is told. -/
def worked (s : St) (r : Witness.St) (e : Nat) : St :=
  if s.rcd.done.length < r.done.length then markComplete { s with rcd := r } e else { s with rcd := r }

/-- What happens at a node. -/
inductive Op where
  /-- a peer sends a message -/
  | recv (m : Msg)
  /-- the worker takes the oldest accepted message (worker.rs:441-443) -/
  | work
  /-- the worker handles a signing request in a finalised block, without or with a key of its own
  (worker.rs:174-237) -/
  | passive (e : Nat) (ch : Chain) (data : Nat)
  | sign (e : Nat) (ch : Chain) (data auth sig : Nat)
  /-- the worker sees a change of validators (worker.rs:287-291) -/
  | setVals (vals : List Nat) (thr : Nat) (xvals : List Nat) (xthr : Nat)
  /-- the client finalises blocks up to `n` -/
  | finalize (n : Nat)

/-- Each case is the function of that name above, or written out. -/
def step (c : Cfg) (s : St) : Op → Except Err St
  | .recv m => .ok (receive c s m)
  | .work =>
    match s.inbox with
    | [] => .ok s
    | m :: l => .ok (worked { s with inbox := l } (Witness.handleWitness c s.rcd m.wit) m.wit.event)
  | .passive e ch data => do
    let r ← Witness.step c s.rcd (.finalPassive e ch data)
    pure (worked s r e)
  | .sign e ch data auth sig => do
    let r ← Witness.step c s.rcd (.finalActive e ch data auth sig)
    pure (worked s r e)
  | .setVals vals thr xvals xthr => do
    let r ← Witness.step c s.rcd (.setVals vals thr xvals xthr)
    pure { s with
      rcd := r
      active := vals
      ever := vals ++ s.ever }
  | .finalize n => .ok { s with finalized := max s.finalized n }

/-- A node that has just been started (gossip.rs `GossipValidator::new`). -/
structure Genesis (s : St) : Prop where
  rcd : Witness.Genesis s.rcd
  known : ∀ e, s.known e = []
  complete : s.complete = []
  inbox : s.inbox = []
  heard : s.heard = []
  passed : s.passed = []
  vals : s.rcd.vals = s.active
  ever : s.ever = s.active

/-- What can be reached from the start by these operations; an operation that fails changes nothing.
Histories have no counterpart in the code. -/
inductive Reach (c : Cfg) : St → Prop where
  | init {s : St} : Genesis s → Reach c s
  | step {s s' : St} (op : Op) : Reach c s → step c s op = .ok s' → Reach c s'

/-- Run operations; one that is refused changes nothing. -/
def exec (c : Cfg) (s : St) : List Op → St
  | [] => s
  | op :: ops => exec c (match step c s op with | .ok s1 => s1 | .error _ => s) ops

theorem exec_reach {c : Cfg} : ∀ (ops : List Op) {s : St}, Reach c s → Reach c (exec c s ops)
  | [], _, h => h
  | op :: ops, s, h => by
    unfold exec
    refine exec_reach ops ?_
    cases hs : step c s op with
    | ok s1 => exact h.step op hs
    | error _ => exact h

end Verif.Gossip
