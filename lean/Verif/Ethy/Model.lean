import Verif.Ledger

/-!
# Incoming side of the Ethereum bridge (`pallet/ethy`)

Event claims, their challenge period, challenges, notarizations, replay protection and bonds.
Sources: /repo/pallet/ethy/src/lib.rs, /repo/pallet/ethy/src/impls.rs.

Simplifications: an event claim is one opaque number (`EventClaim`, transaction hash, source, destination
and data); decoding of the ABI data is left out; routing to the destination pallet is the log entry
`delivered`; the effects of the destination are not modelled here. Holds of the native asset in the name
of the bridge are the two maps `free` and `held` (the holds themselves are modelled in `Verif.Holds`).
-/

namespace Verif.Ethy

/-- Public keys of notaries. -/
abbrev Key := Nat

/-- types.rs `EventClaimStatus`. -/
inductive Status where
  | pending
  | challenged
  | provenValid
deriving DecidableEq

/-- What an observer sees: the pallet events that matter here, each with its block. -/
inductive Ev where
  /-- `EventSubmit` (impls.rs:201-205): id, claim, block, block from which it may be processed. -/
  | submitted (id claim at_ processAt : Nat)
  /-- `ProcessingOk` or `ProcessingFailed` (lib.rs:575-589): the claim was handed to its destination. -/
  | delivered (id claim at_ : Nat)
  /-- A notarization was recorded (lib.rs:1074-1098). -/
  | voted (id : Nat) (key : Key) (yes : Bool)
  /-- `Challenged` (lib.rs:1065). -/
  | challenged (id : Nat) (who : Acct)
  /-- `Verified` (impls.rs:713). -/
  | verified (id : Nat)
  /-- `Invalid` (impls.rs:666). -/
  | invalid (id : Nat)
deriving DecidableEq

/-- Runtime constants (/repo/runtime/src/lib.rs:1020-1090): `MaxProcessedMessageIds`,
`MaxMessagesPerBlock`, `MaxChallenges`, `RelayerBond`, `ChallengeBond`, `NotarizationThreshold` in
percent. -/
structure Cfg where
  maxIds : Nat
  maxMsgs : Nat
  maxChallenges : Nat
  relayerBond : Nat
  challengeBond : Nat
  thr : Nat

/-- Storage of the pallet (lib.rs:225-400). -/
structure St where
  now : Nat
  /-- `ChallengePeriod` -/
  period : Nat
  /-- `ProcessedMessageIds` -/
  processed : List Nat
  /-- `MissedMessageIds` -/
  missed : List Nat
  /-- `MessagesValidAt` -/
  validAt : Nat → List Nat
  /-- `PendingEventClaims` -/
  claims : Nat → Option Nat
  /-- `PendingClaimStatus` -/
  status : Nat → Option Status
  /-- `PendingClaimChallenges` -/
  challenges : List Nat
  /-- `ChallengerAccount` -/
  challenger : Nat → Option (Acct × Nat)
  /-- `EventNotarizations` -/
  votes : Nat → List (Key × Bool)
  /-- `NotaryKeys` -/
  notaryKeys : List Key
  /-- number of `AuthoritySet::validators()` -/
  valCount : Nat
  /-- `Relayer` -/
  relayer : Option Acct
  /-- `RelayerPaidBond` -/
  bond : Acct → Nat
  /-- free balance of the native asset -/
  free : Acct → Nat
  /-- amount of the native asset held in the name of the bridge -/
  held : Acct → Nat
  log : List Ev

/-- `if let Err(idx) = v.binary_search(&x) { v.insert(idx, x) }` on a sorted vector (lib.rs:595-597,
impls.rs:125-127). Binary search is modelled by linear search; the lists are proved sorted
(`Verif.Ethy.Inv`). -/
def insertSorted (x : Nat) : List Nat → List Nat
  | [] => [x]
  | y :: ys => if x < y then x :: y :: ys else if x = y then y :: ys else y :: insertSorted x ys

/-- impls.rs:130-143: drop the leading run of consecutive ids except its last element (recursive form of
the position search and drain). -/
def compact : List Nat → List Nat
  | x :: y :: r => if y = x + 1 then compact (y :: r) else x :: y :: r
  | l => l

/-- impls.rs:119-128: the ids from the first removed id up to the first kept one, that were not
processed. -/
def gaps (removed : List Nat) (lo hi : Nat) : List Nat :=
  ((List.range (hi - lo)).map (lo + ·)).filter (fun id => id ∉ removed)

/-- impls.rs:101-146 `prune_claim_ids`, returning the new processed and missed ids. -/
def pruneClaimIds (c : Cfg) (ids missed : List Nat) : List Nat × List Nat :=
  if ids.length ≤ 1 then (ids, missed)
  else
    let k := ids.length - c.maxIds
    let removed := ids.take k
    let kept := ids.drop k
    let missed' := if removed = [] then missed
      else (gaps removed (removed.headD 0) (kept.headD 0)).foldl (fun m id => insertSorted id m) missed
    (compact kept, missed')

/-- The variables of the loop in `on_initialize` (lib.rs:540-613). -/
structure Loop where
  s : St
  /-- `processed_message_ids` -/
  ids : List Nat
  /-- `message_processed` -/
  any : Bool

/-- lib.rs:568-590: take the pending claim, if any, and hand it to its destination. -/
def deliver (s : St) (id : Nat) : St :=
  match s.claims id with
  | some cl => { s with claims := upd s.claims id none, log := .delivered id cl s.now :: s.log }
  | none => s

/-- lib.rs:542-613: the body of the loop over the messages valid at this block. -/
def processOne (acc : Loop) (id : Nat) : Loop :=
  let s := acc.s
  if s.status id = some .challenged then
    { acc with s := { s with
        validAt := upd s.validAt (s.now + s.period) (s.validAt (s.now + s.period) ++ [id]) } }
  else
    let s1 := deliver s id
    if acc.ids.headD 0 ≤ id then
      { s := { s1 with status := upd s1.status id none }, ids := insertSorted id acc.ids, any := true }
    else
      { s := { s1 with missed := s1.missed.erase id, status := upd s1.status id none },
        ids := acc.ids, any := true }

/-- lib.rs:524-628 `on_initialize` of the next block (the change of authorities, 529-536, is in
`Verif.EthyProof`). -/
def onInitialize (c : Cfg) (s : St) : St :=
  let now := s.now + 1
  let ids := s.validAt now
  let s0 := { s with now := now, validAt := upd s.validAt now [] }
  let r := ids.foldl processOne ⟨s0, s0.processed, false⟩
  if r.any = true ∧ r.ids ≠ [] then
    let p := pruneClaimIds c r.ids r.s.missed
    { r.s with processed := p.1, missed := p.2 }
  else r.s

/-- impls.rs:186-207 `do_submit_event`. -/
def doSubmitEvent (c : Cfg) (s : St) (id claim : Nat) : Except Err St := do
  ensure (s.claims id = none) "EventReplayPending"
  let at_ := s.now + s.period
  ensure ((s.validAt at_).length < c.maxMsgs) "MessageTooLarge"
  pure { s with
    validAt := upd s.validAt at_ (s.validAt at_ ++ [id]),
    claims := upd s.claims id (some claim),
    status := upd s.status id (some .pending),
    log := .submitted id claim s.now at_ :: s.log }

/-- lib.rs:1007-1026 `submit_event`. -/
def submitEvent (c : Cfg) (s : St) (who : Acct) (id claim : Nat) : Except Err St := do
  ensure (s.relayer = some who) "NoPermission"
  ensure (s.processed = [] ∨ (s.processed.headD 0 < id ∧ id ∉ s.processed)) "EventReplayProcessed"
  doSubmitEvent c s id claim

/-- lib.rs:980-1002 `submit_missing_event`. -/
def submitMissingEvent (c : Cfg) (s : St) (who : Acct) (id claim : Nat) : Except Err St := do
  ensure (s.relayer = some who) "NoPermission"
  ensure (id ∈ s.missed) "EventReplayProcessed"
  doSubmitEvent c s id claim

/-- Hold of the native asset (assets-ext lib.rs:556-594 `place_hold`). -/
def placeHold (s : St) (who : Acct) (amt : Nat) : Except Err St := do
  ensure (amt ≤ s.free who) "BalanceLow"
  pure { s with
    free := upd s.free who (s.free who - amt),
    held := upd s.held who (s.held who + amt) }

/-- Pay `amt` out of the hold of `who` to `dst` (assets-ext lib.rs:597-679: `release_hold` is
`dst = who`, `spend_hold` with one recipient). -/
def payHold (s : St) (who : Acct) (amt : Nat) (dst : Acct) : Except Err St := do
  ensure (amt ≤ s.held who) "BalanceLow"
  pure { s with
    free := upd s.free dst (s.free dst + amt),
    held := upd s.held who (s.held who - amt) }

/-- lib.rs:1034-1067 `submit_challenge`. -/
def submitChallenge (c : Cfg) (s : St) (who : Acct) (id : Nat) : Except Err St := do
  ensure ((s.claims id).isSome) "NoClaim"
  ensure (s.status id = some .pending) "ClaimAlreadyChallenged"
  let s1 ← placeHold s who c.challengeBond
  ensure (s1.challenges.length < c.maxChallenges) "MaxChallengesExceeded"
  pure { s1 with
    challenges := s1.challenges ++ [id],
    challenger := upd s1.challenger id (some (who, c.challengeBond)),
    status := upd s1.status id (some .challenged),
    log := .challenged id who :: s1.log }

/-- `Percent::from_rational(p, q)` (dependency `sp_arithmetic`): rounds down, at most 100%. -/
def percent (p q : Nat) : Nat := 100 * min p (max q 1) / max q 1

/-- impls.rs:616-635 and 676-694: common start of both verdicts: clear the notarizations (fails if there
are more than notary keys) and remove the claim from the open challenges. `clear_prefix` counts only the entries
of earlier blocks towards its limit; the model counts those of the current block too. -/
def clearVotes (s : St) (id : Nat) : Except Err St := do
  ensure ((s.votes id).length ≤ s.notaryKeys.length) "Internal"
  pure { s with votes := upd s.votes id [], challenges := s.challenges.erase id }

/-- impls.rs:648-660: slash the current relayer in favour of the challenger. -/
def slashRelayer (s : St) (challenger : Acct) : Except Err St :=
  match s.relayer with
  | some r => do
    let s1 ← payHold { s with bond := upd s.bond r 0 } r (s.bond r) challenger
    pure { s1 with relayer := none }
  | none => .ok s

/-- impls.rs:616-671 `handle_invalid_claim`. -/
def handleInvalidClaim (s : St) (id : Nat) : Except Err St := do
  let s0 ← clearVotes s id
  ensure ((s0.claims id).isSome) "InvalidClaim"
  let s1 := { s0 with claims := upd s0.claims id none }
  match s1.challenger id with
  | some cb => do
    let s2 ← payHold { s1 with challenger := upd s1.challenger id none } cb.1 cb.2 cb.1
    let s3 ← slashRelayer s2 cb.1
    pure { s3 with status := upd s3.status id none, log := .invalid id :: s3.log }
  | none => .ok { s1 with log := .invalid id :: s1.log }

/-- impls.rs:675-722 `handle_valid_claim`. -/
def handleValidClaim (s : St) (id : Nat) : Except Err St := do
  let s0 ← clearVotes s id
  ensure ((s0.claims id).isSome) "InvalidClaim"
  match s0.relayer with
  | some r => do
    let s1 ← (match s0.challenger id with
      | some cb => payHold { s0 with challenger := upd s0.challenger id none } cb.1 cb.2 r
      | none => .ok s0)
    pure { s1 with status := upd s1.status id (some .provenValid), log := .verified id :: s1.log }
  | none => .ok s0

/-- Number of recorded votes of one kind (impls.rs:587-597). -/
def countVotes (l : List (Key × Bool)) (yes : Bool) : Nat := (l.filter (fun kv => kv.2 == yes)).length

/-- impls.rs:598-606: decide on the claim once enough votes are in. -/
def decideClaim (c : Cfg) (s : St) (id : Nat) : Except Err St :=
  let nays := countVotes (s.votes id) false
  let yays := countVotes (s.votes id) true
  if percent nays s.valCount > 100 - c.thr then handleInvalidClaim s id
  else if percent yays s.valCount ≥ c.thr then handleValidClaim s id
  else .ok s

/-- lib.rs:717-779 `validate_unsigned` (the signature itself is assumed to be valid) and 1074-1098
`submit_notarization` with impls.rs:569-610 `handle_event_notarization`. -/
def notarize (c : Cfg) (s : St) (idx id : Nat) (yes : Bool) : Except Err St := do
  let key ← okOr s.notaryKeys[idx]? "BadProof"
  ensure (∀ kv ∈ s.votes id, kv.1 ≠ key) "BadProof"
  ensure (s.status id = some .challenged) "InvalidClaim"
  decideClaim c { s with
    votes := upd s.votes id (s.votes id ++ [(key, yes)]),
    log := .voted id key yes :: s.log } id

/-- lib.rs:809-820 `set_relayer` (root). -/
def setRelayer (c : Cfg) (s : St) (who : Acct) : Except Err St := do
  ensure (c.relayerBond ≤ s.bond who) "NoBondPaid"
  pure { s with relayer := some who }

/-- lib.rs:824-845 `deposit_relayer_bond`. -/
def depositBond (c : Cfg) (s : St) (who : Acct) : Except Err St := do
  ensure (s.bond who = 0) "CantBondRelayer"
  let s1 ← placeHold s who c.relayerBond
  pure { s1 with bond := upd s1.bond who c.relayerBond }

/-- lib.rs:849-875 `withdraw_relayer_bond`. -/
def withdrawBond (s : St) (who : Acct) : Except Err St := do
  ensure (s.relayer ≠ some who) "CantUnbondRelayer"
  ensure (0 < s.bond who) "CantUnbondRelayer"
  let s1 ← payHold s who (s.bond who) who
  pure { s1 with bond := upd s1.bond who 0 }

/-- lib.rs:957-972 `remove_missing_event_id` (root). -/
def removeMissing (s : St) (lo hi : Nat) : St :=
  { s with missed := s.missed.filter (fun id => id < lo ∨ hi < id) }

/-- Everything that can happen to the incoming side of the bridge. `setNotaries` is a change of the
validator set by the session machinery; `fund` is any credit of native tokens. -/
inductive Op where
  | submitEvent (who : Acct) (id claim : Nat)
  | submitMissing (who : Acct) (id claim : Nat)
  | challenge (who : Acct) (id : Nat)
  | notarize (idx id : Nat) (yes : Bool)
  | setRelayer (who : Acct)
  | depositBond (who : Acct)
  | withdrawBond (who : Acct)
  | setPeriod (n : Nat)
  | removeMissing (lo hi : Nat)
  | setNotaries (keys : List Key) (count : Nat)
  | fund (who : Acct) (amt : Nat)
  | nextBlock
deriving DecidableEq

/-- One operation. An error changes nothing. -/
def step (c : Cfg) (s : St) : Op → Except Err St
  | .submitEvent who id cl => submitEvent c s who id cl
  | .submitMissing who id cl => submitMissingEvent c s who id cl
  | .challenge who id => submitChallenge c s who id
  | .notarize idx id yes => notarize c s idx id yes
  | .setRelayer who => setRelayer c s who
  | .depositBond who => depositBond c s who
  | .withdrawBond who => withdrawBond s who
  | .setPeriod n => .ok { s with period := n }
  | .removeMissing lo hi => .ok (removeMissing s lo hi)
  | .setNotaries keys n => .ok { s with notaryKeys := keys, valCount := n }
  | .fund who amt => .ok { s with free := upd s.free who (s.free who + amt) }
  | .nextBlock => .ok (onInitialize c s)

/-- Run a list of operations; failing ones leave the state unchanged (they are rejected extrinsics). -/
def exec (c : Cfg) (s : St) : List Op → St
  | [] => s
  | op :: ops => exec c (match step c s op with | .ok s1 => s1 | .error _ => s) ops

/-- The pallet before first use, with any notaries, any free balances and any challenge period. -/
structure Genesis (s : St) : Prop where
  processed : s.processed = []
  missed : s.missed = []
  validAt : ∀ b, s.validAt b = []
  claims : ∀ id, s.claims id = none
  status : ∀ id, s.status id = none
  challenges : s.challenges = []
  challenger : ∀ id, s.challenger id = none
  votes : ∀ id, s.votes id = []
  relayer : s.relayer = none
  bond : ∀ x, s.bond x = 0
  held : ∀ x, s.held x = 0
  log : s.log = []

/-- States reachable by any history whose operations satisfy `P`. -/
inductive ReachP (c : Cfg) (P : Op → Prop) (G : St → Prop) : St → Prop where
  | init {s : St} : Genesis s → G s → ReachP c P G s
  | step {s s' : St} {op : Op} : ReachP c P G s → P op → step c s op = .ok s' → ReachP c P G s'

/-- States reachable by any history. -/
abbrev Reach (c : Cfg) : St → Prop := ReachP c (fun _ => True) (fun _ => True)

end Verif.Ethy
