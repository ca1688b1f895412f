import Verif.Base

/-!
# Sessions, eras and the notaries of the Ethereum bridge

How the validators of an era become the notaries of the bridge: the hooks for sessions of `/repo/pallet/ethy/src/impls.rs` (line numbers
without a file refer to it), its `on_initialize` (`/repo/pallet/ethy/src/lib.rs:524-535`, called `lib` below) and the runtime's idea of the
last session of an era (`/repo/runtime/src/impls.rs:358-383`), on top of the sessions of `pallet-session` and the eras of `pallet-staking`
(dependencies, as documented there). Blocks are counted.

Simplified: a session ends in any block the history chooses (BABE ends it after a number of slots, of which some stay empty); who is elected
and whether the election succeeds, and whether the scheduler takes a call, are part of the history; the number of a set of notaries does not
wrap. Not modelled: XRPL (see `Verif.Door`), the first era after a failed election at genesis.
-/

namespace Verif.Era

/-- A session key of a validator for the bridge. -/
abbrev Key := Nat

/-- `SessionsPerEra`, `EpochDuration`, `AuthorityChangeDelay` (/repo/runtime/src/lib.rs:893, 990, 1031). -/
structure Cfg where
  spe : Nat
  epoch : Nat
  delay : Nat

/-- `pallet_staking::Forcing`. -/
inductive Forcing where
  | notForcing
  | forceNew
  | forceNone
  | forceAlways
  deriving DecidableEq

/-- The storage of `pallet-ethy` that concerns sets of notaries (/repo/pallet/ethy/src/lib.rs:230-372), of `pallet-session` and of
`pallet-staking` (dependencies). -/
structure St where
  block : Nat
  /-- `Session::current_index`, the keys of its validators and those of the next session -/
  index : Nat
  vals : List Key
  queued : List Key
  /-- `Staking::active_era`, `current_era`, `eras_start_session_index`, `force_era` -/
  active : Nat
  planned : Nat
  start : Nat → Option Nat
  force : Forcing
  /-- `NotaryKeys`, `NextNotaryKeys`, `NotarySetId` -/
  notary : List Key
  nextKeys : List Key
  setId : Nat
  /-- `NextAuthorityChange`, `AuthoritiesChangedThisEra`, `BridgePaused.authorities_change` -/
  nextChange : Option Nat
  changed : Bool
  paused : Bool
  /-- calls of `finalise_authorities_change` at the scheduler -/
  sched : List (Nat × List Key)
  /-- messages to Ethereum about the next notaries, with the number of their set; the latest first -/
  sent : List (Nat × List Key)
  /-- sets of notaries that took effect (`ConsensusLog::AuthoritiesChange`), the latest first -/
  made : List (Nat × List Key)
  /-- ghost: the keys of the validators with which the active era began, and its first block -/
  born : List Key
  bornAt : Nat
  /-- ghost: the first block of the session -/
  began : Nat

/-- /repo/runtime/src/impls.rs:360-383 `is_active_session_final`. -/
def isFinal (c : Cfg) (s : St) : Bool :=
  (match s.start s.active with
    | some a => decide (s.index = a + (c.spe - 1))
    | none => false) ||
  match s.force with
    | .forceNew => true
    | .forceAlways => true
    | _ => false

/-- 831-842 with `send_event`: the message, the ABI encoding of an array of addresses and a number, fits in `MaxEthData`
(/repo/runtime/src/lib.rs:1033). -/
def fits (keys : List Key) : Bool := decide (32 * (3 + keys.length) ≤ 3200)

/-- 814-908 `handle_authorities_change`, without XRPL. -/
def handle (s : St) : St := { s with
  sent := if fits s.nextKeys then (s.setId + 1, s.nextKeys) :: s.sent else s.sent
  changed := s.changed || fits s.nextKeys
  paused := true
  nextChange := none }

/-- 911-941 `do_finalise_authorities_change`. -/
def finalise (s : St) (keys : List Key) : St := { s with
  made := (s.setId + 1, keys) :: s.made
  paused := false
  changed := false
  notary := keys
  setId := s.setId + 1 }

/-- 1053-1085 `on_before_session_ending`. `sch`: the scheduler takes the call. -/
def ending (c : Cfg) (s : St) (sch : Bool) : St :=
  if isFinal c s then
    if s.changed then finalise s s.nextKeys
    else { handle s with sched := if sch then s.sched ++ [(s.block + c.delay, s.nextKeys)] else s.sched }
  else s

/-- `Staking::start_session` and `start_era`. -/
def startSession (s : St) : St :=
  match s.start (s.active + 1) with
  | some a => if a ≤ s.index then { s with
      active := s.active + 1
      born := s.vals
      bornAt := s.block } else s
  | none => s

/-- `Staking::new_session` for the session after the one that begins; `win` is the outcome of the election, if it succeeds. -/
def plan (c : Cfg) (s : St) (win : Option (List Key)) : St :=
  if s.force = .forceNew ∨ s.force = .forceAlways ∨
      (s.force = .notForcing ∧ c.spe ≤ s.index + 1 - (s.start s.planned).getD 0) then
    match win with
    | some keys => { s with
        planned := s.planned + 1
        start := upd s.start (s.planned + 1) (some (s.index + 1))
        queued := keys
        force := if s.force = .forceNew then .notForcing else s.force }
    | none => s
  else s

/-- What the end of a session meets: the outcome of an election, the keys of the present validators, the scheduler. -/
structure Rot where
  win : Option (List Key)
  same : List Key
  sch : Bool

/-- The queued validators take over, `Session::rotate_session`. -/
def advance (s : St) : St := { s with
  vals := s.queued
  index := s.index + 1
  began := s.block }

/-- 1021-1047 `on_new_session`. -/
def onNew (c : Cfg) (s : St) : St := { s with
  nextKeys := s.queued
  nextChange := if isFinal c s then some (s.block + (c.epoch - c.delay)) else s.nextChange }

/-- `Session::rotate_session`, with the hooks in their order. -/
def rotate (c : Cfg) (s : St) (r : Rot) : St :=
  onNew c (plan c { startSession (advance (ending c s r.sch)) with queued := r.same } r.win)

/-- The scheduler: calls that are due, `finalise_authorities_change` (lib:943-950). -/
def runSched (s : St) : St :=
  (s.sched.filter (fun p => decide (p.1 = s.block))).foldl (fun s p => finalise s p.2)
    { s with sched := s.sched.filter (fun p => decide (p.1 ≠ s.block)) }

/-- lib:529-535. -/
def dueChange (s : St) : St := if s.nextChange = some s.block then handle s else s

/-- A block, in the order of the pallets in the runtime (/repo/runtime/src/lib.rs:1392-1440): the scheduler, sessions, the bridge. -/
def block (c : Cfg) (s : St) (r : Option Rot) : St :=
  let s1 := runSched { s with block := s.block + 1 }
  let s2 := match r with
    | some r => rotate c s1 r
    | none => s1
  dueChange s2

/-- What happens in the history. -/
inductive Op where
  /-- a block, perhaps the first of a session -/
  | block (r : Option Rot)
  /-- root: `Staking::force_new_era`, `force_new_era_always`, `force_no_eras`; also by the end of an election -/
  | force (f : Forcing)

/-- A block (`block` above) or a choice of root. -/
def step (c : Cfg) (s : St) : Op → St
  | .block r => block c s r
  | .force f => { s with force := f }

/-- 988-1019 `on_genesis_session`: the first session of the first era. -/
structure Genesis (s : St) : Prop where
  index : s.index = 0
  queued : s.queued = s.vals
  active : s.active = 0
  planned : s.planned = 0
  start : s.start = fun e => if e = 0 then some 0 else none
  force : s.force = .notForcing
  notary : s.notary = s.vals
  nextKeys : s.nextKeys = []
  setId : s.setId = 0
  nextChange : s.nextChange = none
  changed : s.changed = false
  paused : s.paused = false
  sched : s.sched = []
  sent : s.sent = []
  made : s.made = []
  born : s.born = s.vals
  bornAt : s.bornAt = s.block
  began : s.began = s.block

/-- Histories whose steps satisfy `P`. -/
inductive Reach (c : Cfg) (P : St → Op → Prop) : St → Prop
  | init {s : St} : Genesis s → Reach c P s
  | step {s : St} {op : Op} : Reach c P s → P s op → Reach c P (step c s op)

/-- Anything may happen. -/
def Any (_ : St) (_ : Op) : Prop := True

/-- Nothing is forced, elections succeed, the scheduler takes calls, and a session has more blocks than the delay. -/
def Calm (c : Cfg) (s : St) : Op → Prop
  | .force _ => False
  | .block none => True
  | .block (some r) => r.win.isSome = true ∧ r.sch = true ∧ s.began + c.delay < s.block + 1

end Verif.Era
