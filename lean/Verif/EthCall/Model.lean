import Verif.Ledger
import Verif.Ethy.Model

/-!
# Model of the Ethereum call oracle (/repo/pallet/ethy/src/impls.rs:725-813, 1074-1131)

A runtime module requests a call on Ethereum; validators look up the result and notarize it; the result is
passed to the subscriber. A result (`CheckedEthCallResult`) is a number; the order of the numbers is the
order of the results in the `BTreeMap`. Lines are of /repo/pallet/ethy/src/impls.rs unless stated otherwise.
-/

namespace Verif.EthCall

abbrev Key := Nat

/-- The constant of `Config` (/repo/pallet/ethy/src/lib.rs:140-225) used here. -/
structure Cfg where
  /-- `NotarizationThreshold` in percent -/
  thr : Nat

/-- Storage (lib.rs:373-411). -/
structure St where
  /-- `NextEthCallId`; overflow of the `u64` is not modelled. -/
  nextId : Nat
  /-- `EthCallRequestInfo`: only whether there is a request -/
  info : Nat → Bool
  /-- `EthCallRequests` -/
  requests : List Nat
  /-- `EthCallNotarizations` -/
  votes : Nat → List (Key × Nat)
  /-- `EthCallNotarizationsAggregated` -/
  agg : Nat → List (Nat × Nat)
  /-- `NotaryKeys` -/
  notaryKeys : List Key
  /-- number of `AuthoritySet::validators()` -/
  valCount : Nat
  /-- ghost: results passed to subscribers, newest first -/
  answers : List (Nat × Nat)

/-- 1086-1130 `checked_eth_call`. -/
def request (s : St) : St :=
  { s with
    info := upd s.info s.nextId true
    requests := s.requests ++ [s.nextId]
    nextId := s.nextId + 1 }

/-- 785: increment the count of a result in the `BTreeMap`. -/
def bump (r : Nat) : List (Nat × Nat) → List (Nat × Nat)
  | [] => [(r, 1)]
  | (q, n) :: l => if r < q then (r, 1) :: (q, n) :: l else if r = q then (q, n + 1) :: l else (q, n) :: bump r l

/-- 742-780: pass the result to the subscriber and clean up. `clear_prefix` with a limit below the number of
entries leaves a cursor. It counts the entries of earlier blocks only; the model counts those of the current block too. -/
def finish (s : St) (id : Nat) (r : Nat) : Except Err St := do
  ensure ((s.votes id).length ≤ s.notaryKeys.length) "Internal"
  pure { s with
    votes := upd s.votes id []
    agg := upd s.agg id []
    info := upd s.info id false
    requests := s.requests.erase id
    answers := (id, r) :: s.answers }

/-- 790-806: the total of the counts. -/
def total (l : List (Nat × Nat)) : Nat := (l.map Prod.snd).sum

/-- 790-797: the first result with enough votes. -/
def winner (c : Cfg) (n : Nat) (l : List (Nat × Nat)) : Option Nat :=
  (l.find? (fun p => decide (c.thr ≤ Ethy.percent p.2 n))).map Prod.fst

/-- 799-803: some result can still get enough votes. -/
def canReach (c : Cfg) (n : Nat) (l : List (Nat × Nat)) : Bool :=
  l.any (fun p => decide (c.thr ≤ Ethy.percent (p.2 + (n - total l)) n))

/-- 783-812: count and decide. -/
def decideCall (c : Cfg) (s : St) (id : Nat) (r : Nat) : Except Err St :=
  match winner c s.valCount (bump r (s.agg id)) with
  | some w => finish s id w
  | none =>
    if total (bump r (s.agg id)) = s.valCount ∨ canReach c s.valCount (bump r (s.agg id)) = false then
      finish s id r
    else .ok { s with agg := upd s.agg id (bump r (s.agg id)) }

/-- lib.rs:717-779 `validate_unsigned` (the signature itself is assumed to be valid), 1074-1098
`submit_notarization`, impls.rs:725-813 `handle_call_notarization`. -/
def notarize (c : Cfg) (s : St) (idx id : Nat) (r : Nat) : Except Err St := do
  let key ← okOr s.notaryKeys[idx]? "BadProof"
  ensure (∀ kv ∈ s.votes id, kv.1 ≠ key) "BadProof"
  ensure (s.info id = true) "InvalidClaim"
  decideCall c { s with votes := upd s.votes id (s.votes id ++ [(key, r)]) } id r

/-- A request of another pallet, a notarization and a change of notaries. -/
inductive Op where
  | request
  | notarize (idx id : Nat) (r : Nat)
  /-- a change of the validator set by the session machinery -/
  | setNotaries (keys : List Key) (count : Nat)
deriving DecidableEq

/-- Each case is the function of that name above, or written out. -/
def step (c : Cfg) (s : St) : Op → Except Err St
  | .request => .ok (request s)
  | .notarize idx id r => notarize c s idx id r
  | .setNotaries ks n => .ok { s with notaryKeys := ks, valCount := n }

/-- The storage at the start: the default of every item (lib.rs:373-411). -/
structure Genesis (s : St) : Prop where
  info : ∀ i, s.info i = false
  requests : s.requests = []
  votes : ∀ i, s.votes i = []
  agg : ∀ i, s.agg i = []
  answers : s.answers = []

/-- What can be reached from the start by these operations; an operation that fails changes nothing.
Histories have no counterpart in the code. -/
inductive Reach (c : Cfg) : St → Prop where
  | init {s : St} : Genesis s → Reach c s
  | step {s s' : St} {op : Op} : Reach c s → step c s op = .ok s' → Reach c s'

/-- Run a list of operations; rejected ones change nothing. -/
def exec (c : Cfg) (s : St) : List Op → St
  | [] => s
  | op :: ops => exec c (match step c s op with | .ok s1 => s1 | .error _ => s) ops

theorem exec_reach {c : Cfg} : ∀ (ops : List Op) {s : St}, Reach c s → Reach c (exec c s ops)
  | [], _, h => h
  | op :: ops, s, h => by
    unfold exec
    refine exec_reach ops ?_
    cases hs : step c s op with
    | ok s1 => exact h.step hs
    | error _ => exact h

end Verif.EthCall
