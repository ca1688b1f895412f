import Verif.Ethy.Demo

/-!
# Events of the incoming side of the Ethereum bridge

The events that `/repo/pallet/ethy/src/lib.rs` and `impls.rs` deposit for claims, challenges, relayers and bonds, as functions
of state and operation. Left out: the events of outgoing proofs and authority changes, and the settings that the incoming side
does not use.
-/

namespace Verif.Ethy

/-- /repo/pallet/ethy/src/lib.rs 403-462. `ProcessingOk` and `ProcessingFailed` are one event here, as the destinations are not
modelled. -/
inductive Said where
  /-- `EventSubmit` -/
  | submit (id claim processAt : Nat)
  /-- `Challenged` -/
  | challenged (id : Nat) (who : Acct)
  /-- `Verified` -/
  | verified (id : Nat)
  /-- `Invalid` -/
  | invalid (id : Nat)
  /-- `ProcessingOk` or `ProcessingFailed` -/
  | processed (id : Nat)
  /-- `ProcessAtExtended` -/
  | extended (id processAt : Nat)
  /-- `RelayerBondDeposit` -/
  | bonded (who : Acct) (bond : Nat)
  /-- `RelayerBondWithdraw` -/
  | unbonded (who : Acct) (bond : Nat)
  /-- `RelayerSet` -/
  | relayer (who : Option Acct)
  /-- `ChallengePeriodSet` -/
  | period (n : Nat)
  /-- `MissingEventIdsRemoved` -/
  | removed (lo hi : Nat)
deriving DecidableEq

/-- lib.rs 546-590: the event of one entry of the schedule. -/
def processEvs (s : St) (id : Nat) : List Said :=
  if s.status id = some .challenged then [.extended id (s.now + s.period)]
  else match s.claims id with
    | some _ => [.processed id]
    | none => []

/-- lib.rs 541-613: the events of the loop. -/
def loopEvs : List Nat → Loop → List Said
  | [], _ => []
  | id :: ids, acc => processEvs acc.s id ++ loopEvs ids (processOne acc id)

/-- lib.rs 524-628: the events of the next block. -/
def blockEvs (s : St) : List Said :=
  let s0 := { s with now := s.now + 1, validAt := upd s.validAt (s.now + 1) [] }
  loopEvs (s.validAt (s.now + 1)) ⟨s0, s0.processed, false⟩

/-- impls.rs 636-666: `RelayerSet` whenever there is a challenger, with or without a relayer, then `Invalid`. -/
def invalidEvs (s : St) (id : Nat) : List Said :=
  match s.challenger id with
  | some _ => [.relayer none, .invalid id]
  | none => [.invalid id]

/-- impls.rs 696-716: nothing without a relayer. -/
def validEvs (s : St) (id : Nat) : List Said :=
  match s.relayer with
  | some _ => [.verified id]
  | none => []

/-- impls.rs 569-610: the events of a notarization, that itself has none; `key` is the notary. -/
def voteEvs (c : Cfg) (s : St) (id : Nat) (key : Key) (yes : Bool) : List Said :=
  let votes := s.votes id ++ [(key, yes)]
  if percent (countVotes votes false) s.valCount > 100 - c.thr then invalidEvs s id
  else if percent (countVotes votes true) s.valCount ≥ c.thr then validEvs s id
  else []

/-- The events of a successful operation: lib.rs 817, 839, 868, 912, 968, 1065, impls.rs 201. -/
def evs (c : Cfg) (s : St) : Op → List Said
  | .submitEvent _ id cl => [.submit id cl (s.now + s.period)]
  | .submitMissing _ id cl => [.submit id cl (s.now + s.period)]
  | .challenge who id => [.challenged id who]
  | .notarize idx id yes => voteEvs c s id (s.notaryKeys.getD idx 0) yes
  | .setRelayer who => [.relayer (some who)]
  | .depositBond who => [.bonded who c.relayerBond]
  | .withdrawBond who => [.unbonded who (s.bond who)]
  | .setPeriod n => [.period n]
  | .removeMissing lo hi => [.removed lo hi]
  | .nextBlock => blockEvs s
  | .setNotaries _ _ => []
  | .fund _ _ => []

/-- The events of an operation; one that fails leaves none. -/
def tell (c : Cfg) (s : St) (op : Op) : List Said :=
  match step c s op with
  | .ok _ => evs c s op
  | .error _ => []

/-- The state after an operation. -/
def next (c : Cfg) (s : St) (op : Op) : St :=
  match step c s op with
  | .ok s1 => s1
  | .error _ => s

/-- The events of a history. -/
def story (c : Cfg) (s : St) : List Op → List Said
  | [] => []
  | op :: ops => tell c s op ++ story c (next c s op) ops

/-! ## Specification: what a reader takes from the events -/

/-- What a reader writes down. -/
@[ext] structure Page where
  period : Nat
  relayer : Option Acct
  bond : Acct → Nat
  /-- the claims that wait -/
  claims : Nat → Option Nat
  status : Nat → Option Status
  /-- whose bond is at stake -/
  challenger : Nat → Option Acct
  /-- the claims handed to their destination, with event ids -/
  handed : List (Nat × Nat)

/-- Who loses office without a successor loses the bond. -/
def Page.slash (p : Page) : Acct → Nat :=
  match p.relayer with
  | some r => upd p.bond r 0
  | none => p.bond

/-- A claim is handed over as it was announced. -/
def Page.hand (p : Page) (id : Nat) : List (Nat × Nat) :=
  match p.claims id with
  | some cl => p.handed ++ [(id, cl)]
  | none => p.handed

def Page.read (p : Page) : Said → Page
  | .submit id cl _ => { p with
      claims := upd p.claims id (some cl)
      status := upd p.status id (some .pending) }
  | .challenged id who => { p with
      status := upd p.status id (some .challenged)
      challenger := upd p.challenger id (some who) }
  | .verified id => { p with
      status := upd p.status id (some .provenValid)
      challenger := upd p.challenger id none }
  | .invalid id => { p with
      claims := upd p.claims id none
      status := upd p.status id none
      challenger := upd p.challenger id none }
  | .processed id => { p with
      handed := p.hand id
      claims := upd p.claims id none
      status := upd p.status id none }
  | .extended _ _ => p
  | .bonded who x => { p with bond := upd p.bond who x }
  | .unbonded who _ => { p with bond := upd p.bond who 0 }
  | .relayer (some who) => { p with relayer := some who }
  | .relayer none => { p with
      bond := p.slash
      relayer := none }
  | .period n => { p with period := n }
  | .removed _ _ => p

/-- Reading all events. -/
def Page.follow (p : Page) (es : List Said) : Page := es.foldl Page.read p

/-- The claims handed over, oldest first. -/
def handedOf : List Ev → List (Nat × Nat)
  | [] => []
  | .delivered id cl _ :: log => handedOf log ++ [(id, cl)]
  | _ :: log => handedOf log

/-- What is stored. -/
def view (s : St) : Page where
  period := s.period
  relayer := s.relayer
  bond := s.bond
  claims := s.claims
  status := s.status
  challenger := fun id => (s.challenger id).map Prod.fst
  handed := handedOf s.log

/-- The block for which `id` was announced. -/
def Said.sets (id b : Nat) : Said → Prop
  | .submit i _ at_ => i = id ∧ at_ = b
  | .extended i at_ => i = id ∧ at_ = b
  | _ => False

/-! ## Proofs -/

/-- What holds of the records of claims. -/
structure Neat (c : Cfg) (s : St) : Prop where
  gone : ∀ id, s.claims id = none → s.status id = none
  at_stake : ∀ id, s.status id = some .challenged → s.challenger id ≠ none
  bond : ∀ id w b, s.challenger id = some (w, b) → b = c.challengeBond

theorem Neat.genesis {c : Cfg} {s : St} (h : Genesis s) : Neat c s where
  gone := fun id _ => h.status id
  at_stake := fun id k => by rw [h.status] at k; cases k
  bond := fun id w b k => by rw [h.challenger] at k; cases k

theorem upd_none {α : Type} {f : Nat → Option α} {i : Nat} (h : f i = none) : upd f i none = f := by
  funext j
  rw [upd_apply]
  split
  · rename_i e; rw [e, h]
  · rfl

/-- What one entry of the schedule does to what the page shows. -/
theorem processOne_page {c : Cfg} (acc : Loop) (id : Nat) (h : Neat c acc.s) :
    (view acc.s).follow (processEvs acc.s id) = view (processOne acc id).s ∧ Neat c (processOne acc id).s := by
  unfold processEvs processOne
  by_cases hc : acc.s.status id = some .challenged
  · rw [if_pos hc]
    simp only [if_pos hc]
    exact ⟨rfl, ⟨h.gone, h.at_stake, h.bond⟩⟩
  · rw [if_neg hc]
    simp only [if_neg hc]
    unfold deliver
    cases hcl : acc.s.claims id with
    | none =>
      have hs := upd_none (h.gone id hcl)
      simp only
      split
      · simp only [hs]
        exact ⟨rfl, ⟨h.gone, h.at_stake, h.bond⟩⟩
      · simp only [hs]
        exact ⟨rfl, ⟨h.gone, h.at_stake, h.bond⟩⟩
    | some cl =>
      simp only
      have hp : (view acc.s).follow [.processed id] = { view acc.s with
          claims := upd acc.s.claims id none
          status := upd acc.s.status id none
          handed := handedOf acc.s.log ++ [(id, cl)] } := by
        simp only [Page.follow, List.foldl_cons, List.foldl_nil, Page.read, Page.hand, view, hcl]
      have hg : ∀ i, upd acc.s.claims id none i = none → upd acc.s.status id none i = none := by
        intro i hi
        rw [upd_apply] at hi ⊢
        split
        · rfl
        · rename_i e; rw [if_neg e] at hi; exact h.gone i hi
      have ha : ∀ i, upd acc.s.status id none i = some .challenged → acc.s.challenger i ≠ none := by
        intro i hi
        rw [upd_apply] at hi
        split at hi
        · cases hi
        · exact h.at_stake i hi
      split <;> exact ⟨hp, ⟨hg, ha, h.bond⟩⟩

theorem follow_append (p : Page) (es fs : List Said) : p.follow (es ++ fs) = (p.follow es).follow fs := List.foldl_append

theorem loop_page {c : Cfg} : ∀ (ids : List Nat) (acc : Loop), Neat c acc.s →
    (view acc.s).follow (loopEvs ids acc) = view (ids.foldl processOne acc).s ∧ Neat c (ids.foldl processOne acc).s
  | [], _, h => ⟨rfl, h⟩
  | id :: ids, acc, h => by
    obtain ⟨h1, h2⟩ := processOne_page acc id h
    unfold loopEvs
    rw [follow_append, h1]
    exact loop_page ids _ h2

theorem block_page {c : Cfg} {s : St} (h : Neat c s) :
    (view s).follow (blockEvs s) = view (onInitialize c s) ∧ Neat c (onInitialize c s) := by
  obtain ⟨h1, h2⟩ := loop_page (c := c) (s.validAt (s.now + 1))
    ⟨{ s with now := s.now + 1, validAt := upd s.validAt (s.now + 1) [] }, s.processed, false⟩ ⟨h.gone, h.at_stake, h.bond⟩
  unfold onInitialize blockEvs
  dsimp only
  split
  · exact ⟨h1, ⟨h2.gone, h2.at_stake, h2.bond⟩⟩
  · exact ⟨h1, h2⟩

theorem submit_page {c : Cfg} {s s' : St} {id cl : Nat} (h : Neat c s) (hs : doSubmitEvent c s id cl = .ok s') :
    (view s).follow [.submit id cl (s.now + s.period)] = view s' ∧ Neat c s' := by
  obtain ⟨_, _, rfl⟩ := doSubmitEvent_ok hs
  refine ⟨rfl, ⟨fun i hi => ?_, fun i hi => ?_, h.bond⟩⟩
  · simp only [upd_apply] at hi ⊢
    split at hi
    · cases hi
    · rename_i e; rw [if_neg e]; exact h.gone i hi
  · simp only [upd_apply] at hi
    split at hi
    · cases hi
    · exact h.at_stake i hi

theorem upd_map {f : Nat → Option (Acct × Nat)} {i : Nat} {x : Option (Acct × Nat)} :
    (fun j => (upd f i x j).map Prod.fst) = upd (fun j => (f j).map Prod.fst) i (x.map Prod.fst) := by
  funext j
  rw [upd_apply, upd_apply]
  split <;> rfl

theorem challenger_upd {c : Cfg} {s : St} (h : Neat c s) {id : Nat} {i : Nat} {w : Acct} {b : Nat}
    (k : upd s.challenger id none i = some (w, b)) : b = c.challengeBond := by
  rw [upd_apply] at k
  split at k
  · cases k
  · exact h.bond i w b k

theorem invalid_page {c : Cfg} {s s' : St} {id : Nat} (h : Neat c s) (hst : s.status id = some .challenged)
    (hs : handleInvalidClaim s id = .ok s') :
    (view s).follow (invalidEvs s id) = view s' ∧ Neat c s' := by
  have hg : ∀ i, upd s.claims id none i = none → upd s.status id none i = none := by
    intro i hi
    rw [upd_apply] at hi ⊢
    split
    · rfl
    · rename_i e; rw [if_neg e] at hi; exact h.gone i hi
  have ha : ∀ i, upd s.status id none i = some .challenged → upd s.challenger id none i ≠ none := by
    intro i hi
    rw [upd_apply] at hi ⊢
    split at hi
    · cases hi
    · rename_i e; rw [if_neg e]; exact h.at_stake i hi
  obtain ⟨_, ⟨hn, _⟩ | ⟨ch, b, hcb, _, ⟨hr, rfl⟩ | ⟨r, f1, h1, hr, _, _, _, rfl⟩⟩⟩ := handleInvalid_ok hs
  · exact absurd hn (h.at_stake id hst)
  · refine ⟨?_, ⟨hg, ha, fun i w b k => challenger_upd h k⟩⟩
    simp only [invalidEvs, hcb, Page.follow, List.foldl_cons, List.foldl_nil, Page.read, Page.slash, view, hr, cleared, upd_map,
      handedOf, Option.map_none]
  · refine ⟨?_, ⟨hg, ha, fun i w b k => challenger_upd h k⟩⟩
    simp only [invalidEvs, hcb, Page.follow, List.foldl_cons, List.foldl_nil, Page.read, Page.slash, view, hr, cleared, upd_map,
      handedOf, Option.map_none]

theorem valid_page {c : Cfg} {s s' : St} {id : Nat} (h : Neat c s) (hst : s.status id = some .challenged)
    (hs : handleValidClaim s id = .ok s') :
    (view s).follow (validEvs s id) = view s' ∧ Neat c s' := by
  obtain ⟨hcl, ⟨hr, rfl⟩ | ⟨r, hr, ⟨hn, _⟩ | ⟨ch, b, hcb, _, rfl⟩⟩⟩ := handleValid_ok hs
  · simp only [validEvs, hr]
    exact ⟨rfl, ⟨h.gone, h.at_stake, h.bond⟩⟩
  · exact absurd hn (h.at_stake id hst)
  · refine ⟨?_, ⟨fun i hi => ?_, fun i hi => ?_, fun i w b k => challenger_upd h k⟩⟩
    · simp only [validEvs, Page.follow, List.foldl_cons, List.foldl_nil, Page.read, view, hr, cleared, upd_map,
        handedOf, Option.map_none]
    · simp only [upd_apply]
      split
      · rename_i e
        rw [e] at hi
        simp only [cleared] at hi
        rw [hi] at hcl
        cases hcl
      · exact h.gone i hi
    · simp only [upd_apply] at hi ⊢
      split at hi
      · cases hi
      · rename_i e; rw [if_neg e]; exact h.at_stake i hi

theorem notarize_page {c : Cfg} {s s' : St} {idx id : Nat} {yes : Bool} (h : Neat c s) (hs : notarize c s idx id yes = .ok s') :
    (view s).follow (voteEvs c s id (s.notaryKeys.getD idx 0) yes) = view s' ∧ Neat c s' := by
  simp only [notarize, bind_ok, ensure_ok, okOr_ok] at hs
  obtain ⟨key, hk, _, _, _, hst, hd⟩ := hs
  have ek : s.notaryKeys.getD idx 0 = key := by rw [List.getD_eq_getElem?_getD, hk]; rfl
  rw [ek]
  have hv : Neat c (withVote s id key yes) := ⟨h.gone, h.at_stake, h.bond⟩
  unfold decideClaim at hd
  unfold voteEvs
  simp only [upd_same] at hd
  dsimp only
  split at hd
  · rename_i h1
    rw [if_pos h1]
    exact invalid_page (s := withVote s id key yes) hv hst hd
  · rename_i h1
    rw [if_neg h1]
    split at hd
    · rename_i h2
      rw [if_pos h2]
      exact valid_page (s := withVote s id key yes) hv hst hd
    · rename_i h2
      rw [if_neg h2]
      cases hd
      exact ⟨rfl, hv⟩

theorem step_page {c : Cfg} {s s' : St} {op : Op} (h : Neat c s) (hs : step c s op = .ok s') :
    (view s).follow (evs c s op) = view s' ∧ Neat c s' := by
  cases op with
  | submitEvent who id cl => exact submit_page h (submitEvent_ok hs).2.2
  | submitMissing who id cl => exact submit_page h (submitMissing_ok hs).2.2
  | challenge who id =>
    obtain ⟨hcl, _, _, _, rfl⟩ := submitChallenge_ok hs
    refine ⟨?_, ⟨fun i hi => ?_, fun i hi => ?_, fun i w b k => ?_⟩⟩
    · simp only [evs, Page.follow, List.foldl_cons, List.foldl_nil, Page.read, view, upd_map, handedOf, Option.map_some]
    · simp only [upd_apply]
      split
      · rename_i e
        rw [e] at hi
        simp only at hi
        rw [hi] at hcl
        cases hcl
      · exact h.gone i hi
    · simp only [upd_apply] at hi ⊢
      split
      · exact (fun k => nomatch k)
      · rename_i e; rw [if_neg e] at hi; exact h.at_stake i hi
    · simp only [upd_apply] at k
      split at k
      · cases k; rfl
      · exact h.bond i w b k
  | notarize idx id yes => exact notarize_page h hs
  | setRelayer who => obtain ⟨_, rfl⟩ := setRelayer_ok hs; exact ⟨rfl, ⟨h.gone, h.at_stake, h.bond⟩⟩
  | depositBond who => obtain ⟨_, _, rfl⟩ := depositBond_ok hs; exact ⟨rfl, ⟨h.gone, h.at_stake, h.bond⟩⟩
  | withdrawBond who => obtain ⟨_, _, _, rfl⟩ := withdrawBond_ok hs; exact ⟨rfl, ⟨h.gone, h.at_stake, h.bond⟩⟩
  | setPeriod n => cases hs; exact ⟨rfl, ⟨h.gone, h.at_stake, h.bond⟩⟩
  | removeMissing lo hi => cases hs; exact ⟨rfl, ⟨h.gone, h.at_stake, h.bond⟩⟩
  | setNotaries ks n => cases hs; exact ⟨rfl, ⟨h.gone, h.at_stake, h.bond⟩⟩
  | fund who x => cases hs; exact ⟨rfl, ⟨h.gone, h.at_stake, h.bond⟩⟩
  | nextBlock => cases hs; exact block_page h

theorem exec_page {c : Cfg} : ∀ (ops : List Op) {s : St}, Neat c s →
    (view s).follow (story c s ops) = view (exec c s ops) ∧ Neat c (exec c s ops)
  | [], _, h => ⟨rfl, h⟩
  | op :: ops, s, h => by
    unfold story exec tell next
    cases hs : step c s op with
    | error e => exact exec_page ops h
    | ok s' =>
      obtain ⟨h1, h2⟩ := step_page h hs
      simp only
      rw [follow_append, h1]
      exact exec_page ops h2

theorem processOne_due {acc : Loop} {x id b : Nat} (h : id ∈ (processOne acc x).s.validAt b) :
    id ∈ acc.s.validAt b ∨ ∃ e ∈ processEvs acc.s x, e.sets id b := by
  unfold processOne at h
  by_cases hc : acc.s.status x = some .challenged
  · simp only [if_pos hc, upd_apply] at h
    split at h
    · rename_i e
      rcases List.mem_append.1 h with h | h
      · exact .inl (e ▸ h)
      · refine .inr ⟨.extended x (acc.s.now + acc.s.period), ?_, ⟨(List.mem_singleton.1 h).symm, e.symm⟩⟩
        unfold processEvs
        rw [if_pos hc]
        exact List.mem_cons_self
    · exact .inl h
  · simp only [if_neg hc] at h
    left
    unfold deliver at h
    cases hcl : acc.s.claims x with
    | none => rw [hcl] at h; split at h <;> exact h
    | some cl => rw [hcl] at h; split at h <;> exact h

theorem loop_due {id b : Nat} : ∀ (ids : List Nat) (acc : Loop), id ∈ (ids.foldl processOne acc).s.validAt b →
    id ∈ acc.s.validAt b ∨ ∃ e ∈ loopEvs ids acc, e.sets id b
  | [], _, h => .inl h
  | x :: ids, acc, h => by
    unfold loopEvs
    rcases loop_due ids _ h with h | ⟨e, he, hb⟩
    · rcases processOne_due h with h | ⟨e, he, hb⟩
      · exact .inl h
      · exact .inr ⟨e, List.mem_append_left _ he, hb⟩
    · exact .inr ⟨e, List.mem_append_right _ he, hb⟩

theorem submit_due_told {c : Cfg} {s s' : St} {id cl i b : Nat} (hs : doSubmitEvent c s id cl = .ok s') (h : i ∈ s'.validAt b) :
    i ∈ s.validAt b ∨ ∃ e ∈ [Said.submit id cl (s.now + s.period)], e.sets i b := by
  obtain ⟨_, _, rfl⟩ := doSubmitEvent_ok hs
  simp only [upd_apply] at h
  split at h
  · rename_i e
    rcases List.mem_append.1 h with h | h
    · exact .inl (e ▸ h)
    · exact .inr ⟨_, List.mem_cons_self, ⟨(List.mem_singleton.1 h).symm, e.symm⟩⟩
  · exact .inl h

theorem step_due {c : Cfg} {s s' : St} {op : Op} {id b : Nat} (hs : step c s op = .ok s') (h : id ∈ s'.validAt b) :
    id ∈ s.validAt b ∨ ∃ e ∈ evs c s op, e.sets id b := by
  cases op with
  | submitEvent who i cl => exact submit_due_told (submitEvent_ok hs).2.2 h
  | submitMissing who i cl => exact submit_due_told (submitMissing_ok hs).2.2 h
  | challenge who i => obtain ⟨_, _, _, _, rfl⟩ := submitChallenge_ok hs; exact .inl h
  | notarize idx i yes => rw [(notarize_frame hs).2.2.2.2.1] at h; exact .inl h
  | setRelayer who => obtain ⟨_, rfl⟩ := setRelayer_ok hs; exact .inl h
  | depositBond who => obtain ⟨_, _, rfl⟩ := depositBond_ok hs; exact .inl h
  | withdrawBond who => obtain ⟨_, _, _, rfl⟩ := withdrawBond_ok hs; exact .inl h
  | setPeriod n => cases hs; exact .inl h
  | removeMissing lo hi => cases hs; exact .inl h
  | setNotaries ks n => cases hs; exact .inl h
  | fund who x => cases hs; exact .inl h
  | nextBlock =>
    cases hs
    have hl : id ∈ ((s.validAt (s.now + 1)).foldl processOne
        ⟨{ s with now := s.now + 1, validAt := upd s.validAt (s.now + 1) [] }, s.processed, false⟩).s.validAt b := by
      unfold onInitialize at h
      dsimp only at h
      split at h <;> exact h
    rcases loop_due _ _ hl with h | h
    · simp only [upd_apply] at h
      split at h
      · cases h
      · exact .inl h
    · exact .inr h

theorem exec_due {c : Cfg} {id b : Nat} : ∀ (ops : List Op) {s : St}, id ∈ (exec c s ops).validAt b →
    id ∈ s.validAt b ∨ ∃ e ∈ story c s ops, e.sets id b
  | [], _, h => .inl h
  | op :: ops, s, h => by
    unfold exec at h
    unfold story tell next
    cases hs : step c s op with
    | error e => rw [hs] at h; exact exec_due ops h
    | ok s' =>
      rw [hs] at h
      rcases exec_due ops h with h | ⟨e, he, hb⟩
      · rcases step_due hs h with h | ⟨e, he, hb⟩
        · exact .inl h
        · exact .inr ⟨e, List.mem_append_left _ he, hb⟩
      · exact .inr ⟨e, List.mem_append_right _ he, hb⟩

/-! ## C247 -/

/-- C247: a reader who starts with the pallet's first block and follows the events knows, after any history, the challenge
period, the relayer, every relayer's bond, every claim that waits with its stage and challenger, and which claims were handed
to their destinations, in which order. -/
theorem C247_page {c : Cfg} {g : St} (hg : Genesis g) (ops : List Op) :
    (view g).follow (story c g ops) = view (exec c g ops) :=
  (exec_page ops (.genesis hg)).1

/-- C247: the story of a claim that is challenged and confirmed. -/
example : story cfg0 g0 (opsValid ++ blocks 10) = [.bonded 1 100, .relayer (some 1), .submit 5 100 10, .challenged 5 2,
    .verified 5, .processed 5] ∧
    ((view g0).follow (story cfg0 g0 (opsValid ++ blocks 10))).handed = [(5, 100)] := by decide +kernel

/-- C247: and of one that is rejected. -/
example : story cfg0 g0 opsInvalid = [.bonded 1 100, .relayer (some 1), .submit 5 100 10, .challenged 5 2, .relayer none,
    .invalid 5] ∧
    ((view g0).follow (story cfg0 g0 opsInvalid)).bond 1 = 0 := by decide +kernel

/-- C247: no claim is due at a block that was not announced for it. -/
theorem C247_due {c : Cfg} {g : St} (hg : Genesis g) (ops : List Op) {id b : Nat} (h : id ∈ (exec c g ops).validAt b) :
    ∃ e ∈ story c g ops, e.sets id b := by
  rcases exec_due ops h with h | h
  · rw [hg.validAt] at h; cases h
  · exact h

/-- C247: a claim that is still challenged when it is due is put off, and announced again. -/
example : 5 ∈ (exec cfg0 g0 (opsChallenge ++ blocks 10)).validAt 20 ∧
    Said.extended 5 20 ∈ story cfg0 g0 (opsChallenge ++ blocks 10) := by decide +kernel

/-- A verdict. -/
def Said.verdict (id : Nat) : Said → Prop
  | .invalid i => i = id
  | .verified i => i = id
  | _ => False

theorem loopEvs_verdict {id : Nat} : ∀ (ids : List Nat) (acc : Loop), ∀ e ∈ loopEvs ids acc, ¬ e.verdict id
  | [], _, _, h => nomatch h
  | x :: ids, acc, e, h => by
    unfold loopEvs at h
    rcases List.mem_append.1 h with h | h
    · unfold processEvs at h
      split at h
      · cases List.mem_singleton.1 h; exact (fun k => k)
      · split at h
        · cases List.mem_singleton.1 h; exact (fun k => k)
        · cases h
    · exact loopEvs_verdict ids _ e h

/-- Verdicts are announced with the vote that decides, and the first of the two outcomes is that of a rejected claim. -/
theorem verdict_cases {c : Cfg} {s : St} {op : Op} {id : Nat} {e : Said} (hv : e.verdict id) (h : e ∈ tell c s op) :
    ∃ s1 s', next c s op = s' ∧ s1.challenger = s.challenger ∧ s1.relayer = s.relayer ∧ s1.free = s.free ∧ s1.bond = s.bond ∧
      s.status id = some .challenged ∧
      ((e ∈ invalidEvs s id ∧ handleInvalidClaim s1 id = .ok s') ∨ (e ∈ validEvs s id ∧ handleValidClaim s1 id = .ok s')) := by
  unfold tell at h
  unfold next
  cases hs : step c s op with
  | error x => rw [hs] at h; cases h
  | ok s' =>
    rw [hs] at h
    simp only at h ⊢
    cases op with
    | notarize idx i yes =>
      have hs' : notarize c s idx i yes = .ok s' := hs
      simp only [notarize, bind_ok, ensure_ok, okOr_ok] at hs'
      obtain ⟨key, hk, _, _, _, hst, hd⟩ := hs'
      have ek : s.notaryKeys.getD idx 0 = key := by rw [List.getD_eq_getElem?_getD, hk]; rfl
      simp only [evs, ek, voteEvs] at h
      unfold decideClaim at hd
      simp only [upd_same] at hd
      have ei : ∀ {l : List Said}, e ∈ l → (l = invalidEvs s i ∨ l = validEvs s i) → i = id := by
        intro l hl hl'
        rcases hl' with rfl | rfl
        · unfold invalidEvs at hl
          split at hl
          · simp only [List.mem_cons, List.not_mem_nil, or_false] at hl
            rcases hl with rfl | rfl
            · exact absurd hv (fun k => k)
            · exact hv
          · cases List.mem_singleton.1 hl; exact hv
        · unfold validEvs at hl
          split at hl
          · cases List.mem_singleton.1 hl; exact hv
          · cases hl
      split at hd
      · rename_i h1
        rw [if_pos h1] at h
        cases ei h (.inl rfl)
        exact ⟨withVote s id key yes, s', rfl, rfl, rfl, rfl, rfl, hst, .inl ⟨h, hd⟩⟩
      · rename_i h1
        rw [if_neg h1] at h
        split at hd
        · rename_i h2
          rw [if_pos h2] at h
          cases ei h (.inr rfl)
          exact ⟨withVote s id key yes, s', rfl, rfl, rfl, rfl, rfl, hst, .inr ⟨h, hd⟩⟩
        · rename_i h2
          rw [if_neg h2] at h
          cases h
    | nextBlock => exact absurd hv (loopEvs_verdict _ _ e h)
    | setNotaries ks n => cases h
    | fund w x => cases h
    | submitEvent w i cl => cases List.mem_singleton.1 h; exact absurd hv (fun k => k)
    | submitMissing w i cl => cases List.mem_singleton.1 h; exact absurd hv (fun k => k)
    | challenge w i => cases List.mem_singleton.1 h; exact absurd hv (fun k => k)
    | setRelayer w => cases List.mem_singleton.1 h; exact absurd hv (fun k => k)
    | depositBond w => cases List.mem_singleton.1 h; exact absurd hv (fun k => k)
    | withdrawBond w => cases List.mem_singleton.1 h; exact absurd hv (fun k => k)
    | setPeriod n => cases List.mem_singleton.1 h; exact absurd hv (fun k => k)
    | removeMissing a b => cases List.mem_singleton.1 h; exact absurd hv (fun k => k)

/-- The bond of the relayer in office. -/
def Page.officeBond (p : Page) : Nat :=
  match p.relayer with
  | some r => p.bond r
  | none => 0

/-- C247: when a claim is announced as invalid, the challenger on the page gets the challenger's bond back and the bond of the
relayer on the page. -/
theorem C247_invalid {c : Cfg} {g : St} (hg : Genesis g) (ops : List Op) {op : Op} {id : Nat}
    (h : Said.invalid id ∈ tell c (exec c g ops) op) :
    ∃ w, ((view g).follow (story c g ops)).challenger id = some w ∧
      (next c (exec c g ops) op).free w =
        (exec c g ops).free w + c.challengeBond + ((view g).follow (story c g ops)).officeBond := by
  rw [C247_page hg]
  have hn := (exec_page (c := c) ops (.genesis hg)).2
  generalize exec c g ops = s at *
  obtain ⟨s1, s', e', hc, hr, hf, hb, hst, ⟨_, k⟩ | ⟨k, _⟩⟩ := verdict_cases (id := id) (e := .invalid id) rfl h
  · rw [e']
    obtain ⟨_, ⟨hx, _⟩ | ⟨ch, b, hcb, _, hx⟩⟩ := handleInvalid_ok k
    · rw [hc] at hx
      exact absurd hx (hn.at_stake id hst)
    · rw [hc] at hcb
      have eb := hn.bond id ch b hcb
      refine ⟨ch, by simp only [view, hcb, Option.map_some], ?_⟩
      rcases hx with ⟨hx, rfl⟩ | ⟨r, f1, h1, hx, rfl, _, _, rfl⟩
      · rw [hr] at hx
        simp only [Page.officeBond, view, hx, upd_same, hf, eb, Nat.add_zero]
      · rw [hr] at hx
        simp only [Page.officeBond, view, hx, upd_same, hf, eb, hb]
  · unfold validEvs at k
    split at k
    · cases List.mem_singleton.1 k
    · cases k

/-- C247: in the rejected history challenger 2 gets 100 back and 100 of the relayer. -/
example : Said.invalid 5 ∈ tell cfg0 (exec cfg0 g0 (opsChallenge ++ [.notarize 0 5 false])) (.notarize 3 5 false) ∧
    (exec cfg0 g0 opsInvalid).free 2 = 1100 ∧ (exec cfg0 g0 opsChallenge).free 2 = 900 := by decide +kernel

/-- C247: when a claim is announced as verified, the relayer on the page gets the bond of the challenger on the page. -/
theorem C247_verified {c : Cfg} {g : St} (hg : Genesis g) (ops : List Op) {op : Op} {id : Nat}
    (h : Said.verified id ∈ tell c (exec c g ops) op) :
    ∃ r w, ((view g).follow (story c g ops)).relayer = some r ∧ ((view g).follow (story c g ops)).challenger id = some w ∧
      (next c (exec c g ops) op).free r = (exec c g ops).free r + c.challengeBond := by
  rw [C247_page hg]
  have hn := (exec_page (c := c) ops (.genesis hg)).2
  generalize exec c g ops = s at *
  obtain ⟨s1, s', e', hc, hr, hf, hb, hst, ⟨k, _⟩ | ⟨k, hk⟩⟩ := verdict_cases (id := id) (e := .verified id) rfl h
  · unfold invalidEvs at k
    split at k
    · simp at k
    · simp at k
  · rw [e']
    obtain ⟨_, ⟨hx, _⟩ | ⟨r, hx, ⟨hy, _⟩ | ⟨ch, b, hcb, _, rfl⟩⟩⟩ := handleValid_ok hk
    · rw [hr] at hx
      simp [validEvs, hx] at k
    · rw [hc] at hy
      exact absurd hy (hn.at_stake id hst)
    · rw [hc] at hcb
      rw [hr] at hx
      refine ⟨r, ch, hx, by simp only [view, hcb, Option.map_some], ?_⟩
      simp only [upd_same, hf, hn.bond id ch b hcb]

/-- C247: in the confirmed history relayer 1 gets the 100 of the challenger. -/
example : Said.verified 5 ∈ tell cfg0 (exec cfg0 g0 (opsChallenge ++ [.notarize 0 5 true, .notarize 1 5 true]))
      (.notarize 2 5 true) ∧
    (exec cfg0 g0 opsValid).free 1 = 1000 ∧ (exec cfg0 g0 opsChallenge).free 1 = 900 := by decide +kernel

/-- Relayer 1 submits two claims, both are challenged, the first is rejected: nobody is relayer. -/
def opsVacant : List Op :=
  [.depositBond 1, .setRelayer 1, .submitEvent 1 5 100, .submitEvent 1 6 200, .challenge 2 5, .challenge 3 6,
   .notarize 0 5 false, .notarize 3 5 false]

/-- C247 fails for verdicts in a vacancy: the notaries confirm claim 6, which ends its challenge and clears their votes, but
nothing is announced. A reader cannot tell this history from the one in which nobody voted, where the challenge is open. -/
theorem C247_refuted :
    ∃ ops₁ ops₂ : List Op, story cfg0 g0 ops₁ = story cfg0 g0 ops₂ ∧
      (exec cfg0 g0 ops₁).now = (exec cfg0 g0 ops₂).now ∧
      6 ∈ (exec cfg0 g0 ops₁).challenges ∧ 6 ∉ (exec cfg0 g0 ops₂).challenges ∧
      (exec cfg0 g0 ops₂).status 6 = some .challenged :=
  ⟨opsVacant, opsVacant ++ [.notarize 0 6 true, .notarize 1 6 true, .notarize 2 6 true], by decide +kernel⟩

/-- C247 fails for lost event ids: at the block announced for the rejected claim 5 its id is marked as processed without an
event, and from then on the genuine event 5 is refused. -/
theorem C247_lost_refuted :
    ∃ ops : List Op, story cfg0 g0 (ops ++ [.nextBlock]) = story cfg0 g0 ops ∧
      5 ∉ (exec cfg0 g0 ops).processed ∧ (step cfg0 (exec cfg0 g0 ops) (.submitEvent 4 5 101)).isOk = true ∧
      5 ∈ (exec cfg0 g0 (ops ++ [.nextBlock])).processed ∧
      (step cfg0 (exec cfg0 g0 (ops ++ [.nextBlock])) (.submitEvent 4 5 101)).isOk = false :=
  ⟨opsInvalid ++ [.depositBond 4, .setRelayer 4] ++ blocks 9, by decide +kernel⟩

end Verif.Ethy
