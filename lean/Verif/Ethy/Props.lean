import Verif.Ethy.Demo

/-!
# Properties of the incoming side of the bridge

`Reach c s`: `s` is the result of any history of calls by any accounts, in any block schedule.
`deliveries id log`: the log entries that hand event `id` to its destination.
`ReachP c P G s`: the same, with every operation satisfying `P` and the initial state satisfying `G`.
-/

namespace Verif.Ethy

/-! ## C12 -/

/-- C12. No event id is delivered more than once, over any history. -/
theorem C12_delivered_once {c : Cfg} {s : St} (h : Reach c s) (hmax : 0 < c.maxIds) (id : Nat) :
    (s.log.filter (fun e => match e with | .delivered i _ _ => i == id | _ => false)).length ≤ 1 := by
  have h1 := (h.ri hmax).once id
  have e : deliveries id s.log =
      s.log.filter (fun e => match e with | .delivered i _ _ => i == id | _ => false) := by
    unfold deliveries
    congr 1
  rw [← e]; exact h1

/-- C12 is not vacuous: after a delivery every further submission of the id is refused. -/
example : Ev.delivered 5 100 10 ∈ (exec cfg0 g0 (opsValid ++ blocks 10)).log ∧
    errIs (submitEvent cfg0 (exec cfg0 g0 (opsValid ++ blocks 10)) 1 5 100) "EventReplayProcessed" = true := by
  constructor <;> decide +kernel

/-! ## C13 -/

/-- C13, first half. A block delivers only events that are not challenged. -/
theorem C13_challenged_not_delivered {c : Cfg} {s s' : St} (h : step c s .nextBlock = .ok s') :
    ∃ ext, s'.log = ext ++ s.log ∧ ∀ id cl t, Ev.delivered id cl t ∈ ext → s.status id ≠ some .challenged := by
  simp only [step, Except.ok.injEq] at h
  subst h
  obtain ⟨pp, mm, e⟩ := onInitialize_eq c s
  rw [e]
  obtain ⟨ext, hl, hext⟩ := loop_log (s.validAt (s.now + 1)) (startLoop s)
  refine ⟨ext, hl, ?_⟩
  intro id cl t hm
  obtain ⟨i, cl', h1, _, h2, _⟩ := hext _ hm
  cases h1
  exact h2

/-- C13, first half: no other operation delivers anything. -/
theorem C13_only_blocks_deliver {c : Cfg} {s s' : St} {op : Op} (h : step c s op = .ok s')
    (hop : op ≠ .nextBlock) (id cl t : Nat) (hd : Ev.delivered id cl t ∈ s'.log) :
    Ev.delivered id cl t ∈ s.log := by
  have drop : ∀ {e : Ev}, (∀ i cl t, e ≠ .delivered i cl t) → s'.log = e :: s.log →
      Ev.delivered id cl t ∈ s.log := by
    intro e he hl
    rw [hl] at hd
    rcases List.mem_cons.mp hd with h1 | h1
    · exact absurd h1.symm (he _ _ _)
    · exact h1
  cases op with
  | submitEvent who i cl' =>
    obtain ⟨_, _, rfl⟩ := doSubmitEvent_ok (submitEvent_ok h).2.2; exact drop (by simp) rfl
  | submitMissing who i cl' =>
    obtain ⟨_, _, rfl⟩ := doSubmitEvent_ok (submitMissing_ok h).2.2; exact drop (by simp) rfl
  | challenge who i =>
    obtain ⟨_, _, _, _, rfl⟩ := submitChallenge_ok h; exact drop (by simp) rfl
  | notarize idx i yes =>
    obtain ⟨_, _, _, _, _, _, _, _, ⟨ext, h9, h10, _⟩, _⟩ := notarize_frame h
    rw [h9] at hd
    rcases List.mem_append.mp hd with h1 | h1
    · have := h10 id _ h1
      simp [isDelivery] at this
    · exact h1
  | setRelayer who => obtain ⟨_, rfl⟩ := setRelayer_ok h; exact hd
  | depositBond who => obtain ⟨_, _, rfl⟩ := depositBond_ok h; exact hd
  | withdrawBond who => obtain ⟨_, _, _, rfl⟩ := withdrawBond_ok h; exact hd
  | setPeriod n => simp only [step, Except.ok.injEq] at h; subst h; exact hd
  | removeMissing lo hi => simp only [step, Except.ok.injEq] at h; subst h; exact hd
  | setNotaries keys n => simp only [step, Except.ok.injEq] at h; subst h; exact hd
  | fund who amt => simp only [step, Except.ok.injEq] at h; subst h; exact hd
  | nextBlock => exact absurd rfl hop

/-- Non-vacuity: a challenged event is still undelivered after its block has passed. -/
example : (exec cfg0 g0 (opsChallenge ++ blocks 25)).now = 25 ∧
    (exec cfg0 g0 (opsChallenge ++ blocks 25)).claims 5 = some 100 ∧
    (exec cfg0 g0 (opsChallenge ++ blocks 25)).log.length = 2 := by
  refine ⟨?_, ?_, ?_⟩ <;> decide +kernel

/-- C13, second half, for ids without an invalid verdict: a delivered claim was submitted, with the same
content, at least `k` blocks before its delivery, if the challenge period was never below `k`.
Missing: ids on which an invalid verdict was reached (see `C13_stale_schedule_refuted`). -/
theorem C13_waits_challenge_period_partial {c : Cfg} {k : Nat} {s : St}
    (h : ReachP c (fun op => ∀ n, op = .setPeriod n → k ≤ n) (fun s => k ≤ s.period) s)
    (hmax : 0 < c.maxIds) {id cl t : Nat} (hd : Ev.delivered id cl t ∈ s.log)
    (hv : Ev.invalid id ∉ s.log) :
    ∃ a p, Ev.submitted id cl a p ∈ s.log ∧ a + k ≤ t := by
  have hj := ReachP.ji (k := k) hmax h
  obtain ⟨a, p, hs⟩ := hj.dsrc id cl t hd
  exact ⟨a, p, hs, hj.done id cl t hd hv cl a p hs⟩

/-- Non-vacuity: event 5 submitted at block 0, delivered at block 10, period 10 throughout. -/
example : ReachP cfg0 (fun op => ∀ n, op = .setPeriod n → 10 ≤ n) (fun s => 10 ≤ s.period)
      (exec cfg0 g0 (opsValid ++ blocks 10)) ∧
    Ev.delivered 5 100 10 ∈ (exec cfg0 g0 (opsValid ++ blocks 10)).log ∧
    Ev.invalid 5 ∉ (exec cfg0 g0 (opsValid ++ blocks 10)).log := by
  refine ⟨exec_reach _ (.init genesis_g0 (by decide)) ?_, ?_, ?_⟩
  · intro op ho n e
    subst e
    revert ho
    simp [opsValid, opsChallenge, opsSubmit, blocks]
  · decide +kernel
  · decide +kernel

/-- A false claim for event 5 is struck down; at block 9 the next relayer submits another claim for it. -/
def opsStale : List Op :=
  opsInvalid ++ blocks 9 ++ [.depositBond 3, .setRelayer 3, .submitEvent 3 5 101, .nextBlock]

/-- C13, second half, is false in general: the entry left behind by a struck-down claim delivers the next
claim for that id after one block, although the challenge period is 10 blocks throughout. -/
theorem C13_stale_schedule_refuted :
    ∃ s, ReachP cfg0 (fun op => ∀ n, op = .setPeriod n → 10 ≤ n) (fun s => 10 ≤ s.period) s ∧
      Ev.delivered 5 101 10 ∈ s.log ∧ Ev.submitted 5 101 9 19 ∈ s.log ∧
      (∀ a p, Ev.submitted 5 101 a p ∈ s.log → a = 9) := by
  refine ⟨exec cfg0 g0 opsStale, exec_reach _ (.init genesis_g0 (by decide)) ?_, ?_, ?_, ?_⟩
  · intro op ho n e
    subst e
    revert ho
    simp [opsStale, opsInvalid, opsChallenge, opsSubmit, blocks]
  · decide +kernel
  · decide +kernel
  · have hl : (exec cfg0 g0 opsStale).log = [.delivered 5 101 10, .submitted 5 101 9 19, .invalid 5,
        .voted 5 14 false, .voted 5 11 false, .challenged 5 2, .submitted 5 100 0 10] := by decide +kernel
    rw [hl]
    intro a p hm
    simp at hm
    exact hm.1

/-! ## C14 -/

theorem submitEvent_accept {c : Cfg} {s : St} {who : Acct} {id cl : Nat} (h1 : s.relayer = some who)
    (h2 : s.processed = [] ∨ (s.processed.headD 0 < id ∧ id ∉ s.processed)) (h3 : s.claims id = none)
    (h4 : (s.validAt (s.now + s.period)).length < c.maxMsgs) :
    submitEvent c s who id cl = .ok { s with
      validAt := upd s.validAt (s.now + s.period) (s.validAt (s.now + s.period) ++ [id]),
      claims := upd s.claims id (some cl),
      status := upd s.status id (some .pending),
      log := .submitted id cl s.now (s.now + s.period) :: s.log } := by
  unfold submitEvent doSubmitEvent
  dsimp only
  rw [ensure_pos h1, ensure_pos h2, ensure_pos h3, ensure_pos h4]
  rfl

/-- C14, part: after an invalid verdict the claim is gone, and a relayer may submit another claim for the
same id as long as the id itself has not been marked as processed.
Missing: that the id is not marked as processed in the meantime (see `C14_genuine_event_blocked_refuted`). -/
theorem C14_resubmission_partial {c : Cfg} {s s' : St} (hr : Reach c s) {idx id : Nat} {yes : Bool}
    (h : step c s (.notarize idx id yes) = .ok s') (hv : Ev.invalid id ∈ s'.log) (hn : Ev.invalid id ∉ s.log)
    {s'' : St} {who : Acct} (h2 : step c s' (.setRelayer who) = .ok s'')
    (hp : s''.processed = [] ∨ (s''.processed.headD 0 < id ∧ id ∉ s''.processed))
    (hroom : (s''.validAt (s''.now + s''.period)).length < c.maxMsgs) (cl : Nat) :
    ∃ s3, step c s'' (.submitEvent who id cl) = .ok s3 ∧ s3.claims id = some cl := by
  obtain ⟨_, rfl⟩ := setRelayer_ok h2
  have hc : s'.claims id = none := by
    obtain ⟨key, _, _, _, ⟨_, hi⟩ | ⟨_, hi⟩ | ⟨_, _, rfl⟩⟩ := notarize_ok h
    · obtain ⟨_, ⟨_, rfl⟩ | ⟨ch, b, _, _, ⟨_, rfl⟩ | ⟨r, f1, h1, _, _, _, _, rfl⟩⟩⟩ := handleInvalid_ok hi <;>
        exact upd_same _ _ _
    · exfalso
      apply hn
      obtain ⟨_, ⟨_, rfl⟩ | ⟨r, _, ⟨_, rfl⟩ | ⟨ch, b, _, _, rfl⟩⟩⟩ := handleValid_ok hi <;>
        simpa [cleared, withVote] using hv
    · exfalso
      apply hn
      simpa [withVote] using hv
  exact ⟨_, submitEvent_accept rfl hp hc hroom, upd_same _ _ _⟩

/-- Non-vacuity: an invalid verdict in the demo history, then a new relayer submits again. -/
example : Ev.invalid 5 ∈ (exec cfg0 g0 opsInvalid).log ∧
    (submitEvent cfg0 (exec cfg0 g0 (opsInvalid ++ [.depositBond 3, .setRelayer 3])) 3 5 101).isOk = true := by
  constructor <;> decide +kernel

/-- C14 is false: the entry left behind by the struck-down claim marks the id as processed, and from
then on no relayer can submit the genuine event by either call, although it was never delivered. -/
theorem C14_genuine_event_blocked_refuted :
    ∃ s, Reach cfg0 s ∧ Ev.invalid 5 ∈ s.log ∧ (∀ cl t, Ev.delivered 5 cl t ∉ s.log) ∧
      s.relayer = some 3 ∧
      ∀ cl, submitEvent cfg0 s 3 5 cl = .error "EventReplayProcessed" ∧
        submitMissingEvent cfg0 s 3 5 cl = .error "EventReplayProcessed" := by
  refine ⟨exec cfg0 g0 (opsInvalid ++ blocks 10 ++ [.depositBond 3, .setRelayer 3]),
    exec_Reach _ _ genesis_g0, by decide +kernel, ?_, by decide +kernel, ?_⟩
  · have hl : (exec cfg0 g0 (opsInvalid ++ blocks 10 ++ [.depositBond 3, .setRelayer 3])).log = [.invalid 5,
        .voted 5 14 false, .voted 5 11 false, .challenged 5 2, .submitted 5 100 0 10] := by decide +kernel
    rw [hl]; simp
  · intro cl
    have h1 : (exec cfg0 g0 (opsInvalid ++ blocks 10 ++ [.depositBond 3, .setRelayer 3])).processed = [5] := by
      decide +kernel
    have h2 : (exec cfg0 g0 (opsInvalid ++ blocks 10 ++ [.depositBond 3, .setRelayer 3])).missed = [] := by
      decide +kernel
    have h3 : (exec cfg0 g0 (opsInvalid ++ blocks 10 ++ [.depositBond 3, .setRelayer 3])).relayer = some 3 := by
      decide +kernel
    generalize exec cfg0 g0 (opsInvalid ++ blocks 10 ++ [.depositBond 3, .setRelayer 3]) = s at h1 h2 h3
    constructor
    · simp [submitEvent, ensure, h1, h3]; rfl
    · simp [submitMissingEvent, ensure, h2, h3]; rfl

/-! ## C15 -/

/-- At least `pct` percent of `n` notaries, all different and all in `K`, voted `yes` on `id`. -/
def EnoughVotes (K : List Key) (n pct : Nat) (log : List Ev) (id : Nat) (yes : Bool) : Prop :=
  ∃ ks : List Key, ks.Nodup ∧ (∀ k ∈ ks, k ∈ K ∧ Ev.voted id k yes ∈ log) ∧ pct * n ≤ 100 * ks.length

/-- C15 while the notaries do not change: a claim is declared valid only with at least the threshold share
of distinct notaries voting yes, and invalid only with more than the complementary share voting no.
Missing: histories in which the notary set changes (see `C15_rotation_refuted`). -/
theorem C15_majority_partial {c : Cfg} {K : List Key} {n : Nat} {s : St}
    (h : ReachP c (fun op => ∀ ks m, op ≠ .setNotaries ks m) (fun s => s.notaryKeys = K ∧ s.valCount = n) s)
    (id : Nat) :
    (Ev.verified id ∈ s.log → EnoughVotes K n c.thr s.log id true) ∧
    (Ev.invalid id ∈ s.log → EnoughVotes K n (100 - c.thr + 1) s.log id false) :=
  ⟨(ReachP.vi h).ver id, (ReachP.vi h).inv id⟩

/-- C15: no notary is counted twice for one claim, whatever happens to the notary set. -/
theorem C15_one_vote_each {c : Cfg} {s : St} (h : Reach c s) (id : Nat) :
    ((s.votes id).map Prod.fst).Nodup := h.ci.nodup id

/-- C15: a claim declared valid gets no further verdict. The log is newest first. -/
theorem C15_verdict_final {c : Cfg} {s : St} (h : Reach c s) (hmax : 0 < c.maxIds) (id : Nat)
    {l1 l2 : List Ev} (hl : s.log = l1 ++ Ev.verified id :: l2) :
    Ev.invalid id ∉ l1 ∧ Ev.verified id ∉ l1 := by
  have hf := (h.fi hmax).final
  unfold FinalLog at hf
  rw [hl] at hf
  have := (List.pairwise_append.mp hf).2.2
  exact ⟨fun hm => (this _ hm _ List.mem_cons_self id rfl).1 rfl,
    fun hm => (this _ hm _ List.mem_cons_self id rfl).2 rfl⟩

/-- Non-vacuity: both verdicts occur with the notaries fixed. -/
example : Ev.verified 5 ∈ (exec cfg0 g0 opsValid).log ∧ Ev.invalid 5 ∈ (exec cfg0 g0 opsInvalid).log := by
  constructor <;> decide +kernel

example : ReachP cfg0 (fun op => ∀ ks m, op ≠ .setNotaries ks m)
    (fun s => s.notaryKeys = [11, 12, 13, 14] ∧ s.valCount = 4) (exec cfg0 g0 opsValid) := by
  refine exec_reach _ (.init genesis_g0 ⟨rfl, rfl⟩) ?_
  intro op ho ks m e
  subst e
  revert ho
  simp [opsValid, opsChallenge, opsSubmit]

/-- Two of four notaries confirm; then the notaries are replaced by three others, one of whom confirms. -/
def opsRotate : List Op :=
  opsChallenge ++ [.notarize 0 5 true, .notarize 1 5 true, .setNotaries [21, 22, 23] 3, .notarize 0 5 true]

/-- C15 is false when the notary set changes: votes of former notaries count against the size of the new
set, and one vote out of three current notaries is enough. -/
theorem C15_rotation_refuted :
    ∃ s, Reach cfg0 s ∧ s.notaryKeys = [21, 22, 23] ∧ s.valCount = 3 ∧ Ev.verified 5 ∈ s.log ∧
      ∀ k ∈ s.notaryKeys, Ev.voted 5 k true ∈ s.log → k = 21 := by
  refine ⟨exec cfg0 g0 opsRotate, exec_Reach _ _ genesis_g0, by decide +kernel, by decide +kernel,
    by decide +kernel, ?_⟩
  have hk : (exec cfg0 g0 opsRotate).notaryKeys = [21, 22, 23] := by decide +kernel
  have hl : (exec cfg0 g0 opsRotate).log = [.verified 5, .voted 5 21 true, .voted 5 12 true, .voted 5 11 true,
      .challenged 5 2, .submitted 5 100 0 10] := by decide +kernel
  rw [hk, hl]
  intro k hk' hm
  simp at hm
  rcases hm with h | h | h
  · exact h
  · subst h; simp at hk'
  · subst h; simp at hk'

/-! ## C16 -/

/-- C16: what the bridge holds for an account is its relayer bond plus the bonds of its open challenges. -/
theorem C16_holds_backed {c : Cfg} {s : St} (h : Reach c s) (x : Acct) :
    ∃ n, TotalIs (fun id => match s.challenger id with
        | some (who, b) => if who = x then b else 0
        | none => 0) n ∧ s.held x = s.bond x + n := by
  obtain ⟨n, h1, h2⟩ := h.ci.backed x
  refine ⟨n, h1.congr ?_, h2⟩
  intro id
  unfold openBond
  cases s.challenger id <;> rfl

/-- C16: exactly the challenged claims have an open challenge. -/
theorem C16_open_iff_challenged {c : Cfg} {s : St} (h : Reach c s) (id : Nat) :
    (s.challenger id).isSome ↔ s.status id = some .challenged := h.ci.chal id

/-- C16: a claim declared invalid closes the challenge, returns its bond to the challenger and pays them
the bond of the current relayer, who is dismissed. Nobody else's money moves. -/
theorem C16_invalid_pays {c : Cfg} {s s' : St} (hr : Reach c s) {idx id : Nat} {yes : Bool}
    (h : step c s (.notarize idx id yes) = .ok s') (hv : s'.log ≠ s.log) (hc : s'.claims id = none) :
    ∃ ch b, s.challenger id = some (ch, b) ∧ s'.challenger id = none ∧
      s'.relayer = none ∧
      (s.relayer = none → s'.bond = s.bond ∧ s'.free = upd s.free ch (s.free ch + b)) ∧
      (∀ r, s.relayer = some r → s'.bond = upd s.bond r 0 ∧
        s'.free = upd s.free ch (s.free ch + b + s.bond r)) := by
  obtain ⟨key, _, hf, hst, hcase⟩ := notarize_ok h
  have hci := hr.ci
  have hcs : (s.claims id).isSome := (hci.claim id).mpr (by rw [hst]; rfl)
  rcases hcase with ⟨_, hi⟩ | ⟨_, hi⟩ | ⟨_, _, rfl⟩
  · obtain ⟨_, ⟨hn, rfl⟩ | ⟨ch, b, h1, _, ⟨h2, rfl⟩ | ⟨r, f1, h1', h2, rfl, rfl, _, rfl⟩⟩⟩ := handleInvalid_ok hi
    · have := (hci.chal id).mpr hst
      change s.challenger id = none at hn
      rw [hn] at this; cases this
    · change s.challenger id = _ at h1
      change s.relayer = none at h2
      refine ⟨ch, b, h1, upd_same _ _ _, h2, fun _ => ⟨rfl, rfl⟩, ?_⟩
      intro r hr'; rw [h2] at hr'; cases hr'
    · change s.challenger id = _ at h1
      change s.relayer = some r at h2
      refine ⟨ch, b, h1, upd_same _ _ _, rfl, ?_, ?_⟩
      · intro hr'; rw [h2] at hr'; cases hr'
      · intro r' hr'
        rw [h2] at hr'; cases hr'
        refine ⟨rfl, ?_⟩
        funext x
        by_cases hx : x = ch
        · subst hx; simp [withVote]
        · simp [withVote, upd_ne _ _ hx]
  · exfalso
    obtain ⟨_, ⟨_, rfl⟩ | ⟨r, _, ⟨_, rfl⟩ | ⟨ch, b, _, _, rfl⟩⟩⟩ := handleValid_ok hi <;>
    · change s.claims id = none at hc
      rw [hc] at hcs; cases hcs
  · exfalso
    change s.claims id = none at hc
    rw [hc] at hcs; cases hcs

/-- C16: a claim declared valid closes the challenge and pays its bond to the current relayer. -/
theorem C16_valid_pays {c : Cfg} {s s' : St} (hr : Reach c s) {idx id : Nat} {yes : Bool}
    (h : step c s (.notarize idx id yes) = .ok s') (hv : s'.status id = some .provenValid) :
    ∃ ch b r, s.challenger id = some (ch, b) ∧ s'.challenger id = none ∧ s.relayer = some r ∧
      s'.relayer = some r ∧ s'.bond = s.bond ∧ s'.free = upd s.free r (s.free r + b) := by
  obtain ⟨key, _, hf, hst, hcase⟩ := notarize_ok h
  have hci := hr.ci
  rcases hcase with ⟨_, hi⟩ | ⟨_, hi⟩ | ⟨_, _, rfl⟩
  · exfalso
    obtain ⟨_, ⟨hn, rfl⟩ | ⟨ch, b, h1, _, ⟨h2, rfl⟩ | ⟨r, f1, h1', h2, rfl, rfl, _, rfl⟩⟩⟩ := handleInvalid_ok hi
    · have := (hci.chal id).mpr hst
      change s.challenger id = none at hn
      rw [hn] at this; cases this
    · simp at hv
    · simp at hv
  · obtain ⟨_, ⟨_, rfl⟩ | ⟨r, hrel, ⟨hn, rfl⟩ | ⟨ch, b, h1, _, rfl⟩⟩⟩ := handleValid_ok hi
    · change s.status id = _ at hv
      rw [hst] at hv; cases hv
    · have := (hci.chal id).mpr hst
      change s.challenger id = none at hn
      rw [hn] at this; cases this
    · exact ⟨ch, b, r, h1, upd_same _ _ _, hrel, hrel, rfl, rfl⟩
  · change s.status id = _ at hv
    rw [hst] at hv; cases hv

/-- C16: the active relayer is bonded and cannot withdraw; a withdrawal pays back exactly the bond. -/
theorem C16_relayer_bonded {c : Cfg} {s : St} (h : Reach c s) {r : Acct} (hr : s.relayer = some r) :
    c.relayerBond ≤ s.bond r ∧ ∀ s', step c s (.withdrawBond r) ≠ .ok s' := by
  refine ⟨h.ci.relayer r hr, ?_⟩
  intro s' hs
  exact (withdrawBond_ok hs).1 hr

theorem C16_withdraw_once {c : Cfg} {s s' : St} {x : Acct} (h : step c s (.withdrawBond x) = .ok s') :
    s'.free = upd s.free x (s.free x + s.bond x) ∧ s'.bond x = 0 ∧
    ∀ s'', step c s' (.withdrawBond x) ≠ .ok s'' := by
  obtain ⟨_, _, _, rfl⟩ := withdrawBond_ok h
  refine ⟨rfl, upd_same _ _ _, ?_⟩
  intro s'' hs
  have := (withdrawBond_ok hs).2.1
  simp at this

/-- Non-vacuity: a challenge, both verdicts with their payments, and a withdrawal. -/
example : (exec cfg0 g0 opsChallenge).held 2 = 100 ∧ (exec cfg0 g0 opsInvalid).free 2 = 1100 ∧
    (exec cfg0 g0 opsValid).free 1 = 1000 ∧ (exec cfg0 g0 opsValid).status 5 = some .provenValid ∧
    (exec cfg0 g0 opsInvalid).claims 5 = none ∧
    (exec cfg0 g0 [.depositBond 1, .withdrawBond 1]).free 1 = 1000 := by
  refine ⟨?_, ?_, ?_, ?_, ?_, ?_⟩ <;> decide +kernel

/-! ## C62 -/

/-- C62: an accepted claim that nobody challenges is delivered by the announced block, whatever else
happens, if the challenge period was positive when it was submitted.
Missing: a challenge period of zero (see `C62_zero_period_refuted`). -/
theorem C62_unchallenged_delivered_partial {c : Cfg} {s s' : St} {who : Acct} {id cl : Nat}
    (h : step c s (.submitEvent who id cl) = .ok s' ∨ step c s (.submitMissing who id cl) = .ok s')
    (hp : 0 < s.period) (ops : List Op) (hn : ∀ op ∈ ops, ∀ w, op ≠ .challenge w id)
    (hb : s.now + s.period ≤ (exec c s' ops).now) :
    ∃ t, t ≤ s.now + s.period ∧ Ev.delivered id cl t ∈ (exec c s' ops).log := by
  have hd : doSubmitEvent c s id cl = .ok s' := by
    rcases h with h | h
    · exact (submitEvent_ok h).2.2
    · exact (submitMissing_ok h).2.2
  obtain ⟨_, _, rfl⟩ := doSubmitEvent_ok hd
  refine Due.exec ops ⟨upd_same _ _ _, ?_, ?_⟩ (Or.inr hn) hb
  · dsimp only; rw [upd_same]; simp
  · exact ⟨s.now + s.period, by dsimp only; omega, le_refl _, by dsimp only; rw [upd_same]; simp⟩

/-- C62: a claim confirmed by the notaries is delivered, whatever happens, if the challenge period is
never zero. -/
theorem C62_confirmed_delivered_partial {c : Cfg} {s : St}
    (h : ReachP c (fun op => ∀ n, op = .setPeriod n → 1 ≤ n) (fun s => 1 ≤ s.period) s)
    {id : Nat} (hv : s.status id = some .provenValid) :
    ∃ b cl, ∀ ops, b ≤ (exec c s ops).now → ∃ t, t ≤ b ∧ Ev.delivered id cl t ∈ (exec c s ops).log := by
  have hsi := ReachP.si h
  have hcs : (s.claims id).isSome := (ReachP.ci h).claim id |>.mpr (by rw [hv]; rfl)
  obtain ⟨cl, hcl⟩ := Option.isSome_iff_exists.mp hcs
  obtain ⟨b, h1, h2⟩ := hsi.sched id hcs
  refine ⟨b, cl, fun ops hb => ?_⟩
  exact Due.exec ops ⟨hcl, by rw [hv]; simp, b, h1, le_refl _, h2⟩ (Or.inl hv) hb

/-- Non-vacuity: the claim of the demo is delivered at block 10, and so is a confirmed one. -/
example : (submitEvent cfg0 (exec cfg0 g0 [.depositBond 1, .setRelayer 1]) 1 5 100).isOk = true ∧
    Ev.delivered 5 100 10 ∈ (exec cfg0 g0 (opsSubmit ++ blocks 10)).log ∧
    (exec cfg0 g0 opsValid).status 5 = some .provenValid := by
  refine ⟨?_, ?_, ?_⟩ <;> decide +kernel

/-- The demo with the challenge period set to zero. -/
def stuck : St := exec cfg0 g0 ([.setPeriod 0] ++ opsSubmit)

/-- C62 is false for a challenge period of zero: the claim is scheduled for the current block, whose
processing is already over, and stays pending through any number of blocks. -/
theorem C62_zero_period_refuted :
    Reach cfg0 stuck ∧ Ev.submitted 5 100 0 0 ∈ stuck.log ∧
    ∀ n, (exec cfg0 stuck (blocks n)).now = n ∧ (exec cfg0 stuck (blocks n)).claims 5 = some 100 ∧
      (exec cfg0 stuck (blocks n)).log = stuck.log := by
  refine ⟨exec_Reach _ _ genesis_g0, by decide +kernel, ?_⟩
  have idle : ∀ s : St, s.validAt (s.now + 1) = [] → (onInitialize cfg0 s).now = s.now + 1 ∧
      (onInitialize cfg0 s).claims = s.claims ∧ (onInitialize cfg0 s).log = s.log ∧
      (onInitialize cfg0 s).validAt = upd s.validAt (s.now + 1) [] := by
    intro s hs
    simp [onInitialize, hs]
  have gen : ∀ n, ∀ s : St, (∀ b, s.now < b → s.validAt b = []) →
      (exec cfg0 s (blocks n)).now = s.now + n ∧ (exec cfg0 s (blocks n)).claims = s.claims ∧
      (exec cfg0 s (blocks n)).log = s.log := by
    intro n
    induction n with
    | zero => intro s _; exact ⟨rfl, rfl, rfl⟩
    | succ n ih =>
      intro s hs
      obtain ⟨h1, h2, h3, h4⟩ := idle s (hs _ (Nat.lt_succ_self _))
      have := ih (onInitialize cfg0 s) (by
        intro b hb
        rw [h4]
        rw [h1] at hb
        by_cases hbe : b = s.now + 1
        · subst hbe; exact upd_same _ _ _
        · rw [upd_ne _ _ hbe]; exact hs b (by omega))
      rw [h1, h2, h3] at this
      refine ⟨?_, this.2.1, this.2.2⟩
      have h5 : (exec cfg0 s (blocks (n + 1))).now = s.now + 1 + n := this.1
      omega
  intro n
  have hv : ∀ b, stuck.now < b → stuck.validAt b = [] := by
    intro b hb
    have hn : stuck.now = 0 := by decide +kernel
    rw [hn] at hb
    have : stuck.validAt = upd (fun _ => []) 0 [5] := by
      funext b
      change upd (fun _ => []) (0 + 0) ([] ++ [5]) b = _
      rfl
    rw [this, upd_ne _ _ (by omega)]
  obtain ⟨h1, h2, h3⟩ := gen n stuck hv
  have hn : stuck.now = 0 := by decide +kernel
  refine ⟨by rw [h1, hn]; omega, ?_, h3⟩
  rw [h2]; decide +kernel

/-! ## C63 -/

/-- `y` yes votes and `n - y` no votes of `n` notaries decide a claim, by the two conditions of
`decideClaim`. -/
theorem full_votes_decide {n y thr : Nat} (hn : 0 < n) (hy : y ≤ n) (hd : n ∣ 100) (ht : thr ≤ 100) :
    percent (n - y) n > 100 - thr ∨ percent y n ≥ thr := by
  obtain ⟨m, hm⟩ := hd
  have e : ∀ z, z ≤ n → percent z n = m * z := by
    intro z hz
    unfold percent
    rw [Nat.max_eq_left (by omega : 1 ≤ n), Nat.min_eq_left hz, hm, Nat.mul_assoc]
    exact Nat.mul_div_cancel_left _ hn
  rw [e _ (by omega), e _ hy]
  have : m * (n - y) + m * y = 100 := by
    rw [← Nat.mul_add, Nat.sub_add_cancel hy, hm, Nat.mul_comm]
  omega

theorem count_split : ∀ l : List (Key × Bool), countVotes l false + countVotes l true = l.length
  | [] => rfl
  | (k, b) :: l => by
    have ih := count_split l
    unfold countVotes at ih ⊢
    cases b <;> simp at ih ⊢ <;> omega

/-- C63, when the number of notaries divides 100: the last notary's vote settles a challenge; if a
relayer is set, the claim is no longer challenged.
Missing: other sizes of the notary set (see `C63_no_verdict_refuted`). -/
theorem C63_all_votes_settle_partial {c : Cfg} {s s' : St} (hr : Reach c s) {idx id : Nat} {yes : Bool}
    (h : step c s (.notarize idx id yes) = .ok s') (hd : s.valCount ∣ 100) (hthr : c.thr ≤ 100)
    (hall : (s.votes id).length + 1 = s.valCount) (hrel : s.relayer ≠ none) :
    s'.status id ≠ some .challenged := by
  obtain ⟨key, _, hf, hst, hcase⟩ := notarize_ok h
  have hci := hr.ci
  have hlen : ((withVote s id key yes).votes id).length = s.valCount := by
    simp [withVote]; omega
  have hsplit := count_split ((withVote s id key yes).votes id)
  rw [hlen] at hsplit
  rcases hcase with ⟨_, hi⟩ | ⟨_, hi⟩ | ⟨h1, h2, rfl⟩
  · obtain ⟨_, ⟨hn, rfl⟩ | ⟨ch, b, h1, _, ⟨h2, rfl⟩ | ⟨r, f1, h1', h2, rfl, rfl, _, rfl⟩⟩⟩ := handleInvalid_ok hi
    · have := (hci.chal id).mpr hst
      change s.challenger id = none at hn
      rw [hn] at this; cases this
    · simp
    · simp
  · obtain ⟨_, ⟨h0, rfl⟩ | ⟨r, _, ⟨_, rfl⟩ | ⟨ch, b, _, _, rfl⟩⟩⟩ := handleValid_ok hi
    · exact absurd h0 hrel
    · simp
    · simp
  · exfalso
    have := full_votes_decide (n := s.valCount) (y := countVotes ((withVote s id key yes).votes id) true)
      (thr := c.thr) (by omega) (by omega) hd hthr
    have e : s.valCount - countVotes ((withVote s id key yes).votes id) true =
        countVotes ((withVote s id key yes).votes id) false := by omega
    rw [e] at this
    rcases this with h | h
    · exact h1 h
    · exact h2 h

/-- Non-vacuity: four notaries, the fourth vote settles. -/
example : (notarize cfg0 (exec cfg0 g0 (opsChallenge ++ [.notarize 0 5 true, .notarize 1 5 false,
    .notarize 2 5 true])) 3 5 true).isOk = true := by decide +kernel

/-- 29 notaries. -/
def ops29 : List Op :=
  [.setNotaries (List.range 29) 29] ++ opsChallenge ++
    (List.range 10).map (fun i => .notarize i 5 false) ++ (List.range 19).map (fun i => .notarize (10 + i) 5 true)

/-- C63 is false for 29 notaries: with all votes cast, 19 yes and 10 no, both shares are rounded down
and no verdict is reached; no notary can vote again, and the challenger's bond stays held. -/
theorem C63_no_verdict_refuted :
    ∃ s, Reach cfg0 s ∧ s.notaryKeys.length = 29 ∧ s.valCount = 29 ∧ (s.votes 5).length = 29 ∧
      s.status 5 = some .challenged ∧ s.held 2 = 100 ∧
      ∀ idx yes s', step cfg0 s (.notarize idx 5 yes) ≠ .ok s' := by
  have hv : ((exec cfg0 g0 ops29).votes 5).map Prod.fst = List.range 29 := by decide +kernel
  have hk : (exec cfg0 g0 ops29).notaryKeys = List.range 29 := by decide +kernel
  refine ⟨exec cfg0 g0 ops29, exec_Reach _ _ genesis_g0, by decide +kernel, by decide +kernel,
    by decide +kernel, by decide +kernel, by decide +kernel, ?_⟩
  intro idx yes s' h
  obtain ⟨key, h1, h2, _⟩ := notarize_ok h
  rw [hk] at h1
  have hm : key ∈ List.range 29 := List.mem_of_getElem? h1
  rw [← hv] at hm
  obtain ⟨kv, hkv, e⟩ := List.mem_map.mp hm
  exact h2 kv hkv e

/-! ## C64 -/

/-- C64, one step: every challenged claim stays on the list of open challenges, unless a notarization
settles a claim while no relayer is set.
Missing: that case (see `C64_dropped_challenge_refuted`). -/
theorem C64_challenged_listed_partial {c : Cfg} {s s' : St} {op : Op} (h : step c s op = .ok s')
    (hl : ∀ id, s.status id = some .challenged → id ∈ s.challenges)
    (hop : (∃ idx i yes, op = .notarize idx i yes) → s.relayer ≠ none) (hr : Reach c s) (id : Nat)
    (hid : s'.status id = some .challenged) : id ∈ s'.challenges := by
  have hci := hr.ci
  have sub : ∀ {i cl}, doSubmitEvent c s i cl = .ok s' → id ∈ s'.challenges := by
    intro i cl hd
    obtain ⟨_, _, rfl⟩ := doSubmitEvent_ok hd
    dsimp only at hid ⊢
    by_cases hi : id = i
    · subst hi; rw [upd_same] at hid; cases hid
    · rw [upd_ne _ _ hi] at hid; exact hl id hid
  cases op with
  | submitEvent who i cl => exact sub (submitEvent_ok h).2.2
  | submitMissing who i cl => exact sub (submitMissing_ok h).2.2
  | challenge who i =>
    obtain ⟨_, _, _, _, rfl⟩ := submitChallenge_ok h
    dsimp only at hid ⊢
    by_cases hi : id = i
    · subst hi; simp
    · rw [upd_ne _ _ hi] at hid; exact List.mem_append_left _ (hl id hid)
  | notarize idx i yes =>
    have hrel := hop ⟨idx, i, yes, rfl⟩
    obtain ⟨key, _, _, hst, hcase⟩ := notarize_ok h
    have key1 : ∀ st : Option Status, st ≠ some .challenged → upd s.status i st id = some .challenged →
        id ∈ s.challenges.erase i := by
      intro st hne he
      by_cases hi : id = i
      · subst hi; rw [upd_same] at he; exact absurd he hne
      · rw [upd_ne _ _ hi] at he
        exact (List.mem_erase_of_ne hi).mpr (hl id he)
    rcases hcase with ⟨_, hi⟩ | ⟨_, hi⟩ | ⟨_, _, rfl⟩
    · obtain ⟨_, ⟨hn, rfl⟩ | ⟨ch, b, h1, _, ⟨h2, rfl⟩ | ⟨r, f1, h1', h2, rfl, rfl, _, rfl⟩⟩⟩ := handleInvalid_ok hi
      · have := (hci.chal i).mpr hst
        change s.challenger i = none at hn
        rw [hn] at this; cases this
      · exact key1 none (by simp) hid
      · exact key1 none (by simp) hid
    · obtain ⟨_, ⟨h0, rfl⟩ | ⟨r, _, ⟨_, rfl⟩ | ⟨ch, b, _, _, rfl⟩⟩⟩ := handleValid_ok hi
      · exact absurd h0 hrel
      · exact key1 _ (by simp) hid
      · exact key1 _ (by simp) hid
    · exact hl id hid
  | setRelayer who => obtain ⟨_, rfl⟩ := setRelayer_ok h; exact hl id hid
  | depositBond who => obtain ⟨_, _, rfl⟩ := depositBond_ok h; exact hl id hid
  | withdrawBond who => obtain ⟨_, _, _, rfl⟩ := withdrawBond_ok h; exact hl id hid
  | setPeriod n => simp only [step, Except.ok.injEq] at h; subst h; exact hl id hid
  | removeMissing lo hi => simp only [step, Except.ok.injEq] at h; subst h; exact hl id hid
  | setNotaries keys n => simp only [step, Except.ok.injEq] at h; subst h; exact hl id hid
  | fund who amt => simp only [step, Except.ok.injEq] at h; subst h; exact hl id hid
  | nextBlock =>
    simp only [step, Except.ok.injEq] at h; subst h
    obtain ⟨pp, mm, e⟩ := onInitialize_eq c s
    rw [e] at hid ⊢
    have hk : Kept (startLoop s).s (endLoop s).s := loop_kept (s.validAt (s.now + 1)) (startLoop s)
    have h1 : s.status id = some .challenged := loop_status (acc := startLoop s) hid
    have h2 : (endLoop s).s.challenges = s.challenges := hk.challenges
    change id ∈ (endLoop s).s.challenges
    rw [h2]; exact hl id h1

/-- Non-vacuity: the challenged claim of the demo is listed. -/
example : (exec cfg0 g0 opsChallenge).status 5 = some .challenged ∧ (exec cfg0 g0 opsChallenge).challenges = [5] := by
  constructor <;> decide +kernel

/-- Two claims of relayer 1 are challenged. The first is struck down, which dismisses the relayer; then
the notaries confirm the second. -/
def opsNoRelayer : List Op :=
  [.depositBond 1, .setRelayer 1, .submitEvent 1 5 100, .submitEvent 1 6 200, .challenge 2 5, .challenge 2 6,
   .notarize 0 5 false, .notarize 1 5 false,
   .notarize 0 6 true, .notarize 1 6 true, .notarize 2 6 true]

/-- C64 is false: a valid claim confirmed while no relayer is set loses its place on the list and its
votes, gets no verdict, and stays challenged with the challenger's bond held. -/
theorem C64_dropped_challenge_refuted :
    ∃ s, Reach cfg0 s ∧ s.status 6 = some .challenged ∧ 6 ∉ s.challenges ∧ s.votes 6 = [] ∧
      Ev.verified 6 ∉ s.log ∧ Ev.invalid 6 ∉ s.log ∧ s.held 2 = 100 := by
  refine ⟨exec cfg0 g0 opsNoRelayer, exec_Reach _ _ genesis_g0, ?_, ?_, ?_, ?_, ?_, ?_⟩ <;> decide +kernel

/-! ## C65 -/

/-- C65, what holds: a notarization changes no bond except that of the current relayer.
Missing: that the current relayer submitted the claim (see `C65_wrong_relayer_slashed_refuted`). -/
theorem C65_only_current_relayer_slashed_partial {c : Cfg} {s s' : St} {idx id : Nat} {yes : Bool}
    (h : step c s (.notarize idx id yes) = .ok s') {x : Acct} (hx : s.relayer ≠ some x) :
    s'.bond x = s.bond x := by
  obtain ⟨key, _, _, _, ⟨_, hi⟩ | ⟨_, hi⟩ | ⟨_, _, rfl⟩⟩ := notarize_ok h
  · obtain ⟨_, ⟨_, rfl⟩ | ⟨ch, b, _, _, ⟨_, rfl⟩ | ⟨r, f1, h1, hr, _, _, _, rfl⟩⟩⟩ := handleInvalid_ok hi
    · rfl
    · rfl
    · change s.relayer = some r at hr
      have hne : x ≠ r := by rintro rfl; exact hx hr
      simp [withVote, upd_ne _ _ hne]
  · obtain ⟨_, ⟨_, rfl⟩ | ⟨r, _, ⟨_, rfl⟩ | ⟨ch, b, _, _, rfl⟩⟩⟩ := handleValid_ok hi <;> rfl
  · rfl

/-- Non-vacuity: relayer 1 is slashed, a bonded account 4 is not. -/
example : (exec cfg0 g0 (.depositBond 4 :: opsInvalid)).bond 4 = 100 ∧
    (exec cfg0 g0 (.depositBond 4 :: opsInvalid)).bond 1 = 0 := by
  constructor <;> decide +kernel

/-- Relayer 1 submits a false claim; then account 3 becomes the relayer. -/
def opsWrongSlash : List Op :=
  opsChallenge ++ [.depositBond 3, .setRelayer 3, .notarize 0 5 false, .notarize 1 5 false]

/-- C65 is false: the false claim of relayer 1 costs relayer 3, who never submitted anything, their bond;
relayer 1 keeps theirs. -/
theorem C65_wrong_relayer_slashed_refuted :
    ∃ s, Reach cfg0 s ∧ Ev.invalid 5 ∈ s.log ∧ s.bond 3 = 0 ∧ s.free 3 = 900 ∧ s.bond 1 = 100 ∧
      (∀ who id cl, Op.submitEvent who id cl ∈ opsWrongSlash → who = 1) ∧ s = exec cfg0 g0 opsWrongSlash := by
  refine ⟨exec cfg0 g0 opsWrongSlash, exec_Reach _ _ genesis_g0, ?_, ?_, ?_, ?_, ?_, rfl⟩
  · decide +kernel
  · decide +kernel
  · decide +kernel
  · decide +kernel
  · intro who id cl hm
    simp [opsWrongSlash, opsChallenge, opsSubmit] at hm
    exact hm.1

end Verif.Ethy
