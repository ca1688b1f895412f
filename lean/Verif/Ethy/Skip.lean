import Verif.Ethy.Demo
import Verif.Ethy.Track

/-!
# No event id is skipped (C67)
-/

namespace Verif.Ethy

/-- A relayer may still submit a claim for this id, as far as replay protection is concerned: the id is
neither at or below the watermark nor processed (`submit_event`), or it is listed as missed
(`submit_missing_event`). -/
def Open (processed missed : List Nat) (id : Nat) : Prop :=
  (processed = [] ∨ (processed.headD 0 < id ∧ id ∉ processed)) ∨ id ∈ missed

/-- `Open` is what the two calls check. -/
theorem open_iff {c : Cfg} {s : St} {who : Acct} {id cl : Nat} (hr : s.relayer = some who)
    (hc : s.claims id = none) (hroom : (s.validAt (s.now + s.period)).length < c.maxMsgs) :
    Open s.processed s.missed id ↔
      (∃ s', submitEvent c s who id cl = .ok s') ∨ (∃ s', submitMissingEvent c s who id cl = .ok s') := by
  constructor
  · rintro (h | h)
    · left
      unfold submitEvent doSubmitEvent
      dsimp only
      rw [ensure_pos hr, ensure_pos h, ensure_pos hc, ensure_pos hroom]
      exact ⟨_, rfl⟩
    · right
      unfold submitMissingEvent doSubmitEvent
      dsimp only
      rw [ensure_pos hr, ensure_pos h, ensure_pos hc, ensure_pos hroom]
      exact ⟨_, rfl⟩
  · rintro (⟨s', h⟩ | ⟨s', h⟩)
    · exact Or.inl (submitEvent_ok h).2.1
    · simp only [submitMissingEvent, bind_ok, ensure_ok] at h
      obtain ⟨_, _, _, h, _⟩ := h
      exact Or.inr h

theorem compact_head_lt {id : Nat} : ∀ {l : List Nat}, l.headD 0 < id → id ∉ l → (compact l).headD 0 < id
  | [], h, _ => h
  | [x], h, _ => h
  | x :: y :: r, h, hn => by
    unfold compact
    split
    · rename_i e
      refine compact_head_lt ?_ (fun hm => hn (List.mem_cons_of_mem _ hm))
      simp only [List.headD_cons] at h ⊢
      have : id ≠ y := by rintro rfl; exact hn (by simp)
      omega
    · exact h

theorem prune_open {c : Cfg} (hmax : 0 < c.maxIds) {ids missed : List Nat} (hs : ids.Pairwise (· < ·)) {id : Nat}
    (h : Open ids missed id) (hne : ids ≠ []) :
    Open (pruneClaimIds c ids missed).1 (pruneClaimIds c ids missed).2 id := by
  unfold pruneClaimIds
  split
  · exact h
  · rename_i hlen
    dsimp only
    set k := ids.length - c.maxIds with hk
    have hkept : ids.drop k ≠ [] := by
      intro e
      have := congrArg List.length e
      rw [List.length_drop] at this
      simp at this
      omega
    have hkeep : id ∈ missed → id ∈ (if ids.take k = [] then missed else
        (gaps (ids.take k) ((ids.take k).headD 0) ((ids.drop k).headD 0)).foldl
          (fun m id => insertSorted id m) missed) := by
      intro hm
      split
      · exact hm
      · exact mem_foldl_insert.mpr (Or.inr hm)
    rcases h with (h | ⟨h1, h2⟩) | h
    · exact absurd h hne
    · by_cases hlt : id < (ids.drop k).headD 0
      · right
        have htake : ids.take k ≠ [] := by
          intro e
          have : ids.drop k = ids := by
            have := List.take_append_drop k ids
            rw [e] at this; simpa using this
          rw [this] at hlt; omega
        rw [if_neg htake]
        refine mem_foldl_insert.mpr (Or.inl (mem_gaps.mpr ⟨?_, hlt, fun hm => h2 (List.mem_of_mem_take hm)⟩))
        have hh : (ids.take k).headD 0 = ids.headD 0 := by
          cases ids with
          | nil => exact absurd rfl hne
          | cons x xs =>
            cases hk' : k with
            | zero => rw [hk'] at htake; simp at htake
            | succ n => simp
        omega
      · left; right
        have hnd : id ∉ ids.drop k := fun hm => h2 (List.mem_of_mem_drop hm)
        have hne' : (ids.drop k).headD 0 ≠ id := fun e => hnd (e ▸ headD_mem hkept)
        exact ⟨compact_head_lt (by omega) hnd, fun hm => hnd ((compact_suffix _).subset hm)⟩
    · exact Or.inr (hkeep h)

theorem deliver_missed (s : St) (id : Nat) : (deliver s id).missed = s.missed := by
  unfold deliver; split <;> rfl

theorem fold_open {id : Nat} : ∀ (due : List Nat) (acc : Loop), id ∉ due → acc.ids ≠ [] →
    acc.ids.Pairwise (· < ·) → Open acc.ids acc.s.missed id →
    Open (due.foldl processOne acc).ids (due.foldl processOne acc).s.missed id ∧
    (due.foldl processOne acc).ids ≠ [] ∧ (due.foldl processOne acc).ids.Pairwise (· < ·)
  | [], _, _, h1, h2, h3 => ⟨h3, h1, h2⟩
  | x :: due, acc, hx, h1, h2, h3 => by
    rw [List.foldl_cons]
    have hxn : id ≠ x := by rintro rfl; exact hx List.mem_cons_self
    have hx' : id ∉ due := fun h => hx (List.mem_cons_of_mem _ h)
    unfold processOne
    dsimp only
    split
    · exact fold_open due _ hx' h1 h2 h3
    · split
      · rename_i hle
        refine fold_open due _ hx' insertSorted_ne (insertSorted_sorted h2) ?_
        dsimp only
        rw [deliver_missed]
        rcases h3 with (h3 | ⟨h3, h4⟩) | h3
        · exact absurd h3 h1
        · refine Or.inl (Or.inr ⟨by rw [insertSorted_head h1 hle]; exact h3, ?_⟩)
          rw [mem_insertSorted]
          rintro (e | e)
          · exact hxn e
          · exact h4 e
        · exact Or.inr h3
      · refine fold_open due _ hx' h1 h2 ?_
        dsimp only
        rw [deliver_missed]
        rcases h3 with h3 | h3
        · exact Or.inl h3
        · exact Or.inr ((List.mem_erase_of_ne hxn).mpr h3)

theorem onInitialize_open {c : Cfg} (hmax : 0 < c.maxIds) {s : St} (h : StRI s) {id : Nat}
    (hne : s.processed ≠ []) (hid : id ∉ s.validAt (s.now + 1)) (ho : Open s.processed s.missed id) :
    Open (onInitialize c s).processed (onInitialize c s).missed id := by
  obtain ⟨k1, k2, k3⟩ := fold_open (s.validAt (s.now + 1))
    ⟨{ s with now := s.now + 1, validAt := upd s.validAt (s.now + 1) [] }, s.processed, false⟩ hid hne
    h.sortedP ho
  unfold onInitialize
  dsimp only
  split
  · exact prune_open hmax k3 k1 k2
  · rename_i hc
    have hany : ∀ (l : List Nat) (acc : Loop), (l.foldl processOne acc).any = false →
        (l.foldl processOne acc).s.processed = acc.s.processed ∧
        (l.foldl processOne acc).s.missed = acc.s.missed ∧ acc.any = false := by
      intro l
      induction l with
      | nil => intro acc h; exact ⟨rfl, rfl, h⟩
      | cons x xs ih =>
        intro acc h
        rw [List.foldl_cons] at h ⊢
        obtain ⟨h1, h2, h3⟩ := ih _ h
        rw [h1, h2]
        revert h3
        unfold processOne
        dsimp only
        split
        · intro h3; exact ⟨rfl, rfl, h3⟩
        · split <;> intro h3 <;> cases h3
    have ha : ((s.validAt (s.now + 1)).foldl processOne
        ⟨{ s with now := s.now + 1, validAt := upd s.validAt (s.now + 1) [] }, s.processed, false⟩).any = false := by
      by_contra hne'
      exact hc ⟨by simpa using hne', k2⟩
    obtain ⟨h1, h2, _⟩ := hany _ _ ha
    rw [h1, h2]
    exact ho

/-- C67: an id that could be submitted stops being submittable only when a claim for it is due in the block
being started, or root removes it from the missed list, or before the very first event is processed. -/
theorem C67_no_id_skipped {c : Cfg} (hmax : 0 < c.maxIds) {s s' : St} (hr : Reach c s) {op : Op}
    (h : step c s op = .ok s') (id : Nat) (ho : Open s.processed s.missed id)
    (hn : ¬ Open s'.processed s'.missed id) :
    (op = .nextBlock ∧ (id ∈ s.validAt (s.now + 1) ∨ s.processed = [])) ∨
    (∃ lo hi, op = .removeMissing lo hi ∧ lo ≤ id ∧ id ≤ hi) := by
  have hri := hr.ri hmax
  have same : s'.processed = s.processed → s'.missed = s.missed → False := by
    intro e1 e2; rw [e1, e2] at hn; exact hn ho
  cases op with
  | nextBlock =>
    cases h
    left
    refine ⟨rfl, ?_⟩
    by_contra hc
    simp only [not_or] at hc
    exact hn (onInitialize_open hmax hri hc.2 hc.1 ho)
  | removeMissing lo hi =>
    cases h
    right
    refine ⟨lo, hi, rfl, ?_⟩
    by_contra hc
    apply hn
    rcases ho with ho | ho
    · exact Or.inl ho
    · refine Or.inr (List.mem_filter.mpr ⟨ho, ?_⟩)
      simp only [decide_eq_true_eq]; omega
  | submitEvent who i cl =>
    obtain ⟨_, _, hd⟩ := submitEvent_ok h
    obtain ⟨_, _, rfl⟩ := doSubmitEvent_ok hd
    exact (same rfl rfl).elim
  | submitMissing who i cl =>
    obtain ⟨_, _, hd⟩ := submitMissing_ok h
    obtain ⟨_, _, rfl⟩ := doSubmitEvent_ok hd
    exact (same rfl rfl).elim
  | challenge who i =>
    obtain ⟨_, _, _, _, rfl⟩ := submitChallenge_ok h
    exact (same rfl rfl).elim
  | notarize idx i yes =>
    exfalso
    obtain ⟨key, _, _, _, ⟨_, hi⟩ | ⟨_, hi⟩ | ⟨_, _, rfl⟩⟩ := notarize_ok h
    · obtain ⟨_, ⟨_, rfl⟩ | ⟨ch, b, _, _, ⟨_, rfl⟩ | ⟨r, f1, h1, _, _, _, _, rfl⟩⟩⟩ := handleInvalid_ok hi <;>
        exact same rfl rfl
    · obtain ⟨_, ⟨_, rfl⟩ | ⟨r, _, ⟨_, rfl⟩ | ⟨ch, b, _, _, rfl⟩⟩⟩ := handleValid_ok hi <;>
        exact same rfl rfl
    · exact same rfl rfl
  | setRelayer who => obtain ⟨_, rfl⟩ := setRelayer_ok h; exact (same rfl rfl).elim
  | depositBond who => obtain ⟨_, _, rfl⟩ := depositBond_ok h; exact (same rfl rfl).elim
  | withdrawBond who => obtain ⟨_, _, _, rfl⟩ := withdrawBond_ok h; exact (same rfl rfl).elim
  | setPeriod n => cases h; exact (same rfl rfl).elim
  | setNotaries ks n => cases h; exact (same rfl rfl).elim
  | fund who a => cases h; exact (same rfl rfl).elim

/-- Non-vacuity: with room for two processed ids, events 5, 7, 8, 11 are delivered; 6 is then listed as
missed and 9 and 10 are still open. -/
def skipDemo : St :=
  exec ⟨2, 1000, 100, 100, 100, 66⟩ g0 ([.depositBond 1, .setRelayer 1, .submitEvent 1 5 100, .submitEvent 1 7 100] ++
    blocks 10 ++ [.submitEvent 1 8 100, .submitEvent 1 11 100] ++ blocks 10)

example : skipDemo.processed = [8, 11] ∧ skipDemo.missed = [6] := by constructor <;> decide +kernel

end Verif.Ethy
