import Verif.Ethy.Model

/-! # Helper lemmas for the bridge model -/

namespace Verif.Ethy

theorem mem_insertSorted {x y : Nat} : ∀ {l : List Nat}, y ∈ insertSorted x l ↔ y = x ∨ y ∈ l
  | [] => by simp [insertSorted]
  | z :: zs => by
    unfold insertSorted
    split
    · simp
    · split
      · rename_i _ h
        subst h
        simp
      · rw [List.mem_cons, mem_insertSorted, List.mem_cons]
        tauto

theorem insertSorted_sorted {x : Nat} : ∀ {l : List Nat}, l.Pairwise (· < ·) →
    (insertSorted x l).Pairwise (· < ·)
  | [], _ => by simp [insertSorted]
  | z :: zs, h => by
    have h1 := List.pairwise_cons.mp h
    unfold insertSorted
    split
    · rename_i hx
      refine List.pairwise_cons.mpr ⟨?_, h⟩
      intro a ha
      rcases List.mem_cons.mp ha with rfl | ha
      · exact hx
      · exact lt_trans hx (h1.1 a ha)
    · split
      · exact h
      · rename_i hx hne
        refine List.pairwise_cons.mpr ⟨?_, insertSorted_sorted h1.2⟩
        intro a ha
        rcases mem_insertSorted.mp ha with rfl | ha
        · omega
        · exact h1.1 a ha

theorem insertSorted_head {x : Nat} {l : List Nat} (hne : l ≠ []) (h : l.headD 0 ≤ x) :
    (insertSorted x l).headD 0 = l.headD 0 := by
  cases l with
  | nil => exact absurd rfl hne
  | cons z zs =>
    simp only [List.headD_cons] at h
    unfold insertSorted
    split
    · omega
    · split <;> rfl

theorem insertSorted_ne {x : Nat} {l : List Nat} : insertSorted x l ≠ [] := by
  intro h
  have : x ∈ insertSorted x l := mem_insertSorted.mpr (Or.inl rfl)
  rw [h] at this
  cases this

theorem mem_foldl_insert {y : Nat} : ∀ {g m : List Nat},
    y ∈ g.foldl (fun m id => insertSorted id m) m ↔ y ∈ g ∨ y ∈ m
  | [], m => by simp
  | x :: xs, m => by
    rw [List.foldl_cons, mem_foldl_insert, mem_insertSorted, List.mem_cons]
    tauto

theorem foldl_insert_sorted : ∀ {g m : List Nat}, m.Pairwise (· < ·) →
    (g.foldl (fun m id => insertSorted id m) m).Pairwise (· < ·)
  | [], _, h => h
  | x :: xs, m, h => by
    rw [List.foldl_cons]
    exact foldl_insert_sorted (insertSorted_sorted h)

theorem mem_gaps {removed : List Nat} {lo hi x : Nat} :
    x ∈ gaps removed lo hi ↔ lo ≤ x ∧ x < hi ∧ x ∉ removed := by
  unfold gaps
  simp only [List.mem_filter, List.mem_map, List.mem_range, decide_eq_true_eq]
  constructor
  · rintro ⟨⟨a, ha, rfl⟩, h⟩
    exact ⟨by omega, by omega, h⟩
  · rintro ⟨h1, h2, h3⟩
    exact ⟨⟨x - lo, by omega, by omega⟩, h3⟩

theorem compact_suffix : ∀ l : List Nat, compact l <:+ l
  | [] => by simp [compact]
  | [x] => by simp [compact]
  | x :: y :: r => by
    unfold compact
    split
    · exact (compact_suffix (y :: r)).trans (List.suffix_cons _ _)
    · exact List.suffix_refl _

theorem compact_ne : ∀ l : List Nat, l ≠ [] → compact l ≠ []
  | [], h => absurd rfl h
  | [x], _ => by simp [compact]
  | x :: y :: r, _ => by
    unfold compact
    split
    · exact compact_ne (y :: r) (by simp)
    · simp

theorem headD_mem {l : List Nat} (h : l ≠ []) : l.headD 0 ∈ l := by
  cases l with
  | nil => exact absurd rfl h
  | cons x xs => simp

theorem head_le {l : List Nat} (h : l.Pairwise (· < ·)) {x : Nat} (hx : x ∈ l) : l.headD 0 ≤ x := by
  cases l with
  | nil => cases hx
  | cons y ys =>
    rcases List.mem_cons.mp hx with rfl | hx
    · exact le_refl _
    · exact le_of_lt ((List.pairwise_cons.mp h).1 x hx)

/-- In a sorted list, what a suffix drops lies below its head. -/
theorem suffix_split {l l' : List Nat} (hs : l' <:+ l) (h : l.Pairwise (· < ·)) (hne : l' ≠ [])
    {x : Nat} (hx : x ∈ l) : x ∈ l' ∨ x < l'.headD 0 := by
  obtain ⟨pre, rfl⟩ := hs
  rcases List.mem_append.mp hx with hx | hx
  · right
    exact (List.pairwise_append.mp h).2.2 x hx _ (headD_mem hne)
  · left; exact hx

theorem suffix_head {l l' : List Nat} (hs : l' <:+ l) (h : l.Pairwise (· < ·)) (hne : l' ≠ []) :
    l.headD 0 ≤ l'.headD 0 :=
  head_le h (hs.subset (headD_mem hne))

/-! ## Deliveries -/

/-- Is this the delivery of event `id`? -/
def isDelivery (id : Nat) : Ev → Bool
  | .delivered i _ _ => i == id
  | _ => false

/-- All deliveries of event `id`. -/
def deliveries (id : Nat) (log : List Ev) : List Ev := log.filter (isDelivery id)

theorem deliveries_cons_ne {id : Nat} {e : Ev} {log : List Ev} (h : isDelivery id e = false) :
    deliveries id (e :: log) = deliveries id log := by
  simp [deliveries, h]

/-! ## What the operations do -/

theorem placeHold_ok {s s' : St} {who : Acct} {amt : Nat} (h : placeHold s who amt = .ok s') :
    amt ≤ s.free who ∧ s' = { s with
      free := upd s.free who (s.free who - amt),
      held := upd s.held who (s.held who + amt) } := by
  simp only [placeHold, bind_ok, ensure_ok, pure_ok] at h
  obtain ⟨_, h1, rfl⟩ := h
  exact ⟨h1, rfl⟩

theorem payHold_ok {s s' : St} {who dst : Acct} {amt : Nat} (h : payHold s who amt dst = .ok s') :
    amt ≤ s.held who ∧ s' = { s with
      free := upd s.free dst (s.free dst + amt),
      held := upd s.held who (s.held who - amt) } := by
  simp only [payHold, bind_ok, ensure_ok, pure_ok] at h
  obtain ⟨_, h1, rfl⟩ := h
  exact ⟨h1, rfl⟩

theorem doSubmitEvent_ok {c : Cfg} {s s' : St} {id cl : Nat} (h : doSubmitEvent c s id cl = .ok s') :
    s.claims id = none ∧ (s.validAt (s.now + s.period)).length < c.maxMsgs ∧ s' = { s with
      validAt := upd s.validAt (s.now + s.period) (s.validAt (s.now + s.period) ++ [id]),
      claims := upd s.claims id (some cl),
      status := upd s.status id (some .pending),
      log := .submitted id cl s.now (s.now + s.period) :: s.log } := by
  simp only [doSubmitEvent, bind_ok, ensure_ok, pure_ok] at h
  obtain ⟨_, h1, _, h2, rfl⟩ := h
  exact ⟨h1, h2, rfl⟩

theorem submitEvent_ok {c : Cfg} {s s' : St} {who : Acct} {id cl : Nat}
    (h : submitEvent c s who id cl = .ok s') :
    s.relayer = some who ∧ (s.processed = [] ∨ (s.processed.headD 0 < id ∧ id ∉ s.processed)) ∧
    doSubmitEvent c s id cl = .ok s' := by
  simp only [submitEvent, bind_ok, ensure_ok] at h
  obtain ⟨_, h1, _, h2, h3⟩ := h
  exact ⟨h1, h2, h3⟩

theorem submitMissing_ok {c : Cfg} {s s' : St} {who : Acct} {id cl : Nat}
    (h : submitMissingEvent c s who id cl = .ok s') :
    s.relayer = some who ∧ id ∈ s.missed ∧ doSubmitEvent c s id cl = .ok s' := by
  simp only [submitMissingEvent, bind_ok, ensure_ok] at h
  obtain ⟨_, h1, _, h2, h3⟩ := h
  exact ⟨h1, h2, h3⟩

theorem submitChallenge_ok {c : Cfg} {s s' : St} {who : Acct} {id : Nat}
    (h : submitChallenge c s who id = .ok s') :
    (s.claims id).isSome ∧ s.status id = some .pending ∧ c.challengeBond ≤ s.free who ∧
    s.challenges.length < c.maxChallenges ∧
    s' = { s with
      free := upd s.free who (s.free who - c.challengeBond),
      held := upd s.held who (s.held who + c.challengeBond),
      challenges := s.challenges ++ [id],
      challenger := upd s.challenger id (some (who, c.challengeBond)),
      status := upd s.status id (some .challenged),
      log := .challenged id who :: s.log } := by
  simp only [submitChallenge, bind_ok, ensure_ok, pure_ok] at h
  obtain ⟨_, h1, _, h2, s1, h3, _, h4, rfl⟩ := h
  obtain ⟨h5, rfl⟩ := placeHold_ok h3
  exact ⟨h1, h2, h5, h4, rfl⟩

/-- The state in which the vote is recorded, before a verdict. -/
def withVote (s : St) (id : Nat) (key : Key) (yes : Bool) : St :=
  { s with
    votes := upd s.votes id (s.votes id ++ [(key, yes)]),
    log := .voted id key yes :: s.log }

/-- The state after the start of a verdict. -/
def cleared (s : St) (id : Nat) : St :=
  { s with votes := upd s.votes id [], challenges := s.challenges.erase id }

theorem clearVotes_ok {s s' : St} {id : Nat} (h : clearVotes s id = .ok s') :
    (s.votes id).length ≤ s.notaryKeys.length ∧ s' = cleared s id := by
  simp only [clearVotes, bind_ok, ensure_ok, pure_ok] at h
  obtain ⟨_, h1, rfl⟩ := h
  exact ⟨h1, rfl⟩

theorem handleInvalid_ok {s s' : St} {id : Nat} (h : handleInvalidClaim s id = .ok s') :
    (s.claims id).isSome ∧
    ((s.challenger id = none ∧ s' = { cleared s id with
        claims := upd s.claims id none, log := .invalid id :: s.log }) ∨
     ∃ ch b, s.challenger id = some (ch, b) ∧ b ≤ s.held ch ∧
      ((s.relayer = none ∧ s' = { cleared s id with
          claims := upd s.claims id none, challenger := upd s.challenger id none,
          free := upd s.free ch (s.free ch + b), held := upd s.held ch (s.held ch - b),
          status := upd s.status id none, log := .invalid id :: s.log }) ∨
       ∃ r free1 held1, s.relayer = some r ∧
        free1 = upd s.free ch (s.free ch + b) ∧ held1 = upd s.held ch (s.held ch - b) ∧
        s.bond r ≤ held1 r ∧
        s' = { cleared s id with
          claims := upd s.claims id none, challenger := upd s.challenger id none,
          bond := upd s.bond r 0, relayer := none,
          free := upd free1 ch (free1 ch + s.bond r), held := upd held1 r (held1 r - s.bond r),
          status := upd s.status id none, log := .invalid id :: s.log })) := by
  simp only [handleInvalidClaim, bind_ok, ensure_ok] at h
  obtain ⟨s0, h0, _, h1, h⟩ := h
  obtain ⟨_, rfl⟩ := clearVotes_ok h0
  refine ⟨h1, ?_⟩
  simp only [cleared] at h
  split at h
  · rename_i cb hcb
    simp only [bind_ok, pure_ok] at h
    obtain ⟨s2, h2, s3, h3, rfl⟩ := h
    obtain ⟨hb, rfl⟩ := payHold_ok h2
    refine Or.inr ⟨cb.1, cb.2, hcb, hb, ?_⟩
    simp only [slashRelayer] at h3
    split at h3
    · rename_i r hr
      simp only [bind_ok, pure_ok] at h3
      obtain ⟨s4, h4, rfl⟩ := h3
      obtain ⟨hb2, rfl⟩ := payHold_ok h4
      exact Or.inr ⟨r, _, _, hr, rfl, rfl, hb2, rfl⟩
    · rename_i hr
      cases h3
      exact Or.inl ⟨hr, rfl⟩
  · rename_i hcb
    cases h
    exact Or.inl ⟨hcb, rfl⟩

theorem handleValid_ok {s s' : St} {id : Nat} (h : handleValidClaim s id = .ok s') :
    (s.claims id).isSome ∧
    ((s.relayer = none ∧ s' = cleared s id) ∨
     ∃ r, s.relayer = some r ∧
      ((s.challenger id = none ∧ s' = { cleared s id with
          status := upd s.status id (some .provenValid), log := .verified id :: s.log }) ∨
       ∃ ch b, s.challenger id = some (ch, b) ∧ b ≤ s.held ch ∧ s' = { cleared s id with
          challenger := upd s.challenger id none,
          free := upd s.free r (s.free r + b), held := upd s.held ch (s.held ch - b),
          status := upd s.status id (some .provenValid), log := .verified id :: s.log })) := by
  simp only [handleValidClaim, bind_ok, ensure_ok] at h
  obtain ⟨s0, h0, _, h1, h⟩ := h
  obtain ⟨_, rfl⟩ := clearVotes_ok h0
  refine ⟨h1, ?_⟩
  simp only [cleared] at h
  split at h
  · rename_i r hr
    simp only [bind_ok, pure_ok] at h
    obtain ⟨s1, h2, rfl⟩ := h
    refine Or.inr ⟨r, hr, ?_⟩
    split at h2
    · rename_i cb hcb
      obtain ⟨hb, rfl⟩ := payHold_ok h2
      exact Or.inr ⟨cb.1, cb.2, hcb, hb, rfl⟩
    · rename_i hcb
      cases h2
      exact Or.inl ⟨hcb, rfl⟩
  · rename_i hr
    cases h
    exact Or.inl ⟨hr, rfl⟩

/-- A notarization either just records the vote, or also leads to a verdict. -/
theorem notarize_ok {c : Cfg} {s s' : St} {idx id : Nat} {yes : Bool}
    (h : notarize c s idx id yes = .ok s') :
    ∃ key, s.notaryKeys[idx]? = some key ∧ (∀ kv ∈ s.votes id, kv.1 ≠ key) ∧
      s.status id = some .challenged ∧
      ((percent (countVotes ((withVote s id key yes).votes id) false) s.valCount > 100 - c.thr ∧
          handleInvalidClaim (withVote s id key yes) id = .ok s') ∨
       (percent (countVotes ((withVote s id key yes).votes id) true) s.valCount ≥ c.thr ∧
          handleValidClaim (withVote s id key yes) id = .ok s') ∨
       (¬ percent (countVotes ((withVote s id key yes).votes id) false) s.valCount > 100 - c.thr ∧
        ¬ percent (countVotes ((withVote s id key yes).votes id) true) s.valCount ≥ c.thr ∧
        s' = withVote s id key yes)) := by
  simp only [notarize, bind_ok, ensure_ok, okOr_ok] at h
  obtain ⟨key, hk, _, hf, _, hst, h⟩ := h
  refine ⟨key, hk, hf, hst, ?_⟩
  unfold decideClaim at h
  dsimp only at h
  split at h
  · rename_i hp; exact Or.inl ⟨hp, h⟩
  · rename_i hp
    split at h
    · rename_i hq; exact Or.inr (Or.inl ⟨hq, h⟩)
    · rename_i hq
      cases h
      exact Or.inr (Or.inr ⟨hp, hq, rfl⟩)

/-- What a notarization leaves alone. -/
theorem notarize_frame {c : Cfg} {s s' : St} {idx id : Nat} {yes : Bool}
    (h : notarize c s idx id yes = .ok s') :
    s'.now = s.now ∧ s'.period = s.period ∧ s'.processed = s.processed ∧ s'.missed = s.missed ∧
    s'.validAt = s.validAt ∧ s'.notaryKeys = s.notaryKeys ∧ s'.valCount = s.valCount ∧
    (s'.claims = s.claims ∨ (s'.claims = upd s.claims id none ∧ Ev.invalid id ∈ s'.log)) ∧
    (∃ ext, s'.log = ext ++ s.log ∧ (∀ i, ∀ e ∈ ext, isDelivery i e = false) ∧
      ∀ i cl a p, Ev.submitted i cl a p ∉ ext) ∧
    (∀ i, i ≠ id → s'.status i = s.status i ∧ s'.votes i = s.votes i ∧ s'.challenger i = s.challenger i) := by
  obtain ⟨key, _, _, _, ⟨_, h⟩ | ⟨_, h⟩ | ⟨_, _, rfl⟩⟩ := notarize_ok h
  · obtain ⟨_, ⟨_, rfl⟩ | ⟨ch, b, _, _, ⟨_, rfl⟩ | ⟨r, f1, h1, _, _, _, _, rfl⟩⟩⟩ := handleInvalid_ok h <;>
    · refine ⟨rfl, rfl, rfl, rfl, rfl, rfl, rfl, Or.inr ⟨rfl, by simp⟩,
        ⟨[.invalid id, .voted id key yes], rfl, ?_, by simp⟩, ?_⟩
      · intro i e he
        simp only [List.mem_cons, List.not_mem_nil, or_false] at he
        rcases he with rfl | rfl <;> rfl
      · intro i hi
        simp [cleared, withVote, upd_ne _ _ hi]
  · obtain ⟨_, ⟨_, rfl⟩ | ⟨r, _, ⟨_, rfl⟩ | ⟨ch, b, _, _, rfl⟩⟩⟩ := handleValid_ok h
    · refine ⟨rfl, rfl, rfl, rfl, rfl, rfl, rfl, Or.inl rfl,
        ⟨[.voted id key yes], rfl, ?_, by simp⟩, ?_⟩
      · intro i e he
        simp only [List.mem_cons, List.not_mem_nil, or_false] at he
        rcases he with rfl; rfl
      · intro i hi
        simp [cleared, withVote, upd_ne _ _ hi]
    all_goals
      refine ⟨rfl, rfl, rfl, rfl, rfl, rfl, rfl, Or.inl rfl,
        ⟨[.verified id, .voted id key yes], rfl, ?_, by simp⟩, ?_⟩
      · intro i e he
        simp only [List.mem_cons, List.not_mem_nil, or_false] at he
        rcases he with rfl | rfl <;> rfl
      · intro i hi
        simp [cleared, withVote, upd_ne _ _ hi]
  · refine ⟨rfl, rfl, rfl, rfl, rfl, rfl, rfl, Or.inl rfl,
      ⟨[.voted id key yes], rfl, ?_, by simp⟩, ?_⟩
    · intro i e he
      simp only [List.mem_cons, List.not_mem_nil, or_false] at he
      rcases he with rfl; rfl
    · intro i hi
      simp [withVote, upd_ne _ _ hi]

theorem setRelayer_ok {c : Cfg} {s s' : St} {who : Acct} (h : setRelayer c s who = .ok s') :
    c.relayerBond ≤ s.bond who ∧ s' = { s with relayer := some who } := by
  simp only [setRelayer, bind_ok, ensure_ok, pure_ok] at h
  obtain ⟨_, h1, rfl⟩ := h
  exact ⟨h1, rfl⟩

theorem depositBond_ok {c : Cfg} {s s' : St} {who : Acct} (h : depositBond c s who = .ok s') :
    s.bond who = 0 ∧ c.relayerBond ≤ s.free who ∧ s' = { s with
      free := upd s.free who (s.free who - c.relayerBond),
      held := upd s.held who (s.held who + c.relayerBond),
      bond := upd s.bond who c.relayerBond } := by
  simp only [depositBond, bind_ok, ensure_ok, pure_ok] at h
  obtain ⟨_, h1, s1, h2, rfl⟩ := h
  obtain ⟨h3, rfl⟩ := placeHold_ok h2
  exact ⟨h1, h3, rfl⟩

theorem withdrawBond_ok {s s' : St} {who : Acct} (h : withdrawBond s who = .ok s') :
    s.relayer ≠ some who ∧ 0 < s.bond who ∧ s.bond who ≤ s.held who ∧ s' = { s with
      free := upd s.free who (s.free who + s.bond who),
      held := upd s.held who (s.held who - s.bond who),
      bond := upd s.bond who 0 } := by
  simp only [withdrawBond, bind_ok, ensure_ok, pure_ok] at h
  obtain ⟨_, h1, _, h2, s1, h3, rfl⟩ := h
  obtain ⟨h4, rfl⟩ := payHold_ok h3
  exact ⟨h1, h2, h4, rfl⟩

end Verif.Ethy
