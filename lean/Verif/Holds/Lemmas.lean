import Verif.Holds.Model

/-! # Lemmas about hold lists -/

namespace Verif.Holds

/-- Keys strictly increase. -/
def Sorted (l : Entries) : Prop := (l.map Prod.fst).Pairwise (· < ·)

/-- Sum of the amounts. -/
def sumOf (l : Entries) : Nat := (l.map Prod.snd).sum

@[simp] theorem sumOf_nil : sumOf [] = 0 := rfl
@[simp] theorem sumOf_cons (e : Nat × Nat) (l : Entries) : sumOf (e :: l) = e.2 + sumOf l := by simp [sumOf]

theorem sorted_cons {e : Nat × Nat} {l : Entries} : Sorted (e :: l) ↔ (∀ x ∈ l, e.1 < x.1) ∧ Sorted l := by
  unfold Sorted
  rw [List.map_cons, List.pairwise_cons]
  constructor
  · rintro ⟨h1, h2⟩
    exact ⟨fun x hx => h1 _ (List.mem_map.mpr ⟨x, hx, rfl⟩), h2⟩
  · rintro ⟨h1, h2⟩
    refine ⟨fun y hy => ?_, h2⟩
    obtain ⟨x, hx, rfl⟩ := List.mem_map.mp hy
    exact h1 x hx

theorem has_iff {l : Entries} {p : Nat} : has l p = true ↔ ∃ e ∈ l, e.1 = p := by
  unfold has
  rw [List.any_eq_true]
  simp

theorem has_cons {e : Nat × Nat} {l : Entries} {p : Nat} : has (e :: l) p = true ↔ e.1 = p ∨ has l p = true := by
  rw [has_iff, has_iff]; simp

theorem holdOf_not {l : Entries} {p : Nat} (h : ¬ has l p = true) : holdOf l p = 0 := by
  induction l with
  | nil => rfl
  | cons e l ih =>
    rw [has_cons] at h
    unfold holdOf
    rw [if_neg (fun hx => h (Or.inl hx))]
    exact ih (fun hx => h (Or.inr hx))

theorem holdOf_le {l : Entries} {p : Nat} : holdOf l p ≤ sumOf l := by
  induction l with
  | nil => exact le_refl _
  | cons e l ih =>
    unfold holdOf
    rw [sumOf_cons]
    split <;> omega

theorem holdOf_setAt {l : Entries} {p v : Nat} (h : has l p = true) (q : Nat) :
    holdOf (setAt l p v) q = if q = p then v else holdOf l q := by
  induction l with
  | nil => cases h
  | cons e l ih =>
    unfold setAt
    rw [List.map_cons]
    unfold holdOf
    by_cases he : e.1 = p
    · rw [if_pos he]
      by_cases hq : q = p
      · rw [if_pos hq]; subst hq; rw [if_pos rfl]
      · rw [if_neg hq, if_neg (fun hx : p = q => hq hx.symm), if_neg (fun hx : e.1 = q => hq (hx.symm.trans he))]
        clear ih h
        induction l with
        | nil => rfl
        | cons d l ih2 =>
          rw [List.map_cons]
          unfold holdOf
          by_cases hd : d.1 = p
          · rw [if_pos hd, if_neg (fun hx : p = q => hq hx.symm), if_neg (fun hx : d.1 = q => hq (hx.symm.trans hd))]
            exact ih2
          · rw [if_neg hd]
            split
            · rfl
            · exact ih2
    · rw [if_neg he]
      have h' := (has_cons.mp h).resolve_left he
      by_cases hq : e.1 = q
      · rw [if_pos hq, if_pos hq, if_neg (fun hx : q = p => he (hq.trans hx))]
      · rw [if_neg hq, if_neg hq]
        exact ih h'

theorem keys_setAt {l : Entries} {p v : Nat} : (setAt l p v).map Prod.fst = l.map Prod.fst := by
  unfold setAt
  rw [List.map_map]
  apply List.map_congr_left
  intro e _
  dsimp only [Function.comp]
  split
  · rename_i h; exact h.symm
  · rfl

theorem sorted_setAt {l : Entries} {p v : Nat} (h : Sorted l) : Sorted (setAt l p v) := by
  unfold Sorted; rw [keys_setAt]; exact h

theorem setAt_absent {l : Entries} {p v : Nat} (h : ∀ x ∈ l, x.1 ≠ p) : setAt l p v = l := by
  unfold setAt
  conv => rhs; rw [← List.map_id l]
  apply List.map_congr_left
  intro e he
  rw [if_neg (h e he)]; rfl

theorem sumOf_setAt {l : Entries} {p v : Nat} (hs : Sorted l) (h : has l p = true) :
    sumOf (setAt l p v) + holdOf l p = sumOf l + v := by
  induction l with
  | nil => cases h
  | cons e l ih =>
    obtain ⟨h1, h2⟩ := sorted_cons.mp hs
    by_cases he : e.1 = p
    · have : setAt (e :: l) p v = (p, v) :: l := by
        have := setAt_absent (l := l) (p := p) (v := v) (fun x hx => by have := h1 x hx; omega)
        unfold setAt at this ⊢
        rw [List.map_cons, if_pos he, this]
      rw [this]
      unfold holdOf
      rw [if_pos he, sumOf_cons, sumOf_cons]
      dsimp only
      omega
    · have : setAt (e :: l) p v = e :: setAt l p v := by
        unfold setAt
        rw [List.map_cons, if_neg he]
      rw [this]
      unfold holdOf
      rw [if_neg he, sumOf_cons, sumOf_cons]
      have := ih h2 ((has_cons.mp h).resolve_left he)
      omega

theorem mem_insert {l : Entries} {p v : Nat} {x : Nat × Nat} : x ∈ insertSorted l p v ↔ x = (p, v) ∨ x ∈ l := by
  induction l with
  | nil => simp [insertSorted]
  | cons e l ih =>
    unfold insertSorted
    split
    · rw [List.mem_cons, ih, List.mem_cons]
      tauto
    · simp

theorem sorted_insert {l : Entries} {p v : Nat} (hs : Sorted l) (h : ¬ has l p = true) : Sorted (insertSorted l p v) := by
  induction l with
  | nil => simp [insertSorted, Sorted]
  | cons e l ih =>
    obtain ⟨h1, h2⟩ := sorted_cons.mp hs
    have he : e.1 ≠ p := fun hx => h (has_cons.mpr (Or.inl hx))
    have hl : ¬ has l p = true := fun hx => h (has_cons.mpr (Or.inr hx))
    unfold insertSorted
    split
    · rename_i hlt
      refine sorted_cons.mpr ⟨fun x hx => ?_, ih h2 hl⟩
      rcases mem_insert.mp hx with rfl | hx
      · exact hlt
      · exact h1 x hx
    · rename_i hlt
      refine sorted_cons.mpr ⟨fun x hx => ?_, hs⟩
      rcases List.mem_cons.mp hx with rfl | hx
      · dsimp only; omega
      · have := h1 x hx; dsimp only; omega

theorem holdOf_insert {l : Entries} {p v : Nat} (h : ¬ has l p = true) (q : Nat) :
    holdOf (insertSorted l p v) q = if q = p then v else holdOf l q := by
  induction l with
  | nil =>
    simp only [insertSorted, holdOf]
    by_cases hq : q = p
    · rw [if_pos hq, if_pos hq.symm]
    · rw [if_neg hq, if_neg (fun hx => hq hx.symm)]
  | cons e l ih =>
    have he : e.1 ≠ p := fun hx => h (has_cons.mpr (Or.inl hx))
    have hl : ¬ has l p = true := fun hx => h (has_cons.mpr (Or.inr hx))
    unfold insertSorted
    split
    · unfold holdOf
      by_cases hq : e.1 = q
      · rw [if_pos hq, if_pos hq, if_neg (fun hx : q = p => he (hq.trans hx))]
      · rw [if_neg hq, if_neg hq]; exact ih hl
    · rw [holdOf]
      by_cases hq : q = p
      · rw [if_pos hq, if_pos hq.symm]
      · rw [if_neg hq, if_neg (fun hx => hq hx.symm)]

theorem sumOf_insert {l : Entries} {p v : Nat} : sumOf (insertSorted l p v) = sumOf l + v := by
  induction l with
  | nil => simp [insertSorted]
  | cons e l ih =>
    unfold insertSorted
    split
    · rw [sumOf_cons, ih, sumOf_cons]; omega
    · rw [sumOf_cons]; dsimp only; omega

theorem length_insert {l : Entries} {p v : Nat} : (insertSorted l p v).length = l.length + 1 := by
  induction l with
  | nil => rfl
  | cons e l ih =>
    unfold insertSorted
    split
    · rw [List.length_cons, ih, List.length_cons]
    · rfl

theorem sorted_filter {l : Entries} {f : Nat × Nat → Bool} (h : Sorted l) : Sorted (l.filter f) := by
  unfold Sorted at *
  exact h.sublist ((List.filter_sublist).map _)

theorem holdOf_filter {l : Entries} {p : Nat} (q : Nat) :
    holdOf (l.filter (fun e => decide (e.1 ≠ p))) q = if q = p then 0 else holdOf l q := by
  induction l with
  | nil => simp [holdOf]
  | cons e l ih =>
    rw [List.filter_cons]
    by_cases he : e.1 = p
    · rw [if_neg (by simp [he]), ih]
      by_cases hq : q = p
      · rw [if_pos hq, if_pos hq]
      · rw [if_neg hq, if_neg hq]
        conv => rhs; unfold holdOf
        rw [if_neg (fun hx : e.1 = q => hq (hx.symm.trans he))]
    · rw [if_pos (by simp [he])]
      unfold holdOf
      by_cases hq : e.1 = q
      · rw [if_pos hq, if_pos hq, if_neg (fun hx : q = p => he (hq.trans hx))]
      · rw [if_neg hq, if_neg hq]; exact ih

theorem filter_absent {l : Entries} {p : Nat} (h : ∀ x ∈ l, x.1 ≠ p) : l.filter (fun e => decide (e.1 ≠ p)) = l := by
  rw [List.filter_eq_self]
  intro x hx
  simp [h x hx]

theorem sumOf_filter {l : Entries} {p : Nat} (hs : Sorted l) :
    sumOf (l.filter (fun e => decide (e.1 ≠ p))) + holdOf l p = sumOf l := by
  induction l with
  | nil => rfl
  | cons e l ih =>
    obtain ⟨h1, h2⟩ := sorted_cons.mp hs
    rw [List.filter_cons]
    unfold holdOf
    by_cases he : e.1 = p
    · rw [if_neg (by simp [he]), if_pos he, sumOf_cons, filter_absent (fun x hx => by have := h1 x hx; omega)]
      omega
    · rw [if_pos (by simp [he]), if_neg he, sumOf_cons, sumOf_cons]
      have := ih h2
      omega

theorem increase_ok {max : Nat} {l l' : Entries} {p amt : Nat} (h : increase max l p amt = .ok l') (hs : Sorted l)
    (hlen : l.length ≤ max) :
    Sorted l' ∧ l'.length ≤ max ∧ (∀ q, holdOf l' q = holdOf l q + if q = p then amt else 0) ∧
    sumOf l' = sumOf l + amt ∧ has l' p = true := by
  unfold increase at h
  split at h
  · rename_i hh
    simp only [bind_ok, ensure_ok, pure_ok] at h
    obtain ⟨_, hlt, rfl⟩ := h
    refine ⟨sorted_setAt hs, ?_, fun q => ?_, ?_, ?_⟩
    · simpa [setAt] using hlen
    · rw [holdOf_setAt hh]
      by_cases hq : q = p
      · rw [if_pos hq, if_pos hq, hq]
      · rw [if_neg hq, if_neg hq]; rfl
    · have := sumOf_setAt (v := holdOf l p + amt) hs hh
      omega
    · obtain ⟨e, he, hp⟩ := has_iff.mp hh
      refine has_iff.mpr ⟨_, List.mem_map.mpr ⟨e, he, rfl⟩, ?_⟩
      rw [if_pos hp]
  · rename_i hh
    simp only [bind_ok, ensure_ok, pure_ok] at h
    obtain ⟨_, hlt, rfl⟩ := h
    refine ⟨sorted_insert hs hh, by rw [length_insert]; omega, fun q => ?_, sumOf_insert,
      has_iff.mpr ⟨_, mem_insert.mpr (Or.inl rfl), rfl⟩⟩
    rw [holdOf_insert hh]
    by_cases hq : q = p
    · rw [if_pos hq, if_pos hq, hq, holdOf_not hh, Nat.zero_add]
    · rw [if_neg hq, if_neg hq]; rfl

theorem decrease_ok {l l' : Entries} {p amt : Nat} (h : decrease l p amt = .ok l') (hs : Sorted l) :
    amt ≤ holdOf l p ∧ Sorted l' ∧ l'.length ≤ l.length ∧ (∀ q, holdOf l' q + (if q = p then amt else 0) = holdOf l q) ∧
    sumOf l' + amt = sumOf l := by
  simp only [decrease, bind_ok, ensure_ok, pure_ok] at h
  obtain ⟨_, hh, _, hle, h⟩ := h
  refine ⟨hle, ?_⟩
  split at h
  · rename_i h0
    subst h
    refine ⟨sorted_filter hs, List.length_filter_le _ _, fun q => ?_, ?_⟩
    · rw [holdOf_filter]
      by_cases hq : q = p
      · rw [if_pos hq, if_pos hq, hq]; omega
      · rw [if_neg hq, if_neg hq]; rfl
    · have := sumOf_filter (p := p) hs
      omega
  · subst h
    refine ⟨sorted_setAt hs, by simp [setAt], fun q => ?_, ?_⟩
    · rw [holdOf_setAt hh]
      by_cases hq : q = p
      · rw [if_pos hq, if_pos hq, hq]; omega
      · rw [if_neg hq, if_neg hq]; rfl
    · have := sumOf_setAt (v := holdOf l p - amt) hs hh
      omega

/-- What an account receives from a list of payments. -/
def paid (xs : List (Acct × Nat)) (y : Acct) : Nat := (xs.map (fun x => if x.1 = y then x.2 else 0)).sum

theorem paid_cons (x : Acct × Nat) (xs : List (Acct × Nat)) (y : Acct) :
    paid (x :: xs) y = (if x.1 = y then x.2 else 0) + paid xs y := by simp [paid]

theorem paid_not {xs : List (Acct × Nat)} {y : Acct} (h : ∀ x ∈ xs, x.1 ≠ y) : paid xs y = 0 := by
  induction xs with
  | nil => rfl
  | cons x xs ih =>
    rw [paid_cons, if_neg (h x List.mem_cons_self), ih (fun z hz => h z (List.mem_cons_of_mem _ hz))]

theorem payAll_ok {a : AssetId} {src : Acct} : ∀ {xs : List (Acct × Nat)} {L L' : Ledger}, payAll L a src xs = .ok L' →
    L'.iss = L.iss ∧ (∀ b, b ≠ a → L'.bal b = L.bal b) ∧ (L.Sound → L'.Sound) ∧
    (∀ y, L'.bal a y + (if y = src then (xs.map Prod.snd).sum else 0) = L.bal a y + paid xs y)
  | [], L, L', h => by
    cases h
    exact ⟨rfl, fun _ _ => rfl, fun h => h, fun y => by simp [paid]⟩
  | x :: xs, L, L', h => by
    unfold payAll at h
    split at h
    · rename_i h0
      obtain ⟨h1, h2, h3, h4⟩ := payAll_ok h
      refine ⟨h1, h2, h3, fun y => ?_⟩
      rw [paid_cons, List.map_cons, List.sum_cons, h0]
      have := h4 y
      simp only [Nat.zero_add]
      split <;> simp_all
    · simp only [bind_ok] at h
      obtain ⟨L1, h1, h2⟩ := h
      obtain ⟨i1, i2, i3, i4⟩ := payAll_ok h2
      obtain ⟨t1, t2, t3, t4⟩ := Ledger.transfer_ok h1
      refine ⟨i1.trans t2, fun b hb => (i2 b hb).trans (t3 b hb), fun hs => i3 (Ledger.transfer_sound h1 hs), fun y => ?_⟩
      have e1 := i4 y
      have e2 := t4 y
      rw [paid_cons, List.map_cons, List.sum_cons]
      by_cases hy : y = src
      · rw [if_pos hy] at e1 e2 ⊢
        by_cases hx : x.1 = y
        · rw [if_pos hx]; rw [if_pos hx.symm] at e2; omega
        · rw [if_neg hx]; rw [if_neg (fun hz => hx hz.symm)] at e2; omega
      · rw [if_neg hy] at e1 e2 ⊢
        by_cases hx : x.1 = y
        · rw [if_pos hx]; rw [if_pos hx.symm] at e2; omega
        · rw [if_neg hx]; rw [if_neg (fun hz => hx hz.symm)] at e2; omega

/-- The invariant: lists are sorted and bounded, and every asset's holds are covered by the holding account. -/
structure HI (c : Cfg) (s : St) : Prop where
  sound : s.ledger.Sound
  sorted : ∀ a w, Sorted (s.holds a w)
  len : ∀ a w, (s.holds a w).length ≤ c.maxHolds
  backed : ∀ a, ∃ n, TotalIs (fun w => sumOf (s.holds a w)) n ∧ n ≤ s.ledger.bal a c.pot

theorem holds_set (s : St) (L : Ledger) (a : AssetId) (w : Acct) (l : Entries) (b : AssetId) (y : Acct) :
    (setHolds s L a w l).holds b y = if b = a ∧ y = w then l else s.holds b y := by
  unfold setHolds
  dsimp only
  by_cases hb : b = a
  · subst hb
    rw [upd_same]
    by_cases hy : y = w
    · subst hy; rw [upd_same, if_pos ⟨rfl, rfl⟩]
    · rw [upd_ne _ _ hy, if_neg (fun h => hy h.2)]
  · rw [upd_ne _ _ hb, if_neg (fun h => hb h.1)]

/-- Exact effect of placing a hold. -/
theorem place_ok {c : Cfg} {s s' : St} {p : Nat} {w : Acct} {a : AssetId} {amt : Nat} (h : place c s p w a amt = .ok s')
    (hi : HI c s) (hw : w ≠ c.pot) :
    HI c s' ∧ s.ledger.transfer a w c.pot amt = .ok s'.ledger ∧
    (∀ b y q, holdOf (s'.holds b y) q = holdOf (s.holds b y) q + if b = a ∧ y = w ∧ q = p then amt else 0) := by
  simp only [place, bind_ok, pure_ok] at h
  obtain ⟨l, hl, L, hL, rfl⟩ := h
  obtain ⟨i1, i2, i3, i4, i5⟩ := increase_ok hl (hi.sorted a w) (hi.len a w)
  obtain ⟨t1, t2, t3, t4⟩ := Ledger.transfer_ok hL
  refine ⟨⟨Ledger.transfer_sound hL hi.sound, fun b y => ?_, fun b y => ?_, fun b => ?_⟩, hL, fun b y q => ?_⟩
  · rw [holds_set]; split
    · exact i1
    · exact hi.sorted b y
  · rw [holds_set]; split
    · exact i2
    · exact hi.len b y
  · obtain ⟨n, hn, hle⟩ := hi.backed b
    by_cases hb : b = a
    · subst hb
      refine ⟨n + amt, (hn.upd_add w amt).congr (fun y => ?_), ?_⟩
      · rw [holds_set, upd_apply]
        by_cases hy : y = w
        · subst hy; rw [if_pos ⟨rfl, rfl⟩, if_pos rfl, i4]
        · rw [if_neg (fun hx => hy hx.2), if_neg hy]
      · have e := t4 c.pot
        rw [if_neg (Ne.symm hw), if_pos rfl] at e
        change n + amt ≤ L.bal b c.pot
        omega
    · refine ⟨n, hn.congr (fun y => by rw [holds_set, if_neg (fun hx => hb hx.1)]), ?_⟩
      change n ≤ L.bal b c.pot
      rw [t3 b hb]; exact hle
  · rw [holds_set]
    by_cases hb : b = a ∧ y = w
    · obtain ⟨rfl, rfl⟩ := hb
      rw [if_pos ⟨rfl, rfl⟩, i3]
      simp
    · rw [if_neg hb, if_neg (fun hx => hb ⟨hx.1, hx.2.1⟩)]; rfl

/-- Exact effect of releasing a hold. -/
theorem release_ok {c : Cfg} {s s' : St} {p : Nat} {w : Acct} {a : AssetId} {amt : Nat} (h : release c s p w a amt = .ok s')
    (hi : HI c s) (hw : w ≠ c.pot) :
    HI c s' ∧ amt ≤ holdOf (s.holds a w) p ∧ s.ledger.transfer a c.pot w amt = .ok s'.ledger ∧
    (∀ b y q, holdOf (s'.holds b y) q + (if b = a ∧ y = w ∧ q = p then amt else 0) = holdOf (s.holds b y) q) := by
  simp only [release, bind_ok, pure_ok] at h
  obtain ⟨l, hl, L, hL, rfl⟩ := h
  obtain ⟨i0, i1, i2, i3, i4⟩ := decrease_ok hl (hi.sorted a w)
  obtain ⟨t1, t2, t3, t4⟩ := Ledger.transfer_ok hL
  refine ⟨⟨Ledger.transfer_sound hL hi.sound, fun b y => ?_, fun b y => ?_, fun b => ?_⟩, i0, hL, fun b y q => ?_⟩
  · rw [holds_set]; split
    · exact i1
    · exact hi.sorted b y
  · rw [holds_set]; split
    · exact i2.trans (hi.len a w)
    · exact hi.len b y
  · obtain ⟨n, hn, hle⟩ := hi.backed b
    by_cases hb : b = a
    · subst hb
      refine ⟨n - amt, (hn.upd_sub w amt (by omega)).congr (fun y => ?_), ?_⟩
      · rw [holds_set, upd_apply]
        by_cases hy : y = w
        · subst hy; rw [if_pos ⟨rfl, rfl⟩, if_pos rfl]; omega
        · rw [if_neg (fun hx => hy hx.2), if_neg hy]
      · have e := t4 c.pot
        rw [if_neg (Ne.symm hw), if_pos rfl] at e
        change n - amt ≤ L.bal b c.pot
        omega
    · refine ⟨n, hn.congr (fun y => by rw [holds_set, if_neg (fun hx => hb hx.1)]), ?_⟩
      change n ≤ L.bal b c.pot
      rw [t3 b hb]; exact hle
  · rw [holds_set]
    by_cases hb : b = a ∧ y = w
    · obtain ⟨rfl, rfl⟩ := hb
      rw [if_pos ⟨rfl, rfl⟩, ← i3 q]
      simp
    · rw [if_neg hb, if_neg (fun hx => hb ⟨hx.1, hx.2.1⟩)]; rfl

/-- In a sound ledger payments to others add up to less than `2^128`. -/
theorem sum_lt {L L' : Ledger} {a : AssetId} {src : Acct} {xs : List (Acct × Nat)} (h : payAll L a src xs = .ok L')
    (hs : L.Sound) (hn : ∀ x ∈ xs, x.1 ≠ src) : (xs.map Prod.snd).sum < U128 ∧
    L'.bal a src + (xs.map Prod.snd).sum = L.bal a src := by
  obtain ⟨_, _, _, h4⟩ := payAll_ok h
  have e := h4 src
  rw [if_pos rfl, paid_not hn] at e
  have := hs.bal_lt a src
  exact ⟨by omega, by omega⟩

/-- Exact effect of spending a hold whose payments add up to less than `2^128`. -/
theorem spend_sum {c : Cfg} {s s' : St} {p : Nat} {w : Acct} {a : AssetId} {xs : List (Acct × Nat)}
    (h : spend c s p w a xs = .ok s') (hi : HI c s) (j1 : (xs.map Prod.snd).sum < U128) :
    HI c s' ∧ (xs.map Prod.snd).sum ≤ holdOf (s.holds a w) p ∧ s'.ledger.iss = s.ledger.iss ∧
    (∀ b, b ≠ a → s'.ledger.bal b = s.ledger.bal b) ∧
    (∀ y, s'.ledger.bal a y + (if y = c.pot then (xs.map Prod.snd).sum else 0) = s.ledger.bal a y + paid xs y) ∧
    (∀ b y q, holdOf (s'.holds b y) q + (if b = a ∧ y = w ∧ q = p then (xs.map Prod.snd).sum else 0) =
      holdOf (s.holds b y) q) := by
  simp only [spend, splitTransfer, bind_ok, ensure_ok, pure_ok] at h
  obtain ⟨l, hl, L, ⟨_, htot, hL⟩, rfl⟩ := h
  have he : total xs = (xs.map Prod.snd).sum := Nat.mod_eq_of_lt j1
  rw [he] at hl htot
  obtain ⟨i0, i1, i2, i3, i4⟩ := decrease_ok hl (hi.sorted a w)
  obtain ⟨t2, t3, t5, t4⟩ := payAll_ok hL
  refine ⟨⟨t5 hi.sound, fun b y => ?_, fun b y => ?_, fun b => ?_⟩, i0, t2, t3, t4, fun b y q => ?_⟩
  · rw [holds_set]; split
    · exact i1
    · exact hi.sorted b y
  · rw [holds_set]; split
    · exact i2.trans (hi.len a w)
    · exact hi.len b y
  · obtain ⟨n, hn, hle⟩ := hi.backed b
    by_cases hb : b = a
    · subst hb
      refine ⟨n - (xs.map Prod.snd).sum, (hn.upd_sub w _ (by omega)).congr (fun y => ?_), ?_⟩
      · rw [holds_set, upd_apply]
        by_cases hy : y = w
        · subst hy; rw [if_pos ⟨rfl, rfl⟩, if_pos rfl]; omega
        · rw [if_neg (fun hx => hy hx.2), if_neg hy]
      · change n - _ ≤ L.bal b c.pot
        have e := t4 c.pot
        rw [if_pos rfl] at e
        omega
    · refine ⟨n, hn.congr (fun y => by rw [holds_set, if_neg (fun hx => hb hx.1)]), ?_⟩
      change n ≤ L.bal b c.pot
      rw [t3 b hb]; exact hle
  · rw [holds_set]
    by_cases hb : b = a ∧ y = w
    · obtain ⟨rfl, rfl⟩ := hb
      rw [if_pos ⟨rfl, rfl⟩, ← i3 q]
      simp
    · rw [if_neg hb, if_neg (fun hx => hb ⟨hx.1, hx.2.1⟩)]; rfl

/-- Exact effect of spending a hold. -/
theorem spend_ok {c : Cfg} {s s' : St} {p : Nat} {w : Acct} {a : AssetId} {xs : List (Acct × Nat)}
    (h : spend c s p w a xs = .ok s') (hi : HI c s) (hx : ∀ x ∈ xs, x.1 ≠ c.pot) :
    HI c s' ∧ (xs.map Prod.snd).sum ≤ holdOf (s.holds a w) p ∧ s'.ledger.iss = s.ledger.iss ∧
    (∀ b, b ≠ a → s'.ledger.bal b = s.ledger.bal b) ∧
    (∀ y, s'.ledger.bal a y + (if y = c.pot then (xs.map Prod.snd).sum else 0) = s.ledger.bal a y + paid xs y) ∧
    (∀ b y q, holdOf (s'.holds b y) q + (if b = a ∧ y = w ∧ q = p then (xs.map Prod.snd).sum else 0) =
      holdOf (s.holds b y) q) := by
  refine spend_sum h hi ?_
  simp only [spend, splitTransfer, bind_ok, ensure_ok, pure_ok] at h
  obtain ⟨l, hl, L, ⟨_, htot, hL⟩, rfl⟩ := h
  exact (sum_lt hL hi.sound hx).1

/-- Every single payment is at most the issuance. -/
theorem payAll_le {a : AssetId} {src : Acct} : ∀ {xs : List (Acct × Nat)} {L L' : Ledger}, payAll L a src xs = .ok L' →
    L.Sound → ∀ x ∈ xs, x.2 ≤ L.iss a
  | [], _, _, _, _, _, hx => (List.not_mem_nil hx).elim
  | y :: xs, L, L', h, hs, x, hx => by
    unfold payAll at h
    split at h
    · rename_i h0
      rcases List.mem_cons.mp hx with rfl | hx
      · omega
      · exact payAll_le h hs x hx
    · simp only [bind_ok] at h
      obtain ⟨L1, h1, h2⟩ := h
      obtain ⟨t1, t2, _, _⟩ := Ledger.transfer_ok h1
      rcases List.mem_cons.mp hx with rfl | hx
      · exact t1.trans ((hs a).1.le _)
      · rw [← t2]
        exact payAll_le h2 (Ledger.transfer_sound h1 hs) x hx

/-- A ledger change that does not reduce the holding account keeps the invariant. -/
theorem HI.ledger {c : Cfg} {s : St} (h : HI c s) {L : Ledger} (hs : L.Sound)
    (hle : ∀ a, s.ledger.bal a c.pot ≤ L.bal a c.pot) : HI c { s with ledger := L } := by
  refine ⟨hs, h.sorted, h.len, fun a => ?_⟩
  obtain ⟨n, hn, hx⟩ := h.backed a
  exact ⟨n, hn, hx.trans (hle a)⟩

theorem HI.step {c : Cfg} {s s' : St} {op : Op} (h : HI c s) (hg : Outside c op) (hs : step c s op = .ok s') : HI c s' := by
  cases op with
  | place p w a amt => exact (place_ok hs h hg).1
  | release p w a amt => exact (release_ok hs h hg).1
  | spend p w a xs => exact (spend_ok hs h hg.2).1
  | split a src xs =>
    simp only [Holds.step, splitTransfer, bind_ok, ensure_ok, pure_ok] at hs
    obtain ⟨L, ⟨_, _, hL⟩, rfl⟩ := hs
    obtain ⟨t2, t3, t5, t4⟩ := payAll_ok hL
    refine h.ledger (t5 h.sound) (fun b => ?_)
    by_cases hb : b = a
    · subst hb
      have e := t4 c.pot
      rw [if_neg (fun hx => hg hx.symm)] at e
      omega
    · rw [t3 b hb]
  | transfer a src dst x =>
    simp only [Holds.step, bind_ok, pure_ok] at hs
    obtain ⟨L, hL, rfl⟩ := hs
    exact h.ledger (Ledger.transfer_sound hL h.sound) (fun b => Ledger.transfer_mono hL b _ (fun _ => Ne.symm hg))
  | mint a dst x =>
    simp only [Holds.step, bind_ok, pure_ok] at hs
    obtain ⟨L, hL, rfl⟩ := hs
    exact h.ledger (Ledger.mint_sound hL h.sound) (fun b => Ledger.mint_mono hL b _)
  | burn a src x =>
    simp only [Holds.step, bind_ok, pure_ok] at hs
    obtain ⟨L, hL, rfl⟩ := hs
    exact h.ledger (Ledger.burn_sound hL h.sound) (fun b => Ledger.burn_mono hL b _ (fun _ => Ne.symm hg))

theorem HI.genesis {c : Cfg} {s : St} (h : Genesis s) : HI c s := by
  refine ⟨h.1, fun a w => ?_, fun a w => ?_, fun a => ⟨0, ?_, Nat.zero_le _⟩⟩
  · rw [h.2]; exact List.Pairwise.nil
  · rw [h.2]; exact Nat.zero_le _
  · exact TotalIs.zero.congr (fun w => by rw [h.2]; rfl)

theorem Reach.hi {c : Cfg} {s : St} (h : Reach c (Outside c) s) : HI c s := by
  induction h with
  | init hg => exact HI.genesis hg
  | step _ hg hs ih => exact ih.step hg hs

end Verif.Holds
