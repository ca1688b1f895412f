import Verif.Relocate.Model

/-! # What moving a prefix does to every key -/

namespace Verif.Relocate

theorem below_iff {p k : Bytes} : below p k = true ↔ ∃ r, r ≠ [] ∧ k = p ++ r := by
  unfold below
  rw [Bool.and_eq_true, List.isPrefixOf_iff_prefix, decide_eq_true_iff]
  constructor
  · rintro ⟨⟨r, rfl⟩, h⟩
    exact ⟨r, fun e => h (by rw [e]; simp), rfl⟩
  · rintro ⟨r, h, rfl⟩
    exact ⟨⟨r, rfl⟩, fun e => h (by simpa using e)⟩

/-- Two prefixes of the same length have no key in common. -/
theorem apart {f t r q : Bytes} (hl : f.length = t.length) (h : f ≠ t) : f ++ r ≠ t ++ q :=
  fun e => h (List.append_inj_left e hl)

theorem moveOne_other {f t k : Bytes} {s : St} (a : Bytes) (h1 : below f k = false) (h2 : below t k = false) :
    (moveOne f t s a).val k = s.val k := by
  unfold moveOne
  split
  · rfl
  · split
    · next hb =>
      obtain ⟨r, hr, rfl⟩ := below_iff.1 hb
      have n1 : k ≠ t ++ (f ++ r).drop f.length := fun e => by
        have : below t k = true := below_iff.2 ⟨r, hr, by rw [e]; simp⟩
        rw [h2] at this
        exact absurd this (by decide)
      have n2 : k ≠ f ++ r := fun e => by
        rw [← e, h1] at hb
        exact absurd hb (by decide)
      simp only [put, kill]
      rw [if_neg n1, if_neg n2]
    · rfl

theorem fold_other {f t k : Bytes} (h1 : below f k = false) (h2 : below t k = false) :
    ∀ (l : List Bytes) (s : St), (l.foldl (moveOne f t) s).val k = s.val k
  | [], _ => rfl
  | a :: l, s => by
    rw [List.foldl_cons, fold_other h1 h2 l, moveOne_other a h1 h2]

theorem moveOne_source {f t r : Bytes} {s : St} (a : Bytes) (hl : f.length = t.length) (hn : f ≠ t) (hr : r ≠ []) :
    (moveOne f t s a).val (f ++ r) = if f ++ r = a then none else s.val (f ++ r) := by
  unfold moveOne
  split
  · next e =>
    split
    · next q => rw [q, e]
    · rfl
  · split
    · simp only [put, kill]
      rw [if_neg (apart hl hn)]
    · next hb =>
      rw [if_neg]
      intro e
      exact hb (below_iff.2 ⟨r, hr, e.symm⟩)

theorem fold_source {f t r : Bytes} (hl : f.length = t.length) (hn : f ≠ t) (hr : r ≠ []) :
    ∀ (l : List Bytes) (s : St),
      (l.foldl (moveOne f t) s).val (f ++ r) = if f ++ r ∈ l then none else s.val (f ++ r)
  | [], _ => by simp
  | a :: l, s => by
    rw [List.foldl_cons, fold_source hl hn hr l, moveOne_source a hl hn hr]
    by_cases h1 : f ++ r ∈ l
    · rw [if_pos h1, if_pos (List.mem_cons_of_mem _ h1)]
    · rw [if_neg h1]
      by_cases h2 : f ++ r = a
      · rw [if_pos h2, if_pos (by rw [h2]; exact List.mem_cons_self)]
      · rw [if_neg h2, if_neg (by simp [h1, h2])]

theorem moveOne_target {f t r : Bytes} {s : St} (a : Bytes) (hr : r ≠ []) :
    (moveOne f t s a).val (t ++ r) = if f ++ r = a ∧ s.val a ≠ none then s.val a
      else if a = t ++ r ∧ below f a = true then none else s.val (t ++ r) := by
  unfold moveOne
  split
  · next e =>
    rw [if_neg (by simp [e])]
    split
    · next q => rw [← q.1, e]
    · rfl
  · next v e =>
    split
    · next hb =>
      obtain ⟨q, hq, rfl⟩ := below_iff.1 hb
      simp only [put, kill, List.drop_left]
      by_cases h : r = q
      · subst h
        rw [if_pos rfl, if_pos ⟨rfl, by rw [e]; exact Option.some_ne_none v⟩, e]
      · have h4 : ¬ (f ++ r = f ++ q ∧ s.val (f ++ q) ≠ none) := fun x => h (List.append_cancel_left x.1)
        have h5 : t ++ r ≠ t ++ q := fun x => h (List.append_cancel_left x)
        rw [if_neg h5, if_neg h4]
        by_cases h3 : t ++ r = f ++ q
        · rw [if_pos h3, if_pos ⟨h3.symm, hb⟩]
        · rw [if_neg h3, if_neg (fun x => h3 x.1.symm)]
    · next hb =>
      rw [if_neg (fun x => hb (below_iff.2 ⟨r, hr, x.1.symm⟩)), if_neg (fun x => hb x.2)]

theorem fold_target {f t r : Bytes} (hl : f.length = t.length) (hn : f ≠ t) (hr : r ≠ []) :
    ∀ (l : List Bytes) (s : St),
      (l.foldl (moveOne f t) s).val (t ++ r) = if f ++ r ∈ l ∧ s.val (f ++ r) ≠ none then s.val (f ++ r) else s.val (t ++ r)
  | [], _ => by simp
  | a :: l, s => by
    have hf : ¬ (a = t ++ r ∧ below f a = true) := by
      rintro ⟨e, hb⟩
      obtain ⟨q, _, rfl⟩ := below_iff.1 hb
      exact apart hl hn e
    rw [List.foldl_cons, fold_target hl hn hr l, moveOne_source a hl hn hr, moveOne_target a hr, if_neg hf]
    by_cases h2 : f ++ r = a
    · subst h2
      by_cases h3 : s.val (f ++ r) = none
      · simp [h3]
      · simp [h3]
    · by_cases h1 : f ++ r ∈ l
      · simp [h1, h2]
      · simp [h1, h2]

/-- What `move_prefix` does. -/
theorem movePrefix_spec {f t : Bytes} {s : St} (ok : s.Ok) (hl : f.length = t.length) (hn : f ≠ t) :
    (∀ r, r ≠ [] → (movePrefix s f t).val (f ++ r) = none)
    ∧ (∀ r, r ≠ [] → (movePrefix s f t).val (t ++ r) = if s.val (f ++ r) ≠ none then s.val (f ++ r) else s.val (t ++ r))
    ∧ ∀ k, (∀ r, r ≠ [] → k ≠ f ++ r) → (∀ r, r ≠ [] → k ≠ t ++ r) → (movePrefix s f t).val k = s.val k := by
  unfold movePrefix
  rw [if_neg hn]
  refine ⟨fun r hr => ?_, fun r hr => ?_, fun k h1 h2 => ?_⟩
  · rw [fold_source hl hn hr]
    split
    · rfl
    · next h =>
      by_contra q
      exact h (ok _ q)
  · rw [fold_target hl hn hr]
    by_cases h : s.val (f ++ r) = none
    · simp [h]
    · rw [if_pos ⟨ok _ h, h⟩, if_pos h]
  · apply fold_other
    · by_contra q
      obtain ⟨r, hr, e⟩ := below_iff.1 (by simpa using q)
      exact h1 r hr e
    · by_contra q
      obtain ⟨r, hr, e⟩ := below_iff.1 (by simpa using q)
      exact h2 r hr e

theorem pre_len (c : Cfg) (m i m' i' : Bytes) : (c.pre m i).length = (c.pre m' i').length := by
  simp [Cfg.pre, c.len]

end Verif.Relocate
