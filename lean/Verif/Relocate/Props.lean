import Verif.Relocate.Lemmas

/-! # The storage helpers of migrations -/

namespace Verif.Relocate

/-! ## C263: values -/

/-- C263: renaming a value answers whether there was a value of the type. If so, the new name has it, the old name has nothing, and
nothing else changes; whatever had the new name is lost. If not, nothing changes. -/
theorem C263_rename {α : Type} (t : Ty α) (c : Cfg) (s : St) (m old new : Bytes) (hn : c.pre m old ≠ c.pre m new) :
    (∃ v x, s.val (c.pre m old) = some v ∧ t.dec v = some x
      ∧ (valueRename t c s m old new).2 = true
      ∧ (valueRename t c s m old new).1.val (c.pre m new) = some (t.enc x)
      ∧ (valueRename t c s m old new).1.val (c.pre m old) = none
      ∧ ∀ k, k ≠ c.pre m old → k ≠ c.pre m new → (valueRename t c s m old new).1.val k = s.val k)
    ∨ ((∀ v, s.val (c.pre m old) = some v → t.dec v = none) ∧ valueRename t c s m old new = (s, false)) := by
  cases hv : s.val (c.pre m old) with
  | none =>
    refine Or.inr ⟨fun v h => by simp at h, ?_⟩
    simp [valueRename, take, get, hv]
  | some v =>
    cases hd : t.dec v with
    | none =>
      refine Or.inr ⟨fun w h => by rw [← Option.some.inj h]; exact hd, ?_⟩
      simp [valueRename, take, get, hv, hd]
    | some x =>
      refine Or.inl ⟨v, x, rfl, hd, ?_, ?_, ?_, fun k h1 h2 => ?_⟩
      · simp [valueRename, take, get, hv, hd]
      · simp [valueRename, take, get, hv, hd, put]
      · simp [valueRename, take, get, hv, hd, put, kill, hn]
      · simp [valueRename, take, get, hv, hd, put, kill, h1, h2]

/-- C263: what was put under one name is got under the other after renaming, and no more under the first. -/
theorem C263_round {α : Type} (t : Ty α) (c : Cfg) (s : St) (m old new : Bytes) (x : α) (hn : c.pre m old ≠ c.pre m new) :
    (valueRename t c (valuePut t c s m old x) m old new).2 = true
    ∧ valueGet t c (valueRename t c (valuePut t c s m old x) m old new).1 m new = some x
    ∧ valueExists c (valueRename t c (valuePut t c s m old x) m old new).1 m old = false := by
  have hx : t.dec (t.enc x) = some x := by simpa using t.law x []
  rcases C263_rename t c (valuePut t c s m old x) m old new hn with ⟨v, y, h1, h2, h3, h4, h5, _⟩ | ⟨h, _⟩
  · have e : v = t.enc x := by simpa [valuePut, put] using h1.symm
    rw [e, hx] at h2
    cases h2
    refine ⟨h3, ?_, ?_⟩
    · simp only [valueGet, get, h4, hx]
    · simp only [valueExists, have_, List.append_nil, h5]
      rfl
  · have := h (t.enc x) (by simp [valuePut, put])
    rw [hx] at this
    cases this

/-- C263: moving a value to another pallet answers whether there was one. If so, its bytes are there, whatever its type, with
everything below its name, and what is neither of the two names nor below them stays. If not, nothing changes. -/
theorem C263_move (c : Cfg) (s : St) (ok : s.Ok) (item old new : Bytes) (hn : c.pre old item ≠ c.pre new item) :
    (∃ v, s.val (c.pre old item) = some v
      ∧ (valueMove c s item old new).2 = true
      ∧ (valueMove c s item old new).1.val (c.pre new item) = some v
      ∧ (valueMove c s item old new).1.val (c.pre old item) = none
      ∧ (∀ r, r ≠ [] → (valueMove c s item old new).1.val (c.pre old item ++ r) = none
        ∧ (valueMove c s item old new).1.val (c.pre new item ++ r)
          = if s.val (c.pre old item ++ r) ≠ none then s.val (c.pre old item ++ r) else s.val (c.pre new item ++ r))
      ∧ ∀ k, (∀ r, k ≠ c.pre old item ++ r) → (∀ r, k ≠ c.pre new item ++ r) →
          (valueMove c s item old new).1.val k = s.val k)
    ∨ (s.val (c.pre old item) = none ∧ valueMove c s item old new = (s, false)) := by
  cases hv : s.val (c.pre old item) with
  | none => exact Or.inr ⟨rfl, by simp [valueMove, valueExists, have_, hv]⟩
  | some v =>
    have hl := pre_len c old item new item
    obtain ⟨h1, h2, h3⟩ := movePrefix_spec ok hl hn
    have ho : (movePrefix s (c.pre old item) (c.pre new item)).val (c.pre old item) = some v := by
      rw [h3, hv]
      · exact fun r hr e => hr (by simpa using e)
      · intro r _ e
        exact apart (r := []) (q := r) hl hn (by simpa using e)
    have em : valueMove c s item old new
        = (kill (put (movePrefix s (c.pre old item) (c.pre new item)) (c.pre new item) v) (c.pre old item), true) := by
      simp [valueMove, valueExists, have_, hv, moveFrom, ho]
    rw [em]
    refine Or.inl ⟨v, rfl, rfl, ?_, ?_, fun r hr => ⟨?_, ?_⟩, fun k k1 k2 => ?_⟩
    · simp only [kill, put]
      rw [if_neg (fun e => hn e.symm)]
      simp
    · simp [kill]
    · have a1 : c.pre old item ++ r ≠ c.pre old item := fun e => hr (by simpa using e)
      have a2 : c.pre old item ++ r ≠ c.pre new item := fun e => apart (r := r) (q := []) hl hn (by simpa using e)
      simp only [kill, put]
      rw [if_neg a1, if_neg a2]
      exact h1 r hr
    · have a1 : c.pre new item ++ r ≠ c.pre new item := fun e => hr (by simpa using e)
      have a2 : c.pre new item ++ r ≠ c.pre old item := fun e => apart (r := []) (q := r) hl hn (by simpa using e.symm)
      simp only [kill, put]
      rw [if_neg a1, if_neg a2]
      exact h2 r hr
    · have a1 : k ≠ c.pre old item := fun e => k1 [] (by simpa using e)
      have a2 : k ≠ c.pre new item := fun e => k2 [] (by simpa using e)
      simp only [kill, put]
      rw [if_neg a1, if_neg a2]
      exact h3 k (fun r _ => k1 r) (fun r _ => k2 r)

/-- C263: clearing a value answers whether there was one; then nothing is left under its name or below it, and everything else
stays. -/
theorem C263_clear (c : Cfg) (s : St) (m i : Bytes) :
    ((valueClear c s m i).2 = true ↔ s.val (c.pre m i) ≠ none)
    ∧ ((valueClear c s m i).2 = false → (valueClear c s m i).1 = s)
    ∧ ((valueClear c s m i).2 = true → (∀ r, (valueClear c s m i).1.val (c.pre m i ++ r) = none)
      ∧ ∀ k, (∀ r, k ≠ c.pre m i ++ r) → (valueClear c s m i).1.val k = s.val k) := by
  cases hv : s.val (c.pre m i) with
  | none =>
    have e : valueClear c s m i = (s, false) := by simp [valueClear, valueExists, have_, hv]
    rw [e]
    simp
  | some v =>
    have e : valueClear c s m i = (clearPrefix s (c.pre m i), true) := by simp [valueClear, valueExists, have_, hv]
    rw [e]
    refine ⟨by simp, by simp, fun _ => ⟨fun r => ?_, fun k h => ?_⟩⟩
    · simp only [clearPrefix]
      rw [if_pos]
      exact List.isPrefixOf_iff_prefix.2 ⟨r, rfl⟩
    · simp only [clearPrefix]
      rw [if_neg]
      intro q
      obtain ⟨r, hr⟩ := List.isPrefixOf_iff_prefix.1 q
      exact h r hr.symm

/-- A hash for the examples: the first sixteen bytes, filled with zeros. -/
def demoCfg : Cfg where
  hash n := (n ++ List.replicate 16 0).take 16
  len n := by simp

def empty : St := ⟨fun _ => none, []⟩

/-- A value of sixteen bytes under the name of pallet 1, item 2. -/
def wide : St := put empty (demoCfg.pre [1] [2]) [1, 2, 3, 4, 5, 6, 7, 8, 9, 10, 11, 12, 13, 14, 15, 16]

/-- C263 fails: the answer is not `false` for a value of another size (mod.rs:209-211 says it is). A value of sixteen bytes is renamed
as one of four bytes: the answer is `true` and twelve bytes are lost. -/
theorem C263_size_refuted :
    ¬ ∀ (n : Nat) (c : Cfg) (s : St) (m old new v : Bytes), s.val (c.pre m old) = some v → v.length ≠ n →
        (valueRename (fixed n) c s m old new).2 = false := by
  intro h
  have := h 4 demoCfg wide [1] [2] [3] [1, 2, 3, 4, 5, 6, 7, 8, 9, 10, 11, 12, 13, 14, 15, 16] (by decide +kernel) (by decide)
  exact absurd this (by decide +kernel)

/-- The four bytes that are left. -/
example : (valueRename (fixed 4) demoCfg wide [1] [2] [3]).1.val (demoCfg.pre [1] [3]) = some [1, 2, 3, 4] := by decide +kernel

/-- C263: what is shorter than the type is not renamed. -/
theorem C263_short_partial (n : Nat) (c : Cfg) (s : St) (m old new v : Bytes) (hv : s.val (c.pre m old) = some v)
    (h : v.length < n) : valueRename (fixed n) c s m old new = (s, false) := by
  have e : (fixed n).dec v = none := by
    show (if h : n ≤ v.length then _ else none) = none
    rw [dif_neg (by omega)]
  simp [valueRename, take, get, hv, e]

/-- C263 fails: a value does not survive every move that is answered with `true`. Moved to the pallet where it is, it is lost, always. -/
theorem C263_same_refuted (c : Cfg) (s : St) (item pallet : Bytes) (hv : s.val (c.pre pallet item) ≠ none) :
    (valueMove c s item pallet pallet).2 = true ∧ (valueMove c s item pallet pallet).1.val (c.pre pallet item) = none := by
  cases e : s.val (c.pre pallet item) with
  | none => exact absurd e hv
  | some v => simp [valueMove, valueExists, have_, e, moveFrom, movePrefix, kill]

example : wide.Ok ∧ demoCfg.pre [1] [2] ≠ demoCfg.pre [1] [3] ∧ demoCfg.pre [1] [2] ≠ demoCfg.pre [4] [2]
    ∧ (valueMove demoCfg wide [2] [1] [4]).2 = true
    ∧ (valueRename (fixed 16) demoCfg wide [1] [2] [3]).2 = true
    ∧ (valueRename (fixed 17) demoCfg wide [1] [2] [3]).2 = false
    ∧ (valueClear demoCfg wide [1] [2]).2 = true ∧ (valueClear demoCfg wide [1] [3]).2 = false
    ∧ (valueMove demoCfg wide [2] [1] [1]).1.val (demoCfg.pre [1] [2]) = none := by
  refine ⟨fun k h => ?_, by decide +kernel, by decide +kernel, by decide +kernel, by decide +kernel, by decide +kernel, by decide +kernel,
    by decide +kernel, by decide +kernel⟩
  simp only [wide, put, empty] at h ⊢
  by_cases e : k = demoCfg.pre [1] [2]
  · rw [e]
    exact List.mem_cons_self
  · rw [if_neg e] at h
    exact absurd rfl h

/-! ## C264: maps -/

/-- C264: the keys that are read are those of the entries of which key and value can be decoded. -/
theorem C264_keys {κ α : Type} (tk : Ty κ) (t : Ty α) (h : Hasher) (c : Cfg) (s : St) (ok : s.Ok) (m i : Bytes) (x : κ) :
    x ∈ mapKeys tk t h c s m i
    ↔ ∃ r v y, r ≠ [] ∧ s.val (c.pre m i ++ r) = some v ∧ tk.dec (h r) = some x ∧ t.dec v = some y := by
  unfold mapKeys entries
  rw [List.mem_map]
  constructor
  · rintro ⟨⟨x', y⟩, hm, rfl⟩
    rw [List.mem_filterMap] at hm
    obtain ⟨k, _, hk⟩ := hm
    split at hk
    · next hb =>
      obtain ⟨r, hr, rfl⟩ := below_iff.1 hb
      rw [List.drop_left] at hk
      split at hk
      · cases hk
      · next v hv =>
        split at hk
        · next hx hy =>
          cases hk
          exact ⟨r, v, _, hr, hv, hx, hy⟩
        · cases hk
    · cases hk
  · rintro ⟨r, v, y, hr, hv, hx, hy⟩
    refine ⟨(x, y), List.mem_filterMap.2 ⟨c.pre m i ++ r, ok _ (by rw [hv]; exact Option.some_ne_none v), ?_⟩, rfl⟩
    rw [if_pos (below_iff.2 ⟨r, hr, rfl⟩), List.drop_left]
    simp [hv, hx, hy]

/-- An entry of a map can be decoded. -/
def Readable {κ α : Type} (tk : Ty κ) (t : Ty α) (h : Hasher) (c : Cfg) (s : St) (m i : Bytes) : Prop :=
  ∃ r v x y, r ≠ [] ∧ s.val (c.pre m i ++ r) = some v ∧ tk.dec (h r) = some x ∧ t.dec v = some y

theorem mapExists_iff {κ α : Type} (tk : Ty κ) (t : Ty α) (h : Hasher) (c : Cfg) (s : St) (ok : s.Ok) (m i : Bytes) :
    mapExists tk t h c s m i = true ↔ Readable tk t h c s m i := by
  have := C264_keys tk t h c s ok m i
  unfold mapExists Readable
  rw [decide_eq_true_iff, gt_iff_lt, List.length_pos_iff_exists_mem]
  constructor
  · rintro ⟨⟨x, y⟩, hm⟩
    obtain ⟨r, v, y, q⟩ := (this x).1 (List.mem_map.2 ⟨(x, y), hm, rfl⟩)
    exact ⟨r, v, x, y, q⟩
  · rintro ⟨r, v, x, y, q⟩
    obtain ⟨e, hm, _⟩ := List.mem_map.1 ((this x).2 ⟨r, v, y, q⟩)
    exact ⟨e, hm⟩

/-- C264: renaming a map answers whether some entry can be decoded. If so, all entries, also those that cannot, come under the new
name, where they replace those with the same key and join the others; nothing is left below the old name, and everything else stays.
If not, nothing changes. -/
theorem C264_rename {κ α : Type} (tk : Ty κ) (t : Ty α) (h : Hasher) (c : Cfg) (s : St) (ok : s.Ok) (m old new : Bytes)
    (hn : c.pre m old ≠ c.pre m new) :
    (Readable tk t h c s m old
      ∧ (mapRename tk t h c s m old new).2 = true
      ∧ (∀ r, r ≠ [] → (mapRename tk t h c s m old new).1.val (c.pre m old ++ r) = none
        ∧ (mapRename tk t h c s m old new).1.val (c.pre m new ++ r)
          = if s.val (c.pre m old ++ r) ≠ none then s.val (c.pre m old ++ r) else s.val (c.pre m new ++ r))
      ∧ ∀ k, (∀ r, r ≠ [] → k ≠ c.pre m old ++ r) → (∀ r, r ≠ [] → k ≠ c.pre m new ++ r) →
          (mapRename tk t h c s m old new).1.val k = s.val k)
    ∨ (¬ Readable tk t h c s m old ∧ mapRename tk t h c s m old new = (s, false)) := by
  by_cases he : Readable tk t h c s m old
  · have e : mapRename tk t h c s m old new = (movePrefix s (c.pre m old) (c.pre m new), true) := by
      unfold mapRename
      rw [if_pos ((mapExists_iff tk t h c s ok m old).2 he)]
    obtain ⟨h1, h2, h3⟩ := movePrefix_spec ok (pre_len c m old m new) hn
    rw [e]
    exact Or.inl ⟨he, rfl, fun r hr => ⟨h1 r hr, h2 r hr⟩, h3⟩
  · refine Or.inr ⟨he, ?_⟩
    unfold mapRename
    rw [if_neg (fun q => he ((mapExists_iff tk t h c s ok m old).1 q))]

/-- C264: what can be got from a map can be got from it under its new name. -/
theorem C264_get {κ α : Type} (tk : Ty κ) (t : Ty α) (h : Hasher) (c : Cfg) (s : St) (ok : s.Ok) (m old new : Bytes)
    (hn : c.pre m old ≠ c.pre m new) (hk : Bytes) (x : α) (h0 : hk ≠ []) (hx : mapGet t c s m old hk = some x)
    (ht : (mapRename tk t h c s m old new).2 = true) :
    mapGet t c (mapRename tk t h c s m old new).1 m new hk = some x
    ∧ mapGet t c (mapRename tk t h c s m old new).1 m old hk = none := by
  rcases C264_rename tk t h c s ok m old new hn with ⟨_, _, h2, _⟩ | ⟨_, e⟩
  · have hv : s.val (c.pre m old ++ hk) ≠ none := by
      intro e
      simp [mapGet, get, e] at hx
    obtain ⟨a, b⟩ := h2 hk h0
    rw [if_pos hv] at b
    constructor
    · unfold mapGet get at hx ⊢
      rw [b]
      exact hx
    · unfold mapGet get
      rw [a]
  · rw [e] at ht
    cases ht

/-- C264: moving a map to another pallet does the same, and takes the value under the name itself with it. -/
theorem C264_move {κ α : Type} (tk : Ty κ) (t : Ty α) (h : Hasher) (c : Cfg) (s : St) (ok : s.Ok) (item old new : Bytes)
    (hn : c.pre old item ≠ c.pre new item) :
    (Readable tk t h c s old item
      ∧ (mapMove tk t h c s item old new).2 = true
      ∧ (∀ r, (mapMove tk t h c s item old new).1.val (c.pre old item ++ r) = none
        ∧ (mapMove tk t h c s item old new).1.val (c.pre new item ++ r)
          = if s.val (c.pre old item ++ r) ≠ none then s.val (c.pre old item ++ r) else s.val (c.pre new item ++ r))
      ∧ ∀ k, (∀ r, k ≠ c.pre old item ++ r) → (∀ r, k ≠ c.pre new item ++ r) →
          (mapMove tk t h c s item old new).1.val k = s.val k)
    ∨ (¬ Readable tk t h c s old item ∧ mapMove tk t h c s item old new = (s, false)) := by
  by_cases he : Readable tk t h c s old item
  · have e : mapMove tk t h c s item old new = (moveFrom c s item old new, true) := by
      unfold mapMove
      rw [if_pos ((mapExists_iff tk t h c s ok old item).2 he)]
    have hl := pre_len c old item new item
    obtain ⟨h1, h2, h3⟩ := movePrefix_spec ok hl hn
    have n1 : ∀ k, k = c.pre old item ∨ k = c.pre new item → (movePrefix s (c.pre old item) (c.pre new item)).val k = s.val k := by
      rintro k (rfl | rfl)
      · exact h3 _ (fun r hr e => hr (by simpa using e)) (fun r _ e => apart (r := []) (q := r) hl hn (by simpa using e))
      · exact h3 _ (fun r _ e => apart (r := r) (q := []) hl hn (by simpa using e.symm)) (fun r hr e => hr (by simpa using e))
    rw [e]
    refine Or.inl ⟨he, rfl, ?_⟩
    cases hv : s.val (c.pre old item) with
    | none =>
      have em : moveFrom c s item old new = movePrefix s (c.pre old item) (c.pre new item) := by
        simp [moveFrom, n1 _ (Or.inl rfl), hv]
      rw [em]
      refine ⟨fun r => ?_, fun k k1 k2 => h3 k (fun r _ => k1 r) (fun r _ => k2 r)⟩
      by_cases hr : r = []
      · subst hr
        simp [n1 _ (Or.inl rfl), n1 _ (Or.inr rfl), hv]
      · exact ⟨h1 r hr, h2 r hr⟩
    | some v =>
      have em : moveFrom c s item old new
          = kill (put (movePrefix s (c.pre old item) (c.pre new item)) (c.pre new item) v) (c.pre old item) := by
        simp [moveFrom, n1 _ (Or.inl rfl), hv]
      rw [em]
      refine ⟨fun r => ?_, fun k k1 k2 => ?_⟩
      · by_cases hr : r = []
        · subst hr
          have hn' : c.pre new item ≠ c.pre old item := fun e => hn e.symm
          simp [kill, put, hv, hn']
        · have a1 : c.pre old item ++ r ≠ c.pre old item := fun e => hr (by simpa using e)
          have a2 : c.pre old item ++ r ≠ c.pre new item := fun e => apart (r := r) (q := []) hl hn (by simpa using e)
          have a3 : c.pre new item ++ r ≠ c.pre new item := fun e => hr (by simpa using e)
          have a4 : c.pre new item ++ r ≠ c.pre old item := fun e => apart (r := []) (q := r) hl hn (by simpa using e.symm)
          simp only [kill, put]
          rw [if_neg a1, if_neg a2, if_neg a3, if_neg a4]
          exact ⟨h1 r hr, h2 r hr⟩
      · have a1 : k ≠ c.pre old item := fun e => k1 [] (by simpa using e)
        have a2 : k ≠ c.pre new item := fun e => k2 [] (by simpa using e)
        simp only [kill, put]
        rw [if_neg a1, if_neg a2]
        exact h3 k (fun r _ => k1 r) (fun r _ => k2 r)
  · refine Or.inr ⟨he, ?_⟩
    unfold mapMove
    rw [if_neg (fun q => he ((mapExists_iff tk t h c s ok old item).1 q))]

/-- C264: taking an entry gives what getting it gives, and removes it, and nothing else, if there was something to get. -/
theorem C264_take {α : Type} (t : Ty α) (c : Cfg) (s : St) (m i h : Bytes) :
    (mapTake t c s m i h).2 = mapGet t c s m i h
    ∧ (mapGet t c s m i h = none → (mapTake t c s m i h).1 = s)
    ∧ (mapGet t c s m i h ≠ none → (mapTake t c s m i h).1.val (c.pre m i ++ h) = none)
    ∧ ∀ k, k ≠ c.pre m i ++ h → (mapTake t c s m i h).1.val k = s.val k := by
  unfold mapTake mapGet take
  cases get t s (c.pre m i ++ h) with
  | none => exact ⟨rfl, fun _ => rfl, fun q => absurd rfl q, fun _ _ => rfl⟩
  | some x => exact ⟨rfl, fun q => (by cases q), fun _ => by simp [kill], fun k hk => by simp [kill, hk]⟩

/-- An entry of one byte in a map whose values are wider, and one in the map under the new name. -/
def narrow : St := mapPut (fixed 1) demoCfg empty [1] [2] [9, 9, 9, 9, 9, 9, 9, 9, 7] ⟨[5], rfl⟩

def joined : St := mapPut (fixed 1) demoCfg narrow [1] [3] [8, 8, 8, 8, 8, 8, 8, 8, 6] ⟨[4], rfl⟩

/-- C264 fails: a map that is not renamed is not empty. -/
theorem C264_empty_refuted :
    ¬ ∀ (n : Nat) (c : Cfg) (s : St) (m old new : Bytes), c.pre m old ≠ c.pre m new →
        (mapRename (fixed 1) (fixed n) (·.drop 8) c s m old new).2 = false → ∀ r, r ≠ [] → s.val (c.pre m old ++ r) = none := by
  intro h
  have := h 4 demoCfg narrow [1] [2] [3] (by decide +kernel) (by decide +kernel) [9, 9, 9, 9, 9, 9, 9, 9, 7] (by decide)
  exact absurd this (by decide +kernel)

/-- C264 fails: the renamed map is not the map as it was, if there were entries under the new name. -/
theorem C264_joined_refuted :
    ¬ ∀ (c : Cfg) (s : St) (m old new : Bytes), c.pre m old ≠ c.pre m new →
        (mapRename (fixed 1) (fixed 1) (·.drop 8) c s m old new).2 = true → ∀ r, r ≠ [] →
          (mapRename (fixed 1) (fixed 1) (·.drop 8) c s m old new).1.val (c.pre m new ++ r) = s.val (c.pre m old ++ r) := by
  intro h
  have := h demoCfg joined [1] [2] [3] (by decide +kernel) (by decide +kernel) [8, 8, 8, 8, 8, 8, 8, 8, 6] (by decide)
  exact absurd this (by decide +kernel)

theorem put_ok {s : St} (ok : s.Ok) (k v : Bytes) : (put s k v).Ok := by
  intro x h
  simp only [put] at h ⊢
  by_cases e : x = k
  · rw [e]
    exact List.mem_cons_self
  · rw [if_neg e] at h
    exact List.mem_cons_of_mem _ (ok x h)

example : joined.Ok
    ∧ (mapKeys (fixed 1) (fixed 1) (·.drop 8) demoCfg joined [1] [2]).map (·.1) = [[7]]
    ∧ (mapKeys (fixed 1) (fixed 2) (·.drop 8) demoCfg joined [1] [2]).map (·.1) = []
    ∧ (mapRename (fixed 1) (fixed 1) (·.drop 8) demoCfg joined [1] [2] [3]).2 = true
    ∧ (mapGet (fixed 1) demoCfg joined [1] [2] [9, 9, 9, 9, 9, 9, 9, 9, 7]).map (·.1) = some [5]
    ∧ (mapMove (fixed 1) (fixed 1) (·.drop 8) demoCfg joined [2] [1] [5]).2 = true := by
  refine ⟨?_, by decide +kernel, by decide +kernel, by decide +kernel, by decide +kernel, by decide +kernel⟩
  exact put_ok (put_ok (fun k h => absurd rfl h) _ _) _ _

end Verif.Relocate
