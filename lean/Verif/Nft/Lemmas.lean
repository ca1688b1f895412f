import Verif.Nft.Model

/-!
# Owner lists: what the helper functions do to the ownership relation
-/

namespace Verif.Nft

/-- Account `a` owns serial `n` of a collection with owner list `o`. -/
def Owns (o : List Own) (a : Acct) (n : Nat) : Prop := ∃ e ∈ o, e.owner = a ∧ n ∈ e.serials

/-- The tokens that exist. -/
def tokens (o : List Own) : Finset Nat := (o.flatMap Own.serials).toFinset

theorem mem_tokens {o : List Own} {n : Nat} : n ∈ tokens o ↔ ∃ a, Owns o a n := by
  unfold tokens Owns
  simp only [List.mem_toFinset, List.mem_flatMap]
  constructor
  · rintro ⟨e, he, hn⟩; exact ⟨e.owner, e, he, rfl, hn⟩
  · rintro ⟨a, e, he, _, hn⟩; exact ⟨e, he, hn⟩

theorem isTokenOwner_iff {o : List Own} {a : Acct} {n : Nat} : isTokenOwner o a n = true ↔ Owns o a n := by
  unfold isTokenOwner Owns
  simp only [List.any_eq_true, Bool.and_eq_true, decide_eq_true_eq]

theorem tokenExists_iff {o : List Own} {n : Nat} : tokenExists o n = true ↔ ∃ a, Owns o a n := by
  unfold tokenExists Owns
  simp only [List.any_eq_true, decide_eq_true_eq]
  constructor
  · rintro ⟨e, he, hn⟩; exact ⟨e.owner, e, he, rfl, hn⟩
  · rintro ⟨a, e, he, _, hn⟩; exact ⟨e, he, hn⟩

theorem getOwner_owns {o : List Own} {a : Acct} {n : Nat} (h : getOwner o n = some a) : Owns o a n := by
  unfold getOwner at h
  simp only [Option.map_eq_some_iff] at h
  obtain ⟨e, he, rfl⟩ := h
  exact ⟨e, List.mem_of_find?_eq_some he, rfl, by simpa using List.find?_some he⟩

theorem getOwner_none {o : List Own} {n : Nat} : getOwner o n = none ↔ ∀ a, ¬ Owns o a n := by
  unfold getOwner Owns
  simp only [Option.map_eq_none_iff, List.find?_eq_none, decide_eq_true_eq]
  constructor
  · rintro h a ⟨e, he, _, hn⟩; exact h e he hn
  · intro h e he hn; exact h e.owner ⟨e, he, rfl, hn⟩

/-- If nobody shares a token, the reported owner is the owner. -/
theorem getOwner_iff {o : List Own} (hu : ∀ a b n, Owns o a n → Owns o b n → a = b) {a : Acct} {n : Nat} :
    getOwner o n = some a ↔ Owns o a n := by
  constructor
  · exact getOwner_owns
  · intro h
    cases hg : getOwner o n with
    | none => exact absurd h (getOwner_none.mp hg a)
    | some b => rw [hu a b n h (getOwner_owns hg)]

/-! ## adding -/

theorem mem_sortN {l : List Nat} {n : Nat} : n ∈ sortN l ↔ n ∈ l := List.mem_insertionSort _

theorem sortN_perm (l : List Nat) : (sortN l).Perm l := List.perm_insertionSort _ l

theorem addAll_perm {max : Nat} : ∀ {ns l l' : List Nat}, addAll max l ns = .ok l' → l'.Perm (l ++ ns)
  | [], l, l', h => by cases h; simp
  | n :: ns, l, l', h => by
    simp only [addAll, bind_ok, ensure_ok] at h
    obtain ⟨_, _, h⟩ := h
    refine (addAll_perm h).trans ?_
    have := (sortN_perm (l ++ [n])).append_right ns
    simpa using this

theorem addAll_len {max : Nat} : ∀ {ns l l' : List Nat}, addAll max l ns = .ok l' → l.length ≤ max →
    l'.length ≤ max
  | [], l, l', h, hl => by cases h; exact hl
  | n :: ns, l, l', h, hl => by
    simp only [addAll, bind_ok, ensure_ok] at h
    obtain ⟨_, h1, h⟩ := h
    refine addAll_len h ?_
    rw [(sortN_perm _).length_eq, List.length_append, List.length_singleton]
    omega

theorem addEntries_owners {max : Nat} {who : Acct} {ns : List Nat} : ∀ {o o' : List Own},
    addEntries max who ns o = .ok o' → o'.map Own.owner = o.map Own.owner
  | [], o', h => by cases h; rfl
  | e :: o, o', h => by
    unfold addEntries at h
    split at h
    · simp only [bind_ok, pure_ok] at h
      obtain ⟨l, _, o1, h1, rfl⟩ := h
      simp [addEntries_owners h1]
    · simp only [bind_ok, pure_ok] at h
      obtain ⟨o1, h1, rfl⟩ := h
      simp [addEntries_owners h1]

/-- Every entry of the result is an old entry, extended if it belongs to the owner, and conversely. -/
theorem addEntries_mem {max : Nat} {who : Acct} {ns : List Nat} : ∀ {o o' : List Own},
    addEntries max who ns o = .ok o' →
    (∀ e' ∈ o', ∃ e ∈ o, e.owner = e'.owner ∧
      e'.serials.Perm (if e.owner = who then e.serials ++ ns else e.serials)) ∧
    (∀ e ∈ o, ∃ e' ∈ o', e'.owner = e.owner ∧
      e'.serials.Perm (if e.owner = who then e.serials ++ ns else e.serials))
  | [], o', h => by cases h; simp
  | e :: o, o', h => by
    unfold addEntries at h
    split at h
    · rename_i he
      simp only [bind_ok, pure_ok] at h
      obtain ⟨l, hl, o1, h1, rfl⟩ := h
      obtain ⟨i1, i2⟩ := addEntries_mem h1
      constructor
      · intro e' he'
        rcases List.mem_cons.mp he' with rfl | hm
        · refine ⟨e, List.mem_cons_self, rfl, ?_⟩
          rw [if_pos he]; exact addAll_perm hl
        · obtain ⟨x, hx, hy⟩ := i1 e' hm
          exact ⟨x, List.mem_cons_of_mem _ hx, hy⟩
      · intro e' he'
        rcases List.mem_cons.mp he' with rfl | hm
        · refine ⟨_, List.mem_cons_self, rfl, ?_⟩
          rw [if_pos he]; exact addAll_perm hl
        · obtain ⟨x, hx, hy⟩ := i2 e' hm
          exact ⟨x, List.mem_cons_of_mem _ hx, hy⟩
    · rename_i he
      simp only [bind_ok, pure_ok] at h
      obtain ⟨o1, h1, rfl⟩ := h
      obtain ⟨i1, i2⟩ := addEntries_mem h1
      constructor
      · intro e' he'
        rcases List.mem_cons.mp he' with rfl | hm
        · refine ⟨e', List.mem_cons_self, rfl, ?_⟩
          rw [if_neg he]
        · obtain ⟨x, hx, hy⟩ := i1 e' hm
          exact ⟨x, List.mem_cons_of_mem _ hx, hy⟩
      · intro e' he'
        rcases List.mem_cons.mp he' with rfl | hm
        · refine ⟨_, List.mem_cons_self, rfl, ?_⟩
          rw [if_neg he]
        · obtain ⟨x, hx, hy⟩ := i2 e' hm
          exact ⟨x, List.mem_cons_of_mem _ hx, hy⟩

theorem any_owner {o : List Own} {who : Acct} :
    o.any (fun e => decide (e.owner = who)) = true ↔ who ∈ o.map Own.owner := by
  simp only [List.any_eq_true, decide_eq_true_eq, List.mem_map]

theorem addUser_owners {max : Nat} {o o' : List Own} {who : Acct} {ns : List Nat}
    (h : addUser max o who ns = .ok o') (hn : (o.map Own.owner).Nodup) : (o'.map Own.owner).Nodup := by
  unfold addUser at h
  split at h
  · rw [addEntries_owners h]; exact hn
  · rename_i hw
    simp only [bind_ok, ensure_ok, pure_ok] at h
    obtain ⟨_, _, rfl⟩ := h
    rw [any_owner] at hw
    rw [List.map_append, List.map_singleton]
    refine List.Nodup.append hn (List.nodup_singleton _) ?_
    intro x hx hy
    rw [List.mem_singleton] at hy
    subst hy
    exact hw hx

theorem addUser_owns {max : Nat} {o o' : List Own} {who : Acct} {ns : List Nat}
    (h : addUser max o who ns = .ok o') (a : Acct) (n : Nat) :
    Owns o' a n ↔ Owns o a n ∨ (a = who ∧ n ∈ ns) := by
  unfold addUser at h
  split at h
  · rename_i hw
    obtain ⟨i1, i2⟩ := addEntries_mem h
    constructor
    · rintro ⟨e', he', ha, hn⟩
      obtain ⟨e, he, hoe, hp⟩ := i1 e' he'
      rw [hp.mem_iff] at hn
      split at hn
      · rename_i hew
        rcases List.mem_append.mp hn with h1 | h1
        · left; exact ⟨e, he, hoe.trans ha, h1⟩
        · right; exact ⟨ha.symm.trans (hoe.symm.trans hew), h1⟩
      · left; exact ⟨e, he, hoe.trans ha, hn⟩
    · rintro (⟨e, he, ha, hn⟩ | ⟨ha, hn⟩)
      · obtain ⟨e', he', hoe, hp⟩ := i2 e he
        refine ⟨e', he', hoe.trans ha, ?_⟩
        rw [hp.mem_iff]
        split
        · exact List.mem_append_left _ hn
        · exact hn
      · simp only [List.any_eq_true, decide_eq_true_eq] at hw
        obtain ⟨e, he, hew⟩ := hw
        obtain ⟨e', he', hoe, hp⟩ := i2 e he
        refine ⟨e', he', (hoe.trans hew).trans ha.symm, ?_⟩
        rw [hp.mem_iff, if_pos hew]
        exact List.mem_append_right _ hn
  · simp only [bind_ok, ensure_ok, pure_ok] at h
    obtain ⟨_, _, rfl⟩ := h
    unfold Owns
    constructor
    · rintro ⟨e, he, ha, hn⟩
      rcases List.mem_append.mp he with h1 | h1
      · left; exact ⟨e, h1, ha, hn⟩
      · rw [List.mem_singleton] at h1
        subst h1
        right; exact ⟨ha.symm, mem_sortN.mp hn⟩
    · rintro (⟨e, he, ha, hn⟩ | ⟨ha, hn⟩)
      · exact ⟨e, List.mem_append_left _ he, ha, hn⟩
      · exact ⟨⟨who, sortN ns⟩, List.mem_append_right _ List.mem_cons_self, ha.symm, mem_sortN.mpr hn⟩

/-- No repetition appears if the new serials are new and not repeated. -/
theorem addUser_nodup {max : Nat} {o o' : List Own} {who : Acct} {ns : List Nat}
    (h : addUser max o who ns = .ok o') (hs : ∀ e ∈ o, e.serials.Nodup) (hn : ns.Nodup)
    (hnew : ∀ n ∈ ns, ¬ Owns o who n) : ∀ e ∈ o', e.serials.Nodup := by
  unfold addUser at h
  split at h
  · obtain ⟨i1, _⟩ := addEntries_mem h
    intro e' he'
    obtain ⟨e, he, hoe, hp⟩ := i1 e' he'
    rw [hp.nodup_iff]
    split
    · rename_i hew
      refine List.Nodup.append (hs e he) hn ?_
      intro x hx hy
      exact hnew x hy ⟨e, he, hew, hx⟩
    · exact hs e he
  · simp only [bind_ok, ensure_ok, pure_ok] at h
    obtain ⟨_, _, rfl⟩ := h
    intro e he
    rcases List.mem_append.mp he with h1 | h1
    · exact hs e h1
    · rw [List.mem_singleton] at h1
      subst h1
      exact (sortN_perm ns).nodup_iff.mpr hn

/-! ## removing -/

theorem retainFirst_owners {who : Acct} {ns : List Nat} : ∀ (o : List Own),
    (retainFirst who ns o).1.map Own.owner = o.map Own.owner
  | [] => rfl
  | e :: o => by
    unfold retainFirst
    split
    · rfl
    · simp [retainFirst_owners o]

theorem removeUser_owners {o : List Own} {who : Acct} {ns : List Nat} (hn : (o.map Own.owner).Nodup) :
    ((removeUser o who ns).map Own.owner).Nodup := by
  unfold removeUser
  split
  · refine List.Nodup.sublist ?_ hn
    rw [← retainFirst_owners (who := who) (ns := ns) o]
    exact List.filter_sublist.map _
  · rw [retainFirst_owners]; exact hn

/-- With distinct owners, what is left after removing from the first entry. -/
theorem retainFirst_mem {who : Acct} {ns : List Nat} : ∀ {o : List Own}, (o.map Own.owner).Nodup →
    ∀ e', e' ∈ (retainFirst who ns o).1 ↔ ∃ e ∈ o, e' =
      if e.owner = who then ⟨e.owner, e.serials.filter (fun n => decide (n ∉ ns))⟩ else e
  | [], _, e' => by simp [retainFirst]
  | e :: o, hn, e' => by
    rw [List.map_cons, List.nodup_cons] at hn
    unfold retainFirst
    split
    · rename_i he
      simp only [List.mem_cons]
      constructor
      · rintro (h | h)
        · exact ⟨e, Or.inl rfl, by rw [if_pos he]; exact h⟩
        · refine ⟨e', Or.inr h, ?_⟩
          rw [if_neg]
          intro hw
          exact hn.1 (List.mem_map.mpr ⟨e', h, hw.trans he.symm⟩)
      · rintro ⟨x, hx | hx, hy⟩
        · subst hx; rw [if_pos he] at hy; exact Or.inl hy
        · right
          rw [if_neg] at hy
          · rw [hy]; exact hx
          · intro hw
            exact hn.1 (List.mem_map.mpr ⟨x, hx, hw.trans he.symm⟩)
    · rename_i he
      simp only [List.mem_cons]
      rw [retainFirst_mem hn.2 e']
      constructor
      · rintro (h | ⟨x, hx, hy⟩)
        · exact ⟨e, Or.inl rfl, by rw [if_neg he]; exact h⟩
        · exact ⟨x, Or.inr hx, hy⟩
      · rintro ⟨x, hx | hx, hy⟩
        · subst hx; rw [if_neg he] at hy; exact Or.inl hy
        · exact Or.inr ⟨x, hx, hy⟩

/-- If the flag is set the owner's entry is empty. -/
theorem retainFirst_empty {who : Acct} {ns : List Nat} : ∀ {o : List Own}, (o.map Own.owner).Nodup →
    (retainFirst who ns o).2 = true → ∀ e ∈ o, e.owner = who → ∀ n ∈ e.serials, n ∈ ns
  | [], _, h, e, he, _ => by cases he
  | e0 :: o, hn, h, e, he, hw => by
    rw [List.map_cons, List.nodup_cons] at hn
    unfold retainFirst at h
    split at h
    · rename_i he0
      rcases List.mem_cons.mp he with rfl | hm
      · intro n hns
        by_contra hc
        simp only [List.isEmpty_iff, List.filter_eq_nil_iff, decide_eq_true_eq, not_not] at h
        exact hc (h n hns)
      · exact absurd (List.mem_map.mpr ⟨e, hm, hw.trans he0.symm⟩) hn.1
    · rename_i he0
      rcases List.mem_cons.mp he with rfl | hm
      · exact absurd hw he0
      · exact retainFirst_empty hn.2 h e hm hw

theorem removeUser_owns {o : List Own} {who : Acct} {ns : List Nat} (hn : (o.map Own.owner).Nodup)
    (a : Acct) (n : Nat) : Owns (removeUser o who ns) a n ↔ Owns o a n ∧ ¬ (a = who ∧ n ∈ ns) := by
  have key : Owns (retainFirst who ns o).1 a n ↔ Owns o a n ∧ ¬ (a = who ∧ n ∈ ns) := by
    constructor
    · rintro ⟨e', he', ha, hm⟩
      rw [retainFirst_mem hn] at he'
      obtain ⟨e, he, rfl⟩ := he'
      split at ha
      · rename_i hew
        rw [if_pos hew] at hm
        simp only [List.mem_filter, decide_eq_true_eq] at hm
        exact ⟨⟨e, he, ha, hm.1⟩, fun hc => hm.2 hc.2⟩
      · rename_i hew
        rw [if_neg hew] at hm
        exact ⟨⟨e, he, ha, hm⟩, fun hc => hew (ha.trans hc.1)⟩
    · rintro ⟨⟨e, he, ha, hm⟩, hc⟩
      refine ⟨_, (retainFirst_mem hn _).mpr ⟨e, he, rfl⟩, ?_, ?_⟩
      · split <;> exact ha
      · split
        · rename_i hew
          simp only [List.mem_filter, decide_eq_true_eq]
          exact ⟨hm, fun hx => hc ⟨ha.symm.trans hew, hx⟩⟩
        · exact hm
  unfold removeUser
  split
  · rename_i hb
    rw [← key]
    constructor
    · rintro ⟨e, he, h⟩
      exact ⟨e, (List.mem_filter.mp he).1, h⟩
    · rintro ⟨e, he, ha, hm⟩
      refine ⟨e, List.mem_filter.mpr ⟨he, ?_⟩, ha, hm⟩
      simp only [decide_eq_true_eq]
      intro hw
      rw [retainFirst_mem hn] at he
      obtain ⟨x, hx, rfl⟩ := he
      split at hw
      · rename_i hxw
        rw [if_pos hxw] at hm
        simp only [List.mem_filter, decide_eq_true_eq] at hm
        exact hm.2 (retainFirst_empty hn hb x hx hxw n hm.1)
      · rename_i hxw; exact hxw hw
  · exact key

theorem removeUser_nodup {o : List Own} {who : Acct} {ns : List Nat} (hn : (o.map Own.owner).Nodup)
    (hs : ∀ e ∈ o, e.serials.Nodup) : ∀ e ∈ removeUser o who ns, e.serials.Nodup := by
  have key : ∀ e ∈ (retainFirst who ns o).1, e.serials.Nodup := by
    intro e' he'
    rw [retainFirst_mem hn] at he'
    obtain ⟨e, he, rfl⟩ := he'
    split
    · exact (hs e he).filter _
    · exact hs e he
  unfold removeUser
  split
  · intro e he; exact key e (List.mem_filter.mp he).1
  · exact key

theorem burnFrom_owners {o : List Own} {who : Acct} {n : Nat} :
    (burnFrom o who n).map Own.owner = o.map Own.owner := by
  unfold burnFrom
  rw [List.map_map]
  apply List.map_congr_left
  intro e _
  simp only [Function.comp_apply]
  split <;> rfl

theorem burnFrom_owns {o : List Own} {who : Acct} {n : Nat} (a : Acct) (m : Nat) :
    Owns (burnFrom o who n) a m ↔ Owns o a m ∧ ¬ (a = who ∧ m = n) := by
  unfold burnFrom Owns
  simp only [List.mem_map]
  constructor
  · rintro ⟨e', ⟨e, he, rfl⟩, ha, hm⟩
    split at ha
    · rename_i hew
      rw [if_pos hew] at hm
      simp only [List.mem_filter, decide_eq_true_eq] at hm
      exact ⟨⟨e, he, ha, hm.1⟩, fun hc => hm.2 hc.2⟩
    · rename_i hew
      rw [if_neg hew] at hm
      exact ⟨⟨e, he, ha, hm⟩, fun hc => hew (ha.trans hc.1)⟩
  · rintro ⟨⟨e, he, ha, hm⟩, hc⟩
    refine ⟨_, ⟨e, he, rfl⟩, ?_, ?_⟩
    · split <;> exact ha
    · split
      · rename_i hew
        simp only [List.mem_filter, decide_eq_true_eq]
        exact ⟨hm, fun hx => hc ⟨ha.symm.trans hew, hx⟩⟩
      · exact hm

theorem burnFrom_nodup {o : List Own} {who : Acct} {n : Nat} (hs : ∀ e ∈ o, e.serials.Nodup) :
    ∀ e ∈ burnFrom o who n, e.serials.Nodup := by
  intro e' he'
  unfold burnFrom at he'
  obtain ⟨e, he, rfl⟩ := List.mem_map.mp he'
  split
  · exact (hs e he).filter _
  · exact hs e he

/-! ## balances -/

theorem balanceOf_cons (e : Own) (o : List Own) (a : Acct) :
    balanceOf (e :: o) a = if e.owner = a then e.serials.length else balanceOf o a := by
  unfold balanceOf
  rw [List.find?_cons]
  by_cases h : e.owner = a
  · simp [h]
  · simp [h]

theorem balanceOf_absent {o : List Own} {a : Acct} (h : a ∉ o.map Own.owner) : balanceOf o a = 0 := by
  induction o with
  | nil => rfl
  | cons e o ih =>
    simp only [List.map_cons, List.mem_cons, not_or] at h
    rw [balanceOf_cons, if_neg (fun hc => h.1 hc.symm)]
    exact ih h.2

/-- Balances add up to the number of list entries. -/
theorem balance_total : ∀ {o : List Own}, (o.map Own.owner).Nodup →
    TotalIs (balanceOf o) (o.flatMap Own.serials).length
  | [], _ => TotalIs.zero
  | e :: o, h => by
    rw [List.map_cons, List.nodup_cons] at h
    have ih := (balance_total h.2).upd_add e.owner e.serials.length
    rw [balanceOf_absent h.1, Nat.zero_add] at ih
    rw [List.flatMap_cons, List.length_append, Nat.add_comm]
    refine ih.congr ?_
    intro a
    rw [balanceOf_cons, upd_apply]
    by_cases ha : e.owner = a
    · rw [if_pos ha, if_pos ha.symm]
    · rw [if_neg ha, if_neg (fun hc => ha hc.symm)]

/-- If nobody shares a token and nobody holds one twice, the entries are all different. -/
theorem flat_nodup {o : List Own} (hn : (o.map Own.owner).Nodup)
    (hu : ∀ a b n, Owns o a n → Owns o b n → a = b) (hs : ∀ e ∈ o, e.serials.Nodup) :
    (o.flatMap Own.serials).Nodup := by
  rw [List.nodup_flatMap]
  refine ⟨hs, ?_⟩
  have hp : o.Pairwise (fun x y => x.owner ≠ y.owner) := List.pairwise_map.mp hn
  refine List.Pairwise.imp_of_mem ?_ hp
  intro x y hx hy hxy
  intro n h1 h2
  exact hxy (hu _ _ n ⟨x, hx, rfl, h1⟩ ⟨y, hy, rfl, h2⟩)

/-- The balance of an account is the number of tokens it owns. -/
theorem balance_card {o : List Own} (hn : (o.map Own.owner).Nodup) (hs : ∀ e ∈ o, e.serials.Nodup) (a : Acct) :
    ∃ S : Finset Nat, (∀ n, n ∈ S ↔ Owns o a n) ∧ S.card = balanceOf o a := by
  induction o with
  | nil => exact ⟨∅, by simp [Owns], rfl⟩
  | cons e o ih =>
    rw [List.map_cons, List.nodup_cons] at hn
    rw [balanceOf_cons]
    by_cases ha : e.owner = a
    · refine ⟨e.serials.toFinset, ?_, ?_⟩
      · intro n
        rw [List.mem_toFinset]
        constructor
        · intro h; exact ⟨e, List.mem_cons_self, ha, h⟩
        · rintro ⟨x, hx, hxa, h⟩
          rcases List.mem_cons.mp hx with rfl | hm
          · exact h
          · exact absurd (List.mem_map.mpr ⟨x, hm, hxa.trans ha.symm⟩) hn.1
      · rw [if_pos ha]
        exact List.toFinset_card_of_nodup (hs e List.mem_cons_self)
    · obtain ⟨S, h1, h2⟩ := ih hn.2 (fun x hx => hs x (List.mem_cons_of_mem _ hx))
      refine ⟨S, ?_, ?_⟩
      · intro n
        rw [h1]
        constructor
        · rintro ⟨x, hx, h⟩; exact ⟨x, List.mem_cons_of_mem _ hx, h⟩
        · rintro ⟨x, hx, hxa, h⟩
          rcases List.mem_cons.mp hx with rfl | hm
          · exact absurd hxa ha
          · exact ⟨x, hm, hxa, h⟩
      · rw [if_neg ha]; exact h2

end Verif.Nft
