import Verif.NfiUpgrade.Model
import Mathlib.Data.Finset.Card
import Mathlib.Data.Finset.Union

/-! # The loop over a storage map that is being written to -/

namespace Verif.NfiUpgrade

variable {V : Type}

theorem get_put_same (s : Store V) (k : Key) (v : V) : get (put s k v) k = some v := by
  unfold get put
  rw [List.find?_cons_of_pos (by simp)]
  rfl

theorem get_put_ne (s : Store V) {k k' : Key} (v : V) (h : k ≠ k') : get (put s k' v) k = get s k := by
  unfold get put
  rw [List.find?_cons_of_neg (by simpa using fun e => h e.symm)]

theorem get_mem {s : Store V} {k : Key} {v : V} (h : get s k = some v) : (k, v) ∈ s := by
  unfold get at h
  rw [Option.map_eq_some_iff] at h
  obtain ⟨e, he, rfl⟩ := h
  have h1 := List.find?_some he
  have h2 := List.mem_of_find?_eq_some he
  have h1 := of_decide_eq_true h1
  rw [← h1]
  exact h2

theorem get_some {s : Store V} {k : Key} (h : k ∈ s.map Prod.fst) : ∃ v, get s k = some v := by
  unfold get
  cases hx : s.find? (fun e => decide (e.1 = k)) with
  | some e => exact ⟨e.2, rfl⟩
  | none =>
    rw [List.find?_eq_none] at hx
    obtain ⟨e, he, hk⟩ := List.mem_map.mp h
    exact absurd (decide_eq_true hk) (hx e he)

theorem get_of_nodup {s : Store V} (hn : (s.map Prod.fst).Nodup) {k : Key} {v : V} (h : (k, v) ∈ s) : get s k = some v := by
  obtain ⟨v', hv⟩ := get_some (List.mem_map.mpr ⟨(k, v), h, rfl⟩)
  have := get_mem hv
  have := List.inj_on_of_nodup_map hn h this rfl
  cases this
  exact hv

theorem least_spec : ∀ {l : List Key} {k : Key}, least l = some k → k ∈ l ∧ ∀ x ∈ l, k ≤ x
  | [], _, h => nomatch h
  | a :: l, k, h => by
    unfold least at h
    split at h
    · rename_i hn
      cases h
      refine ⟨List.mem_cons_self, fun x hx => ?_⟩
      rcases List.mem_cons.mp hx with rfl | hx
      · exact le_refl _
      · cases l with
        | nil => cases hx
        | cons b l =>
          unfold least at hn
          split at hn
          · cases hn
          · split at hn <;> cases hn
    · rename_i y hy
      obtain ⟨h1, h2⟩ := least_spec hy
      split at h
      · rename_i hlt
        cases h
        refine ⟨List.mem_cons_self, fun x hx => ?_⟩
        rcases List.mem_cons.mp hx with rfl | hx
        · exact le_refl _
        · exact le_trans (le_of_lt hlt) (h2 x hx)
      · rename_i hlt
        cases h
        refine ⟨List.mem_cons_of_mem _ h1, fun x hx => ?_⟩
        rcases List.mem_cons.mp hx with rfl | hx
        · exact le_of_not_gt hlt
        · exact h2 x hx

theorem least_none : ∀ {l : List Key}, least l = none → l = []
  | [], _ => rfl
  | a :: l, h => by
    unfold least at h
    split at h
    · cases h
    · split at h <;> cases h

theorem next_some {s : Store V} {p k : Key} (h : next s p = some k) :
    p < k ∧ k ∈ s.map Prod.fst ∧ ∀ x ∈ s.map Prod.fst, p < x → k ≤ x := by
  obtain ⟨h1, h2⟩ := least_spec h
  rw [List.mem_filter] at h1
  exact ⟨of_decide_eq_true h1.2, h1.1, fun x hx hp => h2 x (List.mem_filter.mpr ⟨hx, decide_eq_true hp⟩)⟩

theorem next_none {s : Store V} {p : Key} (h : next s p = none) : ∀ x ∈ s.map Prod.fst, x ≤ p := by
  intro x hx
  have := least_none h
  by_contra hp
  have hm : x ∈ (s.map Prod.fst).filter (fun k => decide (p < k)) :=
    List.mem_filter.mpr ⟨hx, decide_eq_true (lt_of_not_ge hp)⟩
  rw [this] at hm
  cases hm

/-- What the loop does with the keys it finds: keys present at the start go to `new`; keys it wrote itself go to `star` or
nowhere. -/
structure Plan (target : Key → Option Key) (old : Store V) (new : Key → Key) (star : Key) : Prop where
  nodup : (old.map Prod.fst).Nodup
  nonempty : ∀ k ∈ old.map Prod.fst, ([] : Key) < k
  first : ∀ k ∈ old.map Prod.fst, target k = some (new k)
  again : ∀ k ∈ old.map Prod.fst, ∀ j, target (new k) = some j → j = star
  more : ∀ j, target star = some j → j = star
  inj : ∀ k ∈ old.map Prod.fst, ∀ j ∈ old.map Prod.fst, new k = new j → k = j
  apart : ∀ k ∈ old.map Prod.fst, new k ∉ old.map Prod.fst
  starOld : star ∉ old.map Prod.fst
  starNew : ∀ k ∈ old.map Prod.fst, new k ≠ star

/-- What holds between two rounds. -/
structure Mid (old : Store V) (new : Key → Key) (star p : Key) (s : Store V) : Prop where
  kept : ∀ k v, (k, v) ∈ old → get s k = some v
  done : ∀ k v, (k, v) ∈ old → k ≤ p → get s (new k) = some v
  only : ∀ k ∈ s.map Prod.fst, k ∈ old.map Prod.fst ∨ (∃ j ∈ old.map Prod.fst, k = new j) ∨ k = star

/-- All keys the storage can ever have. -/
def range (old : Store V) (new : Key → Key) (star : Key) : Finset Key :=
  insert star ((old.map Prod.fst).toFinset ∪ ((old.map Prod.fst).map new).toFinset)

theorem range_card (old : Store V) (new : Key → Key) (star : Key) : (range old new star).card ≤ 2 * old.length + 1 := by
  unfold range
  have h0 := Finset.card_insert_le star ((old.map Prod.fst).toFinset ∪ ((old.map Prod.fst).map new).toFinset)
  have h1 := Finset.card_union_le (old.map Prod.fst).toFinset ((old.map Prod.fst).map new).toFinset
  have h2 := List.toFinset_card_le (old.map Prod.fst)
  have h3 := List.toFinset_card_le ((old.map Prod.fst).map new)
  rw [List.length_map] at h2 h3
  rw [List.length_map] at h3
  omega

theorem Mid.range {old : Store V} {new : Key → Key} {star p : Key} {s : Store V} (h : Mid old new star p s) {k : Key}
    (hk : k ∈ s.map Prod.fst) : k ∈ range old new star := by
  unfold NfiUpgrade.range
  rw [Finset.mem_insert, Finset.mem_union, List.mem_toFinset, List.mem_toFinset, List.mem_map (f := new)]
  rcases h.only k hk with h1 | ⟨j, h1, rfl⟩ | h1
  · exact Or.inr (Or.inl h1)
  · exact Or.inr (Or.inr ⟨j, h1, rfl⟩)
  · exact Or.inl h1

/-- A round. -/
theorem Mid.round {target : Key → Option Key} {old : Store V} {new : Key → Key} {star p : Key} {s : Store V}
    (hp : Plan target old new star) (h : Mid old new star p s) {k : Key} (hk : next s p = some k) {v : V}
    (hv : get s k = some v) :
    (∀ j, target k = some j → Mid old new star k (put s j v)) ∧ (target k = none → Mid old new star k s) := by
  obtain ⟨h1, h2, h3⟩ := next_some hk
  have hle : ∀ x w, (x, w) ∈ old → x ≤ k → x ≤ p ∨ x = k := by
    intro x w hx hxk
    by_cases hxp : x ≤ p
    · exact Or.inl hxp
    · refine Or.inr (le_antisymm hxk (h3 x ?_ (lt_of_not_ge hxp)))
      exact List.mem_map.mpr ⟨(x, w), get_mem (h.kept x w hx), rfl⟩
  refine ⟨fun j hj => ?_, fun hn => ?_⟩
  · by_cases hold : k ∈ old.map Prod.fst
    · have : j = new k := by
        have := hp.first k hold
        rw [hj] at this
        exact Option.some.inj this
      subst this
      refine ⟨fun x w hx => ?_, fun x w hx hxk => ?_, fun x hx => ?_⟩
      · have hm : x ∈ old.map Prod.fst := List.mem_map.mpr ⟨_, hx, rfl⟩
        rw [get_put_ne _ _ (fun e : x = new k => hp.apart k hold (e ▸ hm))]
        exact h.kept x w hx
      · have hm : x ∈ old.map Prod.fst := List.mem_map.mpr ⟨_, hx, rfl⟩
        by_cases hxe : x = k
        · subst hxe
          rw [get_put_same]
          have := h.kept x w hx
          rw [hv] at this
          exact this
        · rw [get_put_ne _ _ (fun e => hxe (hp.inj x hm k hold e))]
          exact h.done x w hx ((hle x w hx hxk).resolve_right hxe)
      · rcases List.mem_cons.mp hx with rfl | hx
        · exact Or.inr (Or.inl ⟨k, hold, rfl⟩)
        · exact h.only x hx
    · have hjs : j = star := by
        rcases h.only k h2 with h4 | ⟨y, h4, rfl⟩ | rfl
        · exact absurd h4 hold
        · exact hp.again y h4 j hj
        · exact hp.more j hj
      subst hjs
      refine ⟨fun x w hx => ?_, fun x w hx hxk => ?_, fun x hx => ?_⟩
      · have hm : x ∈ old.map Prod.fst := List.mem_map.mpr ⟨_, hx, rfl⟩
        rw [get_put_ne _ _ (fun e : x = j => hp.starOld (e ▸ hm))]
        exact h.kept x w hx
      · have hm : x ∈ old.map Prod.fst := List.mem_map.mpr ⟨_, hx, rfl⟩
        rw [get_put_ne _ _ (hp.starNew x hm)]
        exact h.done x w hx ((hle x w hx hxk).resolve_right (fun e => hold (e ▸ hm)))
      · rcases List.mem_cons.mp hx with rfl | hx
        · exact Or.inr (Or.inr rfl)
        · exact h.only x hx
  · refine ⟨h.kept, fun x w hx hxk => ?_, h.only⟩
    have hm : x ∈ old.map Prod.fst := List.mem_map.mpr ⟨_, hx, rfl⟩
    rcases hle x w hx hxk with h4 | rfl
    · exact h.done x w hx h4
    · rw [hp.first x hm] at hn
      cases hn

/-- The loop ends, whatever the order of the keys. -/
theorem iterate_mid {target : Key → Option Key} {old : Store V} {new : Key → Key} {star : Key}
    (hp : Plan target old new star) : ∀ (fuel : Nat) (p : Key) (s : Store V), Mid old new star p s →
    ((range old new star).filter (fun k => p < k)).card < fuel →
    ∃ s' q, iterate target fuel p s = some s' ∧ Mid old new star q s' ∧ ∀ x ∈ s'.map Prod.fst, x ≤ q
  | 0, _, _, _, hf => absurd hf (Nat.not_lt_zero _)
  | fuel + 1, p, s, h, hf => by
    unfold iterate
    cases hk : next s p with
    | none => exact ⟨s, p, rfl, h, next_none hk⟩
    | some k =>
      obtain ⟨h1, h2, h3⟩ := next_some hk
      obtain ⟨v, hv⟩ := get_some h2
      obtain ⟨r1, r2⟩ := h.round hp hk hv
      have hlt : ((range old new star).filter (fun x => k < x)).card < fuel := by
        have hss : (range old new star).filter (fun x => k < x) ⊂ (range old new star).filter (fun x => p < x) := by
          rw [Finset.ssubset_iff_of_subset]
          · exact ⟨k, Finset.mem_filter.mpr ⟨h.range h2, h1⟩, fun hx => lt_irrefl _ (Finset.mem_filter.mp hx).2⟩
          · intro x hx
            rw [Finset.mem_filter] at hx ⊢
            exact ⟨hx.1, lt_trans h1 hx.2⟩
        have := Finset.card_lt_card hss
        omega
      cases ht : target k with
      | none =>
        simp only [ht]
        exact iterate_mid hp fuel k s (r2 ht) hlt
      | some j =>
        simp only [ht, hv]
        exact iterate_mid hp fuel k _ (r1 j ht) hlt

/-- The whole loop: with enough fuel it ends, every old entry is found unchanged and again under its new key, and at most one
other key has been written. -/
theorem iterate_all {target : Key → Option Key} {old : Store V} {new : Key → Key} {star : Key}
    (hp : Plan target old new star) {fuel : Nat} (hf : 2 * old.length + 1 < fuel) :
    ∃ s', iterate target fuel [] old = some s' ∧ (∀ k v, (k, v) ∈ old → get s' k = some v ∧ get s' (new k) = some v) ∧
      ∀ k, get s' k ≠ none → k ∈ old.map Prod.fst ∨ (∃ j ∈ old.map Prod.fst, k = new j) ∨ k = star := by
  have h0 : Mid old new star [] old := by
    refine ⟨fun k v h => get_of_nodup hp.nodup h, fun k v h hle => ?_, fun k h => Or.inl h⟩
    exact absurd (hp.nonempty k (List.mem_map.mpr ⟨_, h, rfl⟩)) (not_lt_of_ge hle)
  have hc : ((range old new star).filter (fun k => ([] : Key) < k)).card < fuel :=
    lt_of_le_of_lt (Finset.card_filter_le _ _) (lt_of_le_of_lt (range_card old new star) hf)
  obtain ⟨s', q, h1, h2, h3⟩ := iterate_mid hp fuel [] old h0 hc
  refine ⟨s', h1, fun k v h => ?_, fun k h => ?_⟩
  · have hk := h2.kept k v h
    exact ⟨hk, h2.done k v h (h3 k (List.mem_map.mpr ⟨_, get_mem hk, rfl⟩))⟩
  · cases hg : get s' k with
    | none => exact absurd hg h
    | some v => exact h2.only k (List.mem_map.mpr ⟨_, get_mem hg, rfl⟩)

/-! ## Keys -/

theorem le_length : ∀ (w n : Nat), (le w n).length = w
  | 0, _ => rfl
  | w + 1, n => by unfold le; rw [List.length_cons, le_length w]

theorem de_le : ∀ (w n : Nat), n < 256 ^ w → de (le w n) = n
  | 0, n, h => by
    have : n = 0 := by simpa using h
    subst this
    rfl
  | w + 1, n, h => by
    unfold le de
    rw [de_le w (n / 256) (by
      rw [pow_succ] at h
      exact Nat.div_lt_of_lt_mul (by omega))]
    omega

theorem decodeLe_append {w : Nat} {a b : List Nat} (h : a.length = w) : decodeLe w (a ++ b) = some (de a, b) := by
  unfold decodeLe
  rw [if_pos (by rw [List.length_append]; omega)]
  congr 2
  · rw [List.take_append_of_le_length (by omega), List.take_of_length_le (by omega)]
  · rw [List.drop_append_of_le_length (by omega), List.drop_of_length_le (by omega), List.nil_append]

theorem reverse_append {a b : List Nat} (h : a.length = 8) : reverse (a ++ b) = b := by
  unfold reverse
  rw [List.drop_append_of_le_length (by omega), List.drop_of_length_le (by omega), List.nil_append]

theorem le_inj {w a b : Nat} (ha : a < 256 ^ w) (hb : b < 256 ^ w) (h : le w a = le w b) : a = b := by
  rw [← de_le w a ha, h, de_le w b hb]

/-- The bytes of a long integer are those of its two halves. -/
theorem le_split : ∀ (v w n : Nat), le (v + w) n = le v n ++ le w (n / 256 ^ v)
  | 0, w, n => by rw [Nat.zero_add, pow_zero, Nat.div_one]; rfl
  | v + 1, w, n => by
    have : v + 1 + w = (v + w) + 1 := by omega
    rw [this]
    show n % 256 :: le (v + w) (n / 256) = (n % 256 :: le v (n / 256)) ++ le w (n / 256 ^ (v + 1))
    rw [le_split v w, Nat.div_div_eq_div_mul, List.cons_append, pow_succ']

theorem le_mod : ∀ (w n : Nat), le w n = le w (n % 256 ^ w)
  | 0, _ => rfl
  | w + 1, n => by
    unfold le
    have h1 : n % 256 ^ (w + 1) % 256 = n % 256 := Nat.mod_mod_of_dvd n ⟨256 ^ w, by rw [pow_succ']⟩
    have h2 : n % 256 ^ (w + 1) / 256 = (n / 256) % 256 ^ w := by
      rw [pow_succ', Nat.mod_mul_right_div_self]
    rw [h1, h2, ← le_mod w (n / 256)]

theorem de_mod (w n : Nat) : de (le w n) = n % 256 ^ w := by
  rw [le_mod, de_le]
  exact Nat.mod_lt _ (by positivity)

end Verif.NfiUpgrade
