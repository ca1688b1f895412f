import Verif.Bags.Model

/-! # C266: whoever stakes more is considered first -/

namespace Verif.Bags

/-- The thresholds grow, by at most the factor `1.113172351`. -/
def Steps : List Nat → Bool
  | a :: b :: l => decide (a < b) && decide (b * 1000000000 ≤ a * 1113172351) && Steps (b :: l)
  | _ => true

theorem steps : Steps thresholds = true := by decide +kernel

theorem sorted : thresholds.Pairwise (· < ·) := by
  have : ∀ l : List Nat, Steps l = true → l.Pairwise (· < ·) := by
    intro l
    induction l with
    | nil => intro _; exact List.Pairwise.nil
    | cons a l ih =>
      intro h
      cases l with
      | nil => exact List.pairwise_singleton _ _
      | cons b l =>
        simp only [Steps, Bool.and_eq_true, decide_eq_true_iff] at h
        have hb := ih h.2
        refine List.pairwise_cons.2 ⟨fun x hx => ?_, hb⟩
        rcases List.mem_cons.1 hx with rfl | hx
        · exact h.1.1
        · exact lt_trans h.1.1 ((List.pairwise_cons.1 hb).1 x hx)
  exact this thresholds steps

/-- Above a stake there is a threshold that is not much higher. -/
theorem near : ∀ (l : List Nat) (a x : Nat), Steps (a :: l) = true → a ≤ x → x ≤ (a :: l).getLast (by simp) →
    ∃ t ∈ a :: l, x ≤ t ∧ t * 1000000000 ≤ x * 1113172351
  | [], a, x, _, h1, h2 => by
    have h3 : x ≤ a := by simpa using h2
    have h4 : a = x := le_antisymm h1 h3
    subst h4
    exact ⟨a, List.mem_cons_self, le_refl _, Nat.mul_le_mul_left _ (by decide)⟩
  | b :: l, a, x, hs, h1, h2 => by
    have hs' := hs
    simp only [Steps, Bool.and_eq_true, decide_eq_true_iff] at hs'
    by_cases hb : x ≤ b
    · exact ⟨b, by simp, hb, le_trans hs'.1.2 (Nat.mul_le_mul_right _ h1)⟩
    · obtain ⟨t, ht, q⟩ := near l b x hs'.2 (by omega) (by simpa using h2)
      exact ⟨t, List.mem_cons_of_mem _ ht, q⟩

theorem count_lt {l : List Nat} {x y t : Nat} (ht : t ∈ l) (h1 : x ≤ t) (h2 : t < y) :
    l.countP (fun t => decide (t < x)) < l.countP (fun t => decide (t < y)) := by
  induction l with
  | nil => cases ht
  | cons a l ih =>
    have mono : l.countP (fun t => decide (t < x)) ≤ l.countP (fun t => decide (t < y)) :=
      List.countP_mono_left (fun z _ hz => by simp only [decide_eq_true_iff] at hz ⊢; omega)
    rw [List.countP_cons, List.countP_cons]
    rcases List.mem_cons.1 ht with rfl | ht
    · rw [if_neg (by simp only [decide_eq_true_iff]; omega), if_pos (by simpa using h2)]
      omega
    · have := ih ht
      by_cases hx : a < x
      · rw [if_pos (by simpa using hx), if_pos (by simp only [decide_eq_true_iff]; omega)]
        omega
      · rw [if_neg (by simpa using hx)]
        omega

/-- The bag of a voter with more than `1.113172351` times the stake is higher. -/
theorem bag_lt {x y : Nat} (h0 : 10000000000 ≤ x) (hx : x < U64) (h : x * 1113172351 < y * 1000000000) : bagOf x < bagOf y := by
  obtain ⟨t, ht, h1, h2⟩ := near thresholds.tail 10000000000 x (by decide +kernel) h0 (by
    have : ((10000000000 :: thresholds.tail).getLast (by simp)) = 18446744073709551615 := by decide +kernel
    rw [this]
    unfold U64 at hx
    omega)
  have e : (10000000000 :: thresholds.tail) = thresholds := by decide +kernel
  rw [e] at ht
  exact count_lt ht h1 (by omega)

theorem pair_range {a b m : Nat} (h : a < b) (hb : b < m) : [a, b].Sublist (List.range m) := by
  have h1 : (List.range (b + 1)).Sublist (List.range m) := List.range_sublist.2 (by omega)
  refine List.Sublist.trans ?_ h1
  rw [List.range_succ]
  exact List.Sublist.append (List.singleton_sublist.2 (List.mem_range.2 h)) (List.Sublist.refl [b])

theorem bag_le (x : Nat) : bagOf x < thresholds.length + 1 := by
  unfold bagOf
  generalize thresholds = l
  have := List.countP_le_length (p := fun t => decide (t < x)) (l := l)
  omega

/-- Higher bags come first. -/
theorem first {l : List Voter} {x y : Voter} (hx : x ∈ l) (hy : y ∈ l) (h : bagOf x.stake < bagOf y.stake) :
    [y, x].Sublist (iter l) := by
  have hb := bag_le y.stake
  have h1 : [bagOf y.stake, bagOf x.stake].Sublist (List.range (thresholds.length + 1)).reverse := by
    have := List.reverse_sublist.2 (pair_range h hb)
    simpa using this
  have h2 := List.Sublist.flatMap h1 (fun b => l.filter fun v => decide (bagOf v.stake = b))
  refine List.Sublist.trans ?_ h2
  simp only [List.flatMap_cons, List.flatMap_nil, List.append_nil]
  show ([y] ++ [x]).Sublist _
  refine List.Sublist.append ?_ ?_
  · exact List.singleton_sublist.2 (List.mem_filter.2 ⟨hy, by simp⟩)
  · exact List.singleton_sublist.2 (List.mem_filter.2 ⟨hx, by simp⟩)

/-- C266: of two voters, one of whom stakes at least 10,000,000,000 and the other more than `1.113172351` times as much, the other comes
first. -/
theorem C266_first_partial (l : List Voter) (x y : Voter) (hx : x ∈ l) (hy : y ∈ l) (h0 : 10000000000 ≤ x.stake) (hm : x.stake < U64)
    (h : x.stake * 1113172351 < y.stake * 1000000000) : [y, x].Sublist (iter l) :=
  first hx hy (bag_lt h0 hm h)

/-- C266: everyone is in the list, once. -/
theorem C266_everyone (l : List Voter) : (iter l).Perm l := by
  have key : ∀ (n : Nat) (l : List Voter), (∀ v ∈ l, bagOf v.stake < n) →
      ((List.range n).reverse.flatMap fun b => l.filter fun v => decide (bagOf v.stake = b)).Perm l := by
    intro n
    induction n with
    | zero =>
      intro l h
      cases l with
      | nil => simp
      | cons v l => exact absurd (h v List.mem_cons_self) (by omega)
    | succ n ih =>
      intro l h
      rw [List.range_succ, List.reverse_append, List.reverse_singleton, List.singleton_append, List.flatMap_cons]
      have hl := ih (l.filter fun v => !decide (bagOf v.stake = n)) (by
        intro v hv
        have h1 := h v (List.mem_filter.1 hv).1
        have h2 : bagOf v.stake ≠ n := by simpa using (List.mem_filter.1 hv).2
        omega)
      have e : ((List.range n).reverse.flatMap fun b =>
            (l.filter fun v => !decide (bagOf v.stake = n)).filter fun v => decide (bagOf v.stake = b))
          = (List.range n).reverse.flatMap fun b => l.filter fun v => decide (bagOf v.stake = b) := by
        apply List.flatMap_congr
        intro b hb
        have hbn : b < n := by simpa using hb
        rw [List.filter_filter]
        apply List.filter_congr
        intro v _
        by_cases q : bagOf v.stake = b
        · have : b ≠ n := by omega
          simp [q, this]
        · simp [q]
      rw [e] at hl
      exact (List.Perm.append_left _ hl).trans (List.filter_append_perm _ l)
  exact key _ l (fun v _ => bag_le v.stake)

theorem take_first {L : List Voter} (nd : L.Nodup) {x y : Voter} (h : [y, x].Sublist L) {n : Nat} (hx : x ∈ L.take n) :
    y ∈ L.take n := by
  rw [← List.take_append_drop n L] at h nd
  obtain ⟨l1, l2, e, h1, h2⟩ := List.sublist_append_iff.1 h
  cases l1 with
  | nil =>
    have hx2 : x ∈ L.drop n := h2.subset (by rw [← show [y, x] = l2 from e]; simp)
    exact absurd hx2 (List.disjoint_of_nodup_append nd hx)
  | cons a l1 =>
    have : a = y := by
      rw [List.cons_append] at e
      exact (List.cons.inj e).1.symm
    rw [← this]
    exact h1.subset List.mem_cons_self

/-- C266: if there is not room for all voters, whoever is left out has at most `1.113172351` times the stake of anyone who is in and stakes at
least 10,000,000,000. -/
theorem C266_room_partial (l : List Voter) (nd : l.Nodup) (n : Nat) (x y : Voter) (hx : x ∈ snapshot n l) (hy : y ∈ l)
    (h0 : 10000000000 ≤ x.stake) (hm : x.stake < U64) (hout : y ∉ snapshot n l) : y.stake * 1000000000 ≤ x.stake * 1113172351 := by
  by_contra q
  have hxl : x ∈ l := (C266_everyone l).subset (List.mem_of_mem_take hx)
  exact hout (take_first ((C266_everyone l).nodup_iff.2 nd) (C266_first_partial l x y hxl hy h0 hm (by omega)) hx)

/-- Nobody else's place depends on more than stakes: voters of one bag stay in the order of their coming. -/
theorem C266_queue (l : List Voter) (b : Nat) (hb : b ≤ thresholds.length) :
    (l.filter fun v => decide (bagOf v.stake = b)).Sublist (iter l) := by
  have h1 : [b].Sublist (List.range (thresholds.length + 1)).reverse :=
    List.singleton_sublist.2 (by simp; omega)
  unfold iter
  simpa using List.Sublist.flatMap h1 (fun b => l.filter fun v => decide (bagOf v.stake = b))

/-- C266 fails: up to 10,000,000,000 (ten thousand ROOT) all stakes are in one bag. A voter who stakes a single unit and came first takes the
place of one who stakes ten billion times as much. -/
theorem C266_small_refuted :
    ¬ ∀ (l : List Voter) (n : Nat) (x y : Voter), l.Nodup → x ∈ snapshot n l → y ∈ l → x.stake * 2 ≤ y.stake → y ∈ snapshot n l := by
  intro h
  have := h [⟨1, 1⟩, ⟨2, 10000000000⟩] 1 ⟨1, 1⟩ ⟨2, 10000000000⟩ (by decide) (by decide +kernel) (by decide) (by decide)
  exact absurd this (by decide +kernel)

/-- C266 fails: also above, the order of stakes is not kept exactly. -/
theorem C266_exact_refuted :
    ¬ ∀ (l : List Voter) (n : Nat) (x y : Voter), l.Nodup → x ∈ snapshot n l → y ∈ l → 10000000000 < x.stake → x.stake < y.stake →
        y ∈ snapshot n l := by
  intro h
  have := h [⟨1, 10000000001⟩, ⟨2, 11131723507⟩] 1 ⟨1, 10000000001⟩ ⟨2, 11131723507⟩ (by decide) (by decide +kernel) (by decide)
    (by decide) (by decide)
  exact absurd this (by decide +kernel)

example : iter [⟨1, 5⟩, ⟨2, 20000000000⟩, ⟨3, 7⟩, ⟨4, 30000000000⟩] = [⟨4, 30000000000⟩, ⟨2, 20000000000⟩, ⟨1, 5⟩, ⟨3, 7⟩]
    ∧ snapshot 1 [⟨1, 20000000000⟩, ⟨2, 20000000001⟩] = [⟨1, 20000000000⟩]
    ∧ 20000000000 * 1113172351 < 30000000000 * 1000000000 ∧ 20000000000 < U64 := by decide +kernel

end Verif.Bags
