import Verif.Witness.Props

/-!
# The full signature list handed to the Ethereum contract (C72)

/repo/primitives/src/ethy.rs:190-214 `EventProof::expanded_signatures`. The empty signature is 0.
-/

namespace Verif.Witness

/-- ethy.rs:205-212: the loop, which stops at the first index outside the list. -/
def fill (n : Nat) : List (Nat × Nat) → List Nat → List Nat
  | [], acc => acc
  | (i, sig) :: rest, acc => if n ≤ i then acc else fill n rest (acc.set i sig)

/-- ethy.rs:194-214. -/
def expanded (sigs : List (Nat × Nat)) (n : Nat) : List Nat := fill n sigs (List.replicate n 0)

theorem fill_length {n : Nat} : ∀ (l : List (Nat × Nat)) (acc : List Nat), (fill n l acc).length = acc.length
  | [], _ => rfl
  | (i, sig) :: rest, acc => by
    unfold fill
    split
    · rfl
    · rw [fill_length rest, List.length_set]

theorem fill_other {n : Nat} : ∀ (l : List (Nat × Nat)) (acc : List Nat) (k : Nat), (∀ p ∈ l, p.1 ≠ k) →
    (fill n l acc)[k]? = acc[k]?
  | [], _, _, _ => rfl
  | (i, sig) :: rest, acc, k, h => by
    unfold fill
    split
    · rfl
    · rw [fill_other rest _ k (fun p hp => h p (List.mem_cons_of_mem _ hp)), List.getElem?_set]
      rw [if_neg (h _ List.mem_cons_self)]

theorem fill_mem {n : Nat} : ∀ (l : List (Nat × Nat)) (acc : List Nat) (k sig : Nat), acc.length = n →
    l.Pairwise (fun p q => p.1 < q.1) → (k, sig) ∈ l → k < n → (fill n l acc)[k]? = some sig
  | (i, t) :: rest, acc, k, sig, ha, hs, hm, hk => by
    obtain ⟨h1, h2⟩ := List.pairwise_cons.mp hs
    unfold fill
    rcases List.mem_cons.mp hm with e | hm
    · cases e
      rw [if_neg (by omega), fill_other rest _ i (fun p hp => by have := h1 p hp; simp only at this; omega),
        List.getElem?_set, if_pos rfl, if_pos (by omega)]
    · have := h1 _ hm
      simp only at this
      rw [if_neg (by omega)]
      exact fill_mem rest _ k sig (by rw [List.length_set]; exact ha) h2 hm hk

/-- C72: for any proof the node makes, the expanded list has one entry per validator; at each index it holds
the collected signature of that index, and the empty signature where there is none. -/
theorem C72_expanded_positions {c : Cfg} {s : St} (h : Reach c s) {p : Proof} (hp : p ∈ s.proofs) (n : Nat) :
    (expanded p.sigs n).length = n ∧
    (∀ i sig, (i, sig) ∈ p.sigs → i < n → (expanded p.sigs n)[i]? = some sig) ∧
    (∀ i, i < n → (∀ sig, (i, sig) ∉ p.sigs) → (expanded p.sigs n)[i]? = some 0) := by
  have hs := ((reach_SI h).proofs p hp).1
  refine ⟨?_, ?_, ?_⟩
  · unfold expanded; rw [fill_length, List.length_replicate]
  · intro i sig hm hi
    exact fill_mem _ _ _ _ (List.length_replicate ..) hs hm hi
  · intro i hi hn
    unfold expanded
    rw [fill_other _ _ _ (by rintro ⟨a, b⟩ hq rfl; exact hn b hq), List.getElem?_replicate, if_pos hi]

/-- Non-vacuity: the proof of event 3 in the demo; an unsorted list would lose entries. -/
example : expanded [(0, 1103), (2, 1303), (3, 1403)] 4 = [1103, 0, 1303, 1403] ∧
    expanded [(5, 9), (0, 1103)] 4 = [0, 0, 0, 0] := by constructor <;> decide

end Verif.Witness
