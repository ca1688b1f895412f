import Verif.Witness.Model
import Verif.Ethy.Lemmas

namespace Verif.Witness

open Ethy (insertSorted mem_insertSorted insertSorted_sorted)

/-! ## Compaction -/

theorem compact_suffix : ∀ l : List Nat, compact l <:+ l
  | [] => List.suffix_refl _
  | [_] => List.suffix_refl _
  | [_, _] => List.suffix_refl _
  | x :: y :: z :: r => by
    unfold compact
    split
    · exact (compact_suffix (y :: z :: r)).trans (List.suffix_cons _ _)
    · exact List.suffix_refl _

theorem compact_length : ∀ l : List Nat, 2 ≤ l.length → 2 ≤ (compact l).length
  | [], h => h
  | [_], h => h
  | [_, _], h => h
  | x :: y :: z :: r, _ => by
    unfold compact
    split
    · exact compact_length (y :: z :: r) (by simp)
    · simp

/-- Length one is not touched. -/
theorem compact_short {l : List Nat} (h : l.length ≤ 2) : compact l = l := by
  match l, h with
  | [], _ => rfl
  | [_], _ => rfl
  | [_, _], _ => rfl

theorem insertSorted_length {x : Nat} : ∀ {l : List Nat}, x ∉ l → (insertSorted x l).length = l.length + 1
  | [], _ => rfl
  | y :: ys, h => by
    unfold insertSorted
    simp only [List.mem_cons, not_or] at h
    split
    · simp
    · rw [if_neg h.1, List.length_cons, insertSorted_length h.2, List.length_cons]

/-- What counts as completed still does after another completion, and so does the new event. -/
theorem complete_mono {l : List Nat} (hs : l.Pairwise (· < ·)) {e x : Nat}
    (hx : x = e ∨ x ∈ l ∨ (1 < l.length ∧ x ≤ l.headD 0))
    (he : ¬ (e ∈ l ∨ (1 < l.length ∧ e ≤ l.headD 0))) :
    x ∈ compact (insertSorted e l) ∨
      (1 < (compact (insertSorted e l)).length ∧ x ≤ (compact (insertSorted e l)).headD 0) := by
  simp only [not_or, not_and, not_le] at he
  have hs' := insertSorted_sorted (x := e) hs
  have hlen := insertSorted_length he.1
  have hsuf := compact_suffix (insertSorted e l)
  have hmem : x ∈ insertSorted e l →  x ∈ compact (insertSorted e l) ∨
      (1 < (compact (insertSorted e l)).length ∧ x ≤ (compact (insertSorted e l)).headD 0) := by
    intro hm
    by_cases h2 : 2 ≤ (insertSorted e l).length
    · have h3 := compact_length _ h2
      have hne : compact (insertSorted e l) ≠ [] := by intro e'; rw [e'] at h3; simp at h3
      rcases Ethy.suffix_split hsuf hs' hne hm with h | h
      · exact Or.inl h
      · exact Or.inr ⟨h3, le_of_lt h⟩
    · rw [compact_short (by omega)]; exact Or.inl hm
  rcases hx with rfl | hx | ⟨h1, h2⟩
  · exact hmem (mem_insertSorted.mpr (Or.inl rfl))
  · exact hmem (mem_insertSorted.mpr (Or.inr hx))
  · right
    have h3 : 2 ≤ (insertSorted e l).length := by omega
    have h4 := compact_length _ h3
    have hne : compact (insertSorted e l) ≠ [] := by intro e'; rw [e'] at h4; simp at h4
    refine ⟨h4, ?_⟩
    have hl : l ≠ [] := by intro e'; rw [e'] at h1; simp at h1
    have h5 := Ethy.suffix_head hsuf hs' hne
    rw [Ethy.insertSorted_head hl (le_of_lt (he.2 h1))] at h5
    omega

/-! ## Frames -/

/-- What noting a witness leaves alone. -/
structure Frame (s s' : St) : Prop where
  evMeta : s'.evMeta = s.evMeta
  vals : s'.vals = s.vals
  thr : s'.thr = s.thr
  xvals : s'.xvals = s.xvals
  xthr : s'.xthr = s.xthr
  completed : s'.completed = s.completed
  done : s'.done = s.done
  proofs : s'.proofs = s.proofs
  finalised : s'.finalised = s.finalised

theorem Frame.refl (s : St) : Frame s s := ⟨rfl, rfl, rfl, rfl, rfl, rfl, rfl, rfl, rfl⟩

theorem Frame.trans {a b d : St} (h : Frame a b) (k : Frame b d) : Frame a d :=
  ⟨k.1.trans h.1, k.2.trans h.2, k.3.trans h.3, k.4.trans h.4, k.5.trans h.5, k.6.trans h.6, k.7.trans h.7,
   k.8.trans h.8, k.9.trans h.9⟩

theorem note_ok {c : Cfg} {s s' : St} {w : Wit} (h : note c s w = .ok s') :
    ¬ isCompleted s w.event ∧ w.auth ∉ s.seen w.event ∧
    ((s.evMeta w.event = none ∧ s' = { s with unv := upd s.unv w.event (s.unv w.event ++ [w]) }) ∨
     (∃ m i, s.evMeta w.event = some m ∧ c.digestOf m.1 m.2 w.auth = some w.digest ∧
       c.verify w.auth w.sig w.digest = true ∧ authIndex s.vals w.auth = some i ∧
       s' = { s with wit := upd s.wit w.event (insertIdx i w.sig (s.wit w.event)),
                     seen := upd s.seen w.event (insertSorted w.auth (s.seen w.event)) })) := by
  simp only [note, bind_ok, ensure_ok] at h
  obtain ⟨_, h1, _, h2, h⟩ := h
  refine ⟨h1, h2, ?_⟩
  split at h
  · rename_i m hm
    simp only [bind_ok, okOr_ok, ensure_ok, record, pure_ok] at h
    obtain ⟨d, hd, _, e, _, hv, i, hi, rfl⟩ := h
    subst e
    exact Or.inr ⟨m, i, hm, hd, hv, hi, rfl⟩
  · rename_i hm
    cases h
    exact Or.inl ⟨hm, rfl⟩

theorem note_frame {c : Cfg} {s s' : St} {w : Wit} (h : note c s w = .ok s') : Frame s s' := by
  obtain ⟨_, _, ⟨_, rfl⟩ | ⟨m, i, _, _, _, _, rfl⟩⟩ := note_ok h
  · exact ⟨rfl, rfl, rfl, rfl, rfl, rfl, rfl, rfl, rfl⟩
  · exact ⟨rfl, rfl, rfl, rfl, rfl, rfl, rfl, rfl, rfl⟩

theorem keep_frame {c : Cfg} (s : St) (w : Wit) : Frame s (keep s (note c s w)) := by
  unfold keep
  split
  · rename_i s1 h; exact note_frame h
  · exact .refl s

/-- Induction over the re-examination of unverified witnesses. -/
theorem processUnverified_ind {c : Cfg} {s : St} {e : Nat} {Q : St → Prop}
    (h0 : Q { s with unv := upd s.unv e [] })
    (hs : ∀ t t' w, Q t → w ∈ s.unv e → note c t w = .ok t' → Q t') : Q (processUnverified c s e) := by
  unfold processUnverified
  have : ∀ (l : List Wit) (t : St), (∀ w ∈ l, w ∈ s.unv e) → Q t →
      Q (l.foldl (fun t w => keep t (note c t w)) t) := by
    intro l
    induction l with
    | nil => intro t _ h; exact h
    | cons w l ih =>
      intro t hl h
      rw [List.foldl_cons]
      refine ih _ (fun x hx => hl x (List.mem_cons_of_mem _ hx)) ?_
      unfold keep
      split
      · rename_i t' hn; exact hs t t' w h (hl w List.mem_cons_self) hn
      · exact h
  exact this _ _ (fun _ h => h) h0

theorem processUnverified_frame {c : Cfg} (s : St) (e : Nat) : Frame s (processUnverified c s e) :=
  processUnverified_ind (Q := Frame s) ⟨rfl, rfl, rfl, rfl, rfl, rfl, rfl, rfl, rfl⟩
    (fun _ _ _ h _ hn => h.trans (note_frame hn))

end Verif.Witness
