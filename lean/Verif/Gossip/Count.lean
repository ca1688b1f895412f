import Verif.Gossip.Inv

/-!
# A genuine vote that reaches the record is counted
-/

namespace Verif.Gossip

open Verif.Witness (Cfg Wit Chain note note_ok note_frame tryMakeProof tryMakeProof_cases handleWitness noteMeta
  insertIdx processUnverified processUnverified_frame authIndex isCompleted keep)
open Verif.Ethy (insertSorted mem_insertSorted)

/-- Validator number `i` has a signature on record for event `e`. -/
def Has (r : Witness.St) (e i : Nat) : Prop := ∃ sig, (i, sig) ∈ r.wit e

/-- The vote of validator number `i` for `e` is on record, or the proof of `e` was made. -/
def Counted (r : Witness.St) (e i : Nat) : Prop := Has r e i ∨ e ∈ r.done

/-- The witness is what its author should sign for the request `(ch, data)`. -/
structure Genuine (c : Cfg) (w : Wit) (ch : Chain) (data : Nat) : Prop where
  digest : c.digestOf ch data w.auth = some w.digest
  sig : c.verify w.auth w.sig w.digest = true

theorem insertIdx_has (i sig : Nat) : ∀ l : List (Nat × Nat), ∃ g, (i, g) ∈ insertIdx i sig l
  | [] => ⟨sig, List.mem_cons_self⟩
  | (j, t) :: l => by
    obtain ⟨g, hg⟩ := insertIdx_has i sig l
    unfold insertIdx
    split
    · exact ⟨sig, List.mem_cons_self⟩
    · split
      · rename_i h; subst h; exact ⟨t, List.mem_cons_self⟩
      · exact ⟨g, List.mem_cons_of_mem _ hg⟩

theorem insertIdx_mono {i sig : Nat} {p : Nat × Nat} : ∀ {l : List (Nat × Nat)}, p ∈ l → p ∈ insertIdx i sig l
  | (j, t) :: l, h => by
    unfold insertIdx
    split
    · exact List.mem_cons_of_mem _ h
    · split
      · exact h
      · rcases List.mem_cons.mp h with h | h
        · rw [h]; exact List.mem_cons_self
        · exact List.mem_cons_of_mem _ (insertIdx_mono h)

theorem note_has {c : Cfg} {r r' : Witness.St} {w : Wit} (hn : note c r w = .ok r') {e i : Nat} (h : Has r e i) :
    Has r' e i := by
  obtain ⟨g, hg⟩ := h
  obtain ⟨_, _, ⟨_, rfl⟩ | ⟨m, j, hm, _, _, _, rfl⟩⟩ := note_ok hn
  · exact ⟨g, hg⟩
  · refine ⟨g, ?_⟩
    show _ ∈ upd r.wit w.event _ e
    by_cases he : e = w.event
    · subst he; rw [upd_same]; exact insertIdx_mono hg
    · rw [upd_ne _ _ he]; exact hg

/-- Noting a genuine witness records it. -/
theorem note_genuine {c : Cfg} {r : Witness.St} {w : Wit} {m : Chain × Nat} {i : Nat} (hm : r.evMeta w.event = some m)
    (hg : Genuine c w m.1 m.2) (hi : authIndex r.vals w.auth = some i) (hc : ¬ isCompleted r w.event)
    (hs : w.auth ∉ r.seen w.event) : ∃ r', note c r w = .ok r' ∧ Has r' w.event i := by
  refine ⟨{ r with
    wit := upd r.wit w.event (insertIdx i w.sig (r.wit w.event))
    seen := upd r.seen w.event (insertSorted w.auth (r.seen w.event)) }, ?_, ?_⟩
  · simp only [note, bind_ok, ensure_ok]
    refine ⟨(), hc, (), hs, ?_⟩
    rw [hm]
    simp only [bind_ok, okOr_ok, ensure_ok, Witness.record, pure_ok]
    exact ⟨_, hg.digest, (), rfl, (), hg.sig, i, hi, rfl⟩
  · obtain ⟨g, h⟩ := insertIdx_has i w.sig (r.wit w.event)
    exact ⟨g, by show _ ∈ upd r.wit w.event _ w.event; rw [upd_same]; exact h⟩

theorem processUnverified_has {c : Cfg} {r : Witness.St} {e x i : Nat} (h : Has r e i) :
    Has (processUnverified c r x) e i :=
  Witness.processUnverified_ind (Q := fun t => Has t e i) h (fun _ _ _ ht _ hn => note_has hn ht)

theorem tryMakeProof_counted {c : Cfg} {r : Witness.St} {e i : Nat} (h : Has r e i) :
    Counted (tryMakeProof c r e) e i := by
  rcases tryMakeProof_cases c r e with ⟨_, e1⟩ | ⟨m, hm, ⟨_, e1⟩ | ⟨hc, e1⟩⟩ <;> rw [e1]
  · exact Or.inl h
  · exact Or.inl (processUnverified_has h)
  · exact Or.inr List.mem_cons_self

theorem handleWitness_counted {c : Cfg} {r : Witness.St} {w : Wit} {m : Chain × Nat} {i : Nat}
    (hm : r.evMeta w.event = some m) (hg : Genuine c w m.1 m.2) (hi : authIndex r.vals w.auth = some i)
    (hc : ¬ isCompleted r w.event) (hs : w.auth ∉ r.seen w.event) :
    Counted (handleWitness c r w) w.event i := by
  obtain ⟨r', hn, hh⟩ := note_genuine hm hg hi hc hs
  unfold handleWitness
  rw [hn]
  exact tryMakeProof_counted hh

/-- Going through stored witnesses records each genuine one. -/
theorem fold_counted {c : Cfg} {w : Wit} {m : Chain × Nat} {i : Nat} (hg : Genuine c w m.1 m.2) :
    ∀ (l : List Wit) (t : Witness.St), (∀ v ∈ l, v.event = w.event) → t.evMeta w.event = some m →
    authIndex t.vals w.auth = some i → ¬ isCompleted t w.event →
    (w.auth ∈ t.seen w.event → Has t w.event i) → w ∈ l ∨ Has t w.event i →
    Has (l.foldl (fun t w => keep t (note c t w)) t) w.event i
  | [], t, _, _, _, _, _, h => by
    rcases h with h | h
    · cases h
    · exact h
  | v :: l, t, hev, hm, hi, hc, hs, h => by
    rw [List.foldl_cons]
    have hev' := fun x hx => hev x (List.mem_cons_of_mem v hx)
    have hve := hev v List.mem_cons_self
    -- one step
    have key : (w.auth ∈ (keep t (note c t v)).seen w.event → Has (keep t (note c t v)) w.event i) ∧
        (v = w ∨ Has t w.event i → Has (keep t (note c t v)) w.event i) := by
      cases hn : note c t v with
      | ok t' =>
        show (w.auth ∈ t'.seen w.event → Has t' w.event i) ∧ (_ → Has t' w.event i)
        have hrec : v.auth = w.auth → Has t' w.event i := by
          intro ha
          obtain ⟨_, _, ⟨hm', _⟩ | ⟨m', j, hm', _, _, hj, rfl⟩⟩ := note_ok hn
          · rw [hve, hm] at hm'; cases hm'
          · rw [ha, hi] at hj
            cases hj
            obtain ⟨g, hgg⟩ := insertIdx_has i v.sig (t.wit v.event)
            refine ⟨g, ?_⟩
            show _ ∈ upd t.wit v.event _ w.event
            rw [hve, upd_same, ← hve]
            exact hgg
        refine ⟨?_, ?_⟩
        · intro hseen
          by_cases ha : v.auth = w.auth
          · exact hrec ha
          · obtain ⟨_, _, ⟨_, rfl⟩ | ⟨m', j, hm', _, _, hj, rfl⟩⟩ := note_ok hn
            · exact note_has hn (hs hseen)
            · change w.auth ∈ upd t.seen v.event _ w.event at hseen
              rw [hve, upd_same] at hseen
              rcases mem_insertSorted.mp hseen with h1 | h1
              · exact absurd h1.symm ha
              · exact note_has hn (hs h1)
        · rintro (rfl | hh)
          · exact hrec rfl
          · exact note_has hn hh
      | error err =>
        show (w.auth ∈ t.seen w.event → Has t w.event i) ∧ (_ → Has t w.event i)
        refine ⟨hs, ?_⟩
        rintro (rfl | hh)
        · by_cases hsn : v.auth ∈ t.seen v.event
          · exact hs hsn
          · obtain ⟨r', hn', _⟩ := note_genuine hm hg hi hc hsn
            rw [hn] at hn'; cases hn'
        · exact hh
    have hfr := Witness.keep_frame (c := c) t v
    refine fold_counted hg l _ hev' ?_ ?_ ?_ key.1 ?_
    · rw [hfr.evMeta]; exact hm
    · rw [hfr.vals]; exact hi
    · rw [hfr.isCompleted]; exact hc
    · rcases h with h | h
      · rcases List.mem_cons.mp h with h | h
        · exact Or.inr (key.2 (Or.inl h.symm))
        · exact Or.inl h
      · exact Or.inr (key.2 (Or.inr h))

theorem tryMakeProof_stored {c : Cfg} {r : Witness.St} (hue : UE r) {w : Wit} {m : Chain × Nat} {i : Nat}
    (hm : r.evMeta w.event = some m) (hg : Genuine c w m.1 m.2) (hi : authIndex r.vals w.auth = some i)
    (hc : ¬ isCompleted r w.event) (hs : w.auth ∉ r.seen w.event) (hw : w ∈ r.unv w.event) :
    Counted (tryMakeProof c r w.event) w.event i := by
  have h : Has (processUnverified c r w.event) w.event i := by
    unfold processUnverified
    exact fold_counted hg _ { r with unv := upd r.unv w.event [] } (fun v hv => hue _ v hv) hm hi hc
      (fun h => absurd h hs) (Or.inl hw)
  rcases tryMakeProof_cases c r w.event with ⟨e0, e1⟩ | ⟨m', hm', ⟨_, e1⟩ | ⟨hc', e1⟩⟩
  · rw [hm] at e0; cases e0
  · rw [e1]; exact Or.inl h
  · rw [e1]; exact Or.inr List.mem_cons_self

theorem reach_UE {c : Cfg} {s : St} (h : Reach c s) : UE s.rcd := by
  induction h with
  | init g => intro x w hw; rw [g.rcd.unv] at hw; cases hw
  | @step s s' op _ hs ih =>
    cases op with
    | recv m =>
      simp only [Gossip.step, Except.ok.injEq] at hs
      subst hs
      rw [(receive_frame c s m).1]; exact ih
    | work =>
      unfold Gossip.step at hs
      cases hi : s.inbox with
      | nil => rw [hi] at hs; cases hs; exact ih
      | cons m l =>
        rw [hi] at hs
        simp only [Except.ok.injEq] at hs
        subst hs
        rw [worked_rcd]; exact handleWitness_UE ih _
    | passive x ch data =>
      simp only [Gossip.step, bind_ok, pure_ok] at hs
      obtain ⟨r, hr, rfl⟩ := hs
      rw [worked_rcd]; exact step_UE ih hr
    | sign x ch data auth sig =>
      simp only [Gossip.step, bind_ok, pure_ok] at hs
      obtain ⟨r, hr, rfl⟩ := hs
      rw [worked_rcd]; exact step_UE ih hr
    | setVals vals thr xvals xthr =>
      simp only [Gossip.step, bind_ok, pure_ok] at hs
      obtain ⟨r, hr, rfl⟩ := hs
      exact step_UE ih hr
    | finalize n =>
      simp only [Gossip.step, Except.ok.injEq] at hs
      subst hs; exact ih

end Verif.Gossip
