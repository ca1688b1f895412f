import Verif.Gossip.Model
import Verif.Witness.Inv

/-!
# Lemmas about the gossip model
-/

namespace Verif.Gossip

open Verif.Witness (Cfg Wit Chain keep note note_ok processUnverified processUnverified_ind tryMakeProof
  tryMakeProof_cases hasConsensus support insertIdx handleWitness noteMeta)
open Verif.Ethy (insertSorted mem_insertSorted)

/-! ## What handling one event does to another -/

/-- Stored witnesses are for the event they are stored under. -/
def UE (r : Witness.St) : Prop := ∀ x, ∀ w ∈ r.unv x, w.event = x

/-- Nothing known about event `e` changed. -/
structure Same (e : Nat) (r r' : Witness.St) : Prop where
  wit : r'.wit e = r.wit e
  unv : r'.unv e = r.unv e
  evMeta : r'.evMeta e = r.evMeta e
  thr : r'.thr = r.thr
  xthr : r'.xthr = r.xthr
  done : e ∈ r'.done → e ∈ r.done
  finalised : r'.finalised = r.finalised

theorem Same.refl (e : Nat) (r : Witness.St) : Same e r r := ⟨rfl, rfl, rfl, rfl, rfl, id, rfl⟩

theorem Same.trans {e : Nat} {a b d : Witness.St} (h : Same e a b) (k : Same e b d) : Same e a d :=
  ⟨k.1.trans h.1, k.2.trans h.2, k.3.trans h.3, k.4.trans h.4, k.5.trans h.5, h.6 ∘ k.6, k.7.trans h.7⟩

theorem note_UE {c : Cfg} {r r' : Witness.St} {w : Wit} (h : UE r) (hn : note c r w = .ok r') : UE r' := by
  obtain ⟨_, _, ⟨_, rfl⟩ | ⟨m, i, hm, _, _, _, rfl⟩⟩ := note_ok hn
  · intro x v hv
    dsimp only at hv
    by_cases he : x = w.event
    · subst he
      rw [upd_same] at hv
      rcases List.mem_append.mp hv with hv | hv
      · exact h _ v hv
      · rw [List.mem_singleton] at hv; rw [hv]
    · rw [upd_ne _ _ he] at hv; exact h x v hv
  · exact h

theorem note_same {c : Cfg} {r r' : Witness.St} {w : Wit} {e : Nat} (hn : note c r w = .ok r') (he : w.event ≠ e) :
    Same e r r' := by
  obtain ⟨_, _, ⟨_, rfl⟩ | ⟨m, i, hm, _, _, _, rfl⟩⟩ := note_ok hn
  · exact ⟨rfl, upd_ne _ _ (Ne.symm he), rfl, rfl, rfl, id, rfl⟩
  · exact ⟨upd_ne _ _ (Ne.symm he), rfl, rfl, rfl, rfl, id, rfl⟩

theorem clear_UE {r : Witness.St} (h : UE r) (e : Nat) : UE { r with unv := upd r.unv e [] } := by
  intro x v hv
  dsimp only at hv
  by_cases he : x = e
  · subst he; rw [upd_same] at hv; cases hv
  · rw [upd_ne _ _ he] at hv; exact h x v hv

theorem processUnverified_UE {c : Cfg} {r : Witness.St} (h : UE r) (e : Nat) : UE (processUnverified c r e) :=
  processUnverified_ind (clear_UE h e) (fun _ _ _ h _ hn => note_UE h hn)

theorem markComplete_UE {r : Witness.St} (h : UE r) (e : Nat) : UE (Witness.markComplete r e) := by
  have := clear_UE h e
  exact this

theorem tryMakeProof_UE {c : Cfg} {r : Witness.St} (h : UE r) (e : Nat) : UE (tryMakeProof c r e) := by
  have h1 := processUnverified_UE (c := c) h e
  rcases tryMakeProof_cases c r e with ⟨_, e1⟩ | ⟨m, hm, ⟨_, e1⟩ | ⟨hc, e1⟩⟩ <;> rw [e1]
  · exact h
  · exact h1
  · exact markComplete_UE (r := { processUnverified c r e with proofs := _ }) h1 e

theorem handleWitness_UE {c : Cfg} {r : Witness.St} (h : UE r) (w : Wit) : UE (handleWitness c r w) := by
  unfold handleWitness
  split
  · rename_i r1 hn; exact tryMakeProof_UE (note_UE h hn) _
  · exact h

theorem step_UE {c : Cfg} {r r' : Witness.St} {op : Witness.Op} (h : UE r) (hs : Witness.step c r op = .ok r') :
    UE r' := by
  cases op with
  | finalPassive e ch data =>
    simp only [Witness.step, bind_ok, ensure_ok, pure_ok] at hs
    obtain ⟨_, _, rfl⟩ := hs
    exact tryMakeProof_UE (r := noteMeta { r with finalised := e :: r.finalised } e ch data) h e
  | finalActive e ch data auth sig =>
    simp only [Witness.step, bind_ok, ensure_ok] at hs
    obtain ⟨_, _, hs⟩ := hs
    split at hs
    · cases hs; exact h
    · cases hs; exact handleWitness_UE (r := noteMeta { r with finalised := e :: r.finalised } e ch data) h _
  | gossip w =>
    simp only [Witness.step, Except.ok.injEq] at hs; subst hs; exact handleWitness_UE h w
  | setVals vals thr xvals xthr =>
    simp only [Witness.step, Except.ok.injEq] at hs; subst hs; exact h

theorem processUnverified_same {c : Cfg} {r : Witness.St} (h : UE r) {e x : Nat} (hx : x ≠ e) :
    Same e r (processUnverified c r x) := by
  refine processUnverified_ind (Q := Same e r) ⟨rfl, upd_ne _ _ (Ne.symm hx), rfl, rfl, rfl, id, rfl⟩ ?_
  intro t t' w ht hw hn
  exact ht.trans (note_same hn (by rw [h x w hw]; exact hx))

theorem tryMakeProof_same {c : Cfg} {r : Witness.St} (h : UE r) {e x : Nat} (hx : x ≠ e) :
    Same e r (tryMakeProof c r x) := by
  have h1 := processUnverified_same (c := c) h hx
  have hx' := Ne.symm hx
  rcases tryMakeProof_cases c r x with ⟨_, e1⟩ | ⟨m, hm, ⟨_, e1⟩ | ⟨hc, e1⟩⟩ <;> rw [e1]
  · exact Same.refl e r
  · exact h1
  · refine h1.trans ⟨upd_ne _ _ hx', upd_ne _ _ hx', upd_ne _ _ hx', rfl, rfl, ?_, rfl⟩
    intro hm
    rcases List.mem_cons.mp hm with hm | hm
    · exact absurd hm hx'
    · exact hm

theorem handleWitness_same {c : Cfg} {r : Witness.St} (h : UE r) {e : Nat} {w : Wit} (hw : w.event ≠ e) :
    Same e r (handleWitness c r w) := by
  unfold handleWitness
  split
  · rename_i r1 hn
    exact (note_same hn hw).trans (tryMakeProof_same (note_UE h hn) hw)
  · exact Same.refl e r

/-! ## An event with too few signatures -/

theorem support_length (vals xvals : List Nat) (ch : Chain) (l : List (Nat × Nat)) :
    (support vals xvals ch l).length ≤ l.length := by
  cases ch
  · exact Nat.le_refl _
  · exact List.length_filter_le _ _

theorem insertIdx_length (i sig : Nat) : ∀ l : List (Nat × Nat), (insertIdx i sig l).length ≤ l.length + 1
  | [] => Nat.le_refl _
  | (j, t) :: l => by
    have := insertIdx_length i sig l
    unfold insertIdx
    split
    · simp
    · split
      · simp
      · simp only [List.length_cons]; omega

theorem tryMakeProof_few {c : Cfg} {r : Witness.St} {e : Nat} (hu : r.unv e = []) (hw : (r.wit e).length ≤ 1)
    (ht : 2 ≤ r.thr ∧ 2 ≤ r.xthr) :
    tryMakeProof c r e = r ∨ tryMakeProof c r e = { r with unv := upd r.unv e [] } := by
  have hp : processUnverified c r e = { r with unv := upd r.unv e [] } := by
    unfold processUnverified; rw [hu]; rfl
  rcases tryMakeProof_cases c r e with ⟨_, e1⟩ | ⟨m, hm, ⟨_, e1⟩ | ⟨hc, e1⟩⟩
  · exact Or.inl e1
  · rw [e1, hp]; exact Or.inr rfl
  · exfalso
    rw [hp] at hc
    unfold hasConsensus at hc
    have h1 := support_length r.vals r.xvals m.1 (r.wit e)
    have h2 : 2 ≤ Witness.threshold r m.1 := by
      cases m.1
      · exact ht.1
      · exact ht.2
    have h3 : Witness.threshold r m.1 ≤ (support r.vals r.xvals m.1 (r.wit e)).length := hc
    omega

end Verif.Gossip
