import Verif.Witness.Lemmas

namespace Verif.Witness

open Ethy (insertSorted mem_insertSorted insertSorted_sorted)

/-! ## Completion -/

structure CI (s : St) : Prop where
  sorted : s.completed.Pairwise (· < ·)
  rej : ∀ e ∈ s.done, isCompleted s e
  sub : ∀ e ∈ s.completed, e ∈ s.done
  fresh : ∀ e, e ∉ s.finalised → s.evMeta e = none ∧ s.wit e = []
  unvEv : ∀ e, ∀ w ∈ s.unv e, w.event = e
  once : s.done.Nodup
  made : s.proofs.map Proof.event = s.done

theorem Frame.isCompleted {s s' : St} (h : Frame s s') (e : Nat) : isCompleted s' e ↔ isCompleted s e := by
  unfold Witness.isCompleted; rw [h.completed]

theorem note_CI {c : Cfg} {s s' : St} {w : Wit} (h : CI s) (hn : note c s w = .ok s') : CI s' := by
  obtain ⟨_, _, ⟨_, rfl⟩ | ⟨m, i, hm, _, _, _, rfl⟩⟩ := note_ok hn
  · refine ⟨h.sorted, h.rej, h.sub, h.fresh, ?_, h.once, h.made⟩
    intro e x hx
    dsimp only at hx
    by_cases he : e = w.event
    · subst he
      rw [upd_same] at hx
      rcases List.mem_append.mp hx with hx | hx
      · exact h.unvEv _ x hx
      · simp only [List.mem_singleton] at hx; rw [hx]
    · rw [upd_ne _ _ he] at hx; exact h.unvEv _ x hx
  · refine ⟨h.sorted, h.rej, h.sub, ?_, h.unvEv, h.once, h.made⟩
    intro e he
    obtain ⟨h1, h2⟩ := h.fresh e he
    refine ⟨h1, ?_⟩
    have : e ≠ w.event := by rintro rfl; rw [h1] at hm; cases hm
    dsimp only
    rw [upd_ne _ _ this]; exact h2

theorem clearUnv_CI {s : St} (h : CI s) (e : Nat) : CI { s with unv := upd s.unv e [] } := by
  refine ⟨h.sorted, h.rej, h.sub, h.fresh, ?_, h.once, h.made⟩
  intro x w hw
  dsimp only at hw
  by_cases he : x = e
  · subst he; rw [upd_same] at hw; cases hw
  · rw [upd_ne _ _ he] at hw; exact h.unvEv _ w hw

theorem processUnverified_CI {c : Cfg} {s : St} (h : CI s) (e : Nat) : CI (processUnverified c s e) :=
  processUnverified_ind (clearUnv_CI h e) (fun _ _ _ h _ hn => note_CI h hn)

theorem markComplete_CI {s : St} {e : Nat} {ps : List Proof} (h : CI s) (he : ¬ isCompleted s e)
    (hf : e ∈ s.finalised) (hps : ps.map Proof.event = e :: s.done) : CI (markComplete { s with proofs := ps } e) := by
  have hne : e ∉ s.completed := fun hm => he (Or.inl hm)
  have hc : (markComplete { s with proofs := ps } e).completed = compact (insertSorted e s.completed) := by
    unfold markComplete; dsimp only; rw [if_neg hne]
  refine ⟨?_, ?_, ?_, ?_, ?_, ?_, hps⟩
  · rw [hc]
    exact (insertSorted_sorted h.sorted).sublist (compact_suffix _).sublist
  · intro x hx
    unfold isCompleted
    rw [hc]
    refine complete_mono h.sorted ?_ he
    rcases List.mem_cons.mp hx with e' | hx
    · exact Or.inl e'
    · exact Or.inr (h.rej x hx)
  · intro x hx
    rw [hc] at hx
    rcases mem_insertSorted.mp ((compact_suffix _).subset hx) with e' | hx
    · subst e'; exact List.mem_cons_self
    · exact List.mem_cons_of_mem _ (h.sub x hx)
  · intro x hx
    have hxe : x ≠ e := by rintro rfl; exact hx hf
    obtain ⟨h1, h2⟩ := h.fresh x hx
    unfold markComplete
    dsimp only
    rw [upd_ne _ _ hxe, upd_ne _ _ hxe]
    exact ⟨h1, h2⟩
  · intro x w hw
    unfold markComplete at hw
    dsimp only at hw
    by_cases hxe : x = e
    · subst hxe; rw [upd_same] at hw; cases hw
    · rw [upd_ne _ _ hxe] at hw; exact h.unvEv x w hw
  · exact List.nodup_cons.mpr ⟨fun hm => he (h.rej e hm), h.once⟩

/-- The outcome of `tryMakeProof`. -/
theorem tryMakeProof_cases (c : Cfg) (s : St) (e : Nat) :
    (s.evMeta e = none ∧ tryMakeProof c s e = s) ∨
    (∃ m, s.evMeta e = some m ∧
      ((¬ hasConsensus (processUnverified c s e) e m.1 ∧ tryMakeProof c s e = processUnverified c s e) ∨
       (hasConsensus (processUnverified c s e) e m.1 ∧
        tryMakeProof c s e = markComplete { processUnverified c s e with
          proofs := ⟨e, m.1, m.2, (processUnverified c s e).vals, (processUnverified c s e).xvals,
            threshold (processUnverified c s e) m.1, (processUnverified c s e).wit e⟩ ::
            (processUnverified c s e).proofs } e))) := by
  unfold tryMakeProof
  split
  · rename_i h; exact Or.inl ⟨h, rfl⟩
  · rename_i m h
    refine Or.inr ⟨m, h, ?_⟩
    unfold makeProof
    split
    · rename_i hc; exact Or.inr ⟨hc, rfl⟩
    · rename_i hc; exact Or.inl ⟨hc, rfl⟩

/-- Witnesses for a completed event are not recorded when re-examined. -/
theorem processUnverified_rejected {c : Cfg} {s : St} (h : CI s) {e : Nat} (hc : isCompleted s e) :
    (processUnverified c s e).wit = s.wit := by
  have := processUnverified_ind (c := c) (s := s) (e := e) (Q := fun t => Frame s t ∧ t.wit = s.wit)
    ⟨⟨rfl, rfl, rfl, rfl, rfl, rfl, rfl, rfl, rfl⟩, rfl⟩ (by
      intro t t' w ⟨hf, _⟩ hw hn
      exfalso
      have := (note_ok hn).1
      rw [h.unvEv e w hw, hf.isCompleted] at this
      exact this hc)
  exact this.2

theorem support_nil {vals xvals : List Nat} (ch : Chain) : support vals xvals ch [] = [] := by
  cases ch <;> rfl

theorem tryMakeProof_CI {c : Cfg} {s : St} (h : CI s) (hp : 1 ≤ s.thr ∧ 1 ≤ s.xthr) {e : Nat}
    (hw : isCompleted s e → s.wit e = []) : CI (tryMakeProof c s e) := by
  have hf := processUnverified_frame (c := c) s e
  rcases tryMakeProof_cases c s e with ⟨_, e1⟩ | ⟨m, hm, ⟨_, e1⟩ | ⟨hc, e1⟩⟩ <;> rw [e1]
  · exact h
  · exact processUnverified_CI h e
  · refine markComplete_CI (processUnverified_CI h e) ?_ ?_ ?_
    · intro hcomp
      rw [hf.isCompleted] at hcomp
      have hw' := processUnverified_rejected (c := c) h hcomp
      unfold hasConsensus at hc
      rw [hw', hw hcomp, support_nil, List.length_nil] at hc
      have ht : 1 ≤ threshold (processUnverified c s e) m.1 := by
        unfold threshold
        split
        · rw [hf.thr]; exact hp.1
        · rw [hf.xthr]; exact hp.2
      omega
    · rw [hf.finalised]
      by_contra hn
      rw [(h.fresh e hn).1] at hm; cases hm
    · rw [List.map_cons, hf.proofs, hf.done, h.made]

theorem handleWitness_CI {c : Cfg} {s : St} (h : CI s) (hp : 1 ≤ s.thr ∧ 1 ≤ s.xthr) (w : Wit) :
    CI (handleWitness c s w) := by
  unfold handleWitness
  split
  · rename_i s1 hn
    have hf := note_frame hn
    refine tryMakeProof_CI (note_CI h hn) (by rw [hf.thr, hf.xthr]; exact hp) ?_
    intro hc
    rw [hf.isCompleted] at hc
    exact absurd hc (note_ok hn).1
  · exact h

theorem noteMeta_CI {s : St} (h : CI s) (e : Nat) (ch : Chain) (data : Nat) :
    CI (noteMeta { s with finalised := e :: s.finalised } e ch data) := by
  refine ⟨h.sorted, h.rej, h.sub, ?_, h.unvEv, h.once, h.made⟩
  intro x hx
  have hxe : x ≠ e := by rintro rfl; exact hx List.mem_cons_self
  obtain ⟨h1, h2⟩ := h.fresh x (fun hm => hx (List.mem_cons_of_mem _ hm))
  unfold noteMeta
  dsimp only
  rw [upd_ne _ _ hxe]
  exact ⟨h1, h2⟩

theorem tryMakeProof_thr {c : Cfg} (s : St) (e : Nat) :
    (tryMakeProof c s e).thr = s.thr ∧ (tryMakeProof c s e).xthr = s.xthr ∧
    (tryMakeProof c s e).vals = s.vals ∧ (tryMakeProof c s e).xvals = s.xvals := by
  have hf := processUnverified_frame (c := c) s e
  rcases tryMakeProof_cases c s e with ⟨_, e1⟩ | ⟨m, hm, ⟨_, e1⟩ | ⟨hc, e1⟩⟩ <;> rw [e1]
  · exact ⟨rfl, rfl, rfl, rfl⟩
  · exact ⟨hf.thr, hf.xthr, hf.vals, hf.xvals⟩
  · exact ⟨hf.thr, hf.xthr, hf.vals, hf.xvals⟩

theorem handleWitness_thr {c : Cfg} (s : St) (w : Wit) :
    (handleWitness c s w).thr = s.thr ∧ (handleWitness c s w).xthr = s.xthr ∧
    (handleWitness c s w).vals = s.vals ∧ (handleWitness c s w).xvals = s.xvals := by
  unfold handleWitness
  split
  · rename_i s1 hn
    have hf := note_frame hn
    obtain ⟨h1, h2, h3, h4⟩ := tryMakeProof_thr (c := c) s1 w.event
    exact ⟨h1.trans hf.thr, h2.trans hf.xthr, h3.trans hf.vals, h4.trans hf.xvals⟩
  · exact ⟨rfl, rfl, rfl, rfl⟩

/-- Validator sets with a positive threshold. -/
def PosOp : Op → Prop
  | .setVals _ thr _ xthr => 1 ≤ thr ∧ 1 ≤ xthr
  | _ => True

def PosSt (s : St) : Prop := 1 ≤ s.thr ∧ 1 ≤ s.xthr

theorem step_CI {c : Cfg} {s s' : St} {op : Op} (h : CI s) (hp : PosSt s) (ho : PosOp op)
    (hs : step c s op = .ok s') : CI s' ∧ PosSt s' := by
  cases op with
  | finalPassive e ch data =>
    simp only [step, bind_ok, ensure_ok, pure_ok] at hs
    obtain ⟨_, hn, rfl⟩ := hs
    obtain ⟨h1, h2, _, _⟩ := tryMakeProof_thr (c := c) (noteMeta { s with finalised := e :: s.finalised } e ch data) e
    refine ⟨tryMakeProof_CI (noteMeta_CI h e ch data) hp ?_, ?_⟩
    · intro _; exact (h.fresh e hn).2
    · unfold PosSt; rw [h1, h2]; exact hp
  | finalActive e ch data auth sig =>
    simp only [step, bind_ok, ensure_ok] at hs
    obtain ⟨_, hn, hs⟩ := hs
    split at hs
    · simp only [pure_ok] at hs
      subst hs
      refine ⟨⟨h.sorted, h.rej, h.sub, ?_, h.unvEv, h.once, h.made⟩, hp⟩
      intro x hx
      exact h.fresh x (fun hm => hx (List.mem_cons_of_mem _ hm))
    · rename_i d hd
      simp only [pure_ok] at hs
      subst hs
      obtain ⟨h1, h2, _, _⟩ := handleWitness_thr (c := c)
        (noteMeta { s with finalised := e :: s.finalised } e ch data) ⟨e, auth, d, sig⟩
      refine ⟨handleWitness_CI (noteMeta_CI h e ch data) hp _, ?_⟩
      unfold PosSt; rw [h1, h2]; exact hp
  | gossip w =>
    cases hs
    obtain ⟨h1, h2, _, _⟩ := handleWitness_thr (c := c) s w
    exact ⟨handleWitness_CI h hp w, by unfold PosSt; rw [h1, h2]; exact hp⟩
  | setVals vals thr xvals xthr =>
    cases hs
    exact ⟨⟨h.sorted, h.rej, h.sub, h.fresh, h.unvEv, h.once, h.made⟩, ho⟩

theorem reach_CI {c : Cfg} {s : St} (h : ReachP c PosOp PosSt s) : CI s ∧ PosSt s := by
  induction h with
  | init g hp =>
    refine ⟨⟨?_, ?_, ?_, fun e _ => ⟨g.evMeta e, g.wit e⟩, ?_, ?_, ?_⟩, hp⟩
    · rw [g.completed]; simp
    · rw [g.done]; simp
    · rw [g.completed]; simp
    · intro e w hw; rw [g.unv] at hw; cases hw
    · rw [g.done]; simp
    · rw [g.proofs, g.done]; rfl
  | step _ ho hs ih => exact step_CI ih.1 ih.2 ho hs

/-! ## Signatures -/

/-- A signature recorded under index `p.1` for message `m`: made by an authority allowed at that index. -/
def Signed (c : Cfg) (A : Nat → Nat → Prop) (m : Chain × Nat) (p : Nat × Nat) : Prop :=
  ∃ a d, c.digestOf m.1 m.2 a = some d ∧ c.verify a p.2 d = true ∧ A p.1 a

structure SI (c : Cfg) (A : Nat → Nat → Prop) (s : St) : Prop where
  sorted : ∀ e, (s.wit e).Pairwise (fun p q => p.1 < q.1)
  ver : ∀ e, ∀ p ∈ s.wit e, ∃ m, s.evMeta e = some m ∧ Signed c A m p
  proofs : ∀ p ∈ s.proofs, p.sigs.Pairwise (fun p q => p.1 < q.1) ∧
    p.need ≤ (support p.vals p.xvals p.chain p.sigs).length ∧
    ∀ q ∈ p.sigs, Signed c A (p.chain, p.data) q

theorem mem_insertIdx {i sig : Nat} {p : Nat × Nat} : ∀ {l : List (Nat × Nat)}, p ∈ insertIdx i sig l →
    p = (i, sig) ∨ p ∈ l
  | [], h => by simp [insertIdx] at h; exact Or.inl h
  | (j, t) :: l, h => by
    unfold insertIdx at h
    split at h
    · rcases List.mem_cons.mp h with h | h
      · exact Or.inl h
      · exact Or.inr h
    · split at h
      · exact Or.inr h
      · rcases List.mem_cons.mp h with h | h
        · exact Or.inr (h ▸ List.mem_cons_self)
        · rcases mem_insertIdx h with h | h
          · exact Or.inl h
          · exact Or.inr (List.mem_cons_of_mem _ h)

theorem insertIdx_sorted {i sig : Nat} : ∀ {l : List (Nat × Nat)}, l.Pairwise (fun p q => p.1 < q.1) →
    (insertIdx i sig l).Pairwise (fun p q => p.1 < q.1)
  | [], _ => by simp [insertIdx]
  | (j, t) :: l, hs => by
    obtain ⟨hlt, hs'⟩ := List.pairwise_cons.mp hs
    unfold insertIdx
    split
    · rename_i h
      refine List.pairwise_cons.mpr ⟨?_, hs⟩
      intro x hx
      rcases List.mem_cons.mp hx with e | hx
      · subst e; exact h
      · have := hlt x hx; simp only at this ⊢; omega
    · split
      · exact hs
      · refine List.pairwise_cons.mpr ⟨?_, insertIdx_sorted hs'⟩
        intro x hx
        rcases mem_insertIdx hx with e | hx
        · subst e; simp only; omega
        · exact hlt x hx

/-- The authorities the current set knows are allowed. -/
def Allows (A : Nat → Nat → Prop) (s : St) : Prop := ∀ a i, authIndex s.vals a = some i → A i a

theorem note_SI {c : Cfg} {A : Nat → Nat → Prop} {s s' : St} {w : Wit} (h : SI c A s) (hA : Allows A s)
    (hn : note c s w = .ok s') : SI c A s' := by
  obtain ⟨_, _, ⟨_, rfl⟩ | ⟨m, i, hm, hd, hv, hi, rfl⟩⟩ := note_ok hn
  · exact ⟨h.sorted, h.ver, h.proofs⟩
  · refine ⟨?_, ?_, h.proofs⟩
    · intro e
      dsimp only
      by_cases he : e = w.event
      · subst he; rw [upd_same]; exact insertIdx_sorted (h.sorted _)
      · rw [upd_ne _ _ he]; exact h.sorted e
    · intro e p hp
      dsimp only at hp ⊢
      by_cases he : e = w.event
      · subst he
        rw [upd_same] at hp
        rcases mem_insertIdx hp with rfl | hp
        · exact ⟨m, hm, w.auth, w.digest, hd, hv, hA _ _ hi⟩
        · exact h.ver _ p hp
      · rw [upd_ne _ _ he] at hp; exact h.ver e p hp

theorem processUnverified_SI {c : Cfg} {A : Nat → Nat → Prop} {s : St} (h : SI c A s) (hA : Allows A s) (e : Nat) :
    SI c A (processUnverified c s e) := by
  have := processUnverified_ind (c := c) (s := s) (e := e) (Q := fun t => SI c A t ∧ t.vals = s.vals)
    ⟨⟨h.sorted, h.ver, h.proofs⟩, rfl⟩ (by
      intro t t' w ⟨h1, h2⟩ _ hn
      refine ⟨note_SI h1 (by unfold Allows; rw [h2]; exact hA) hn, ?_⟩
      rw [(note_frame hn).vals, h2])
  exact this.1

theorem tryMakeProof_SI {c : Cfg} {A : Nat → Nat → Prop} {s : St} (h : SI c A s) (hA : Allows A s) (e : Nat) :
    SI c A (tryMakeProof c s e) := by
  have hf := processUnverified_frame (c := c) s e
  have h1 := processUnverified_SI h hA e
  rcases tryMakeProof_cases c s e with ⟨_, e1⟩ | ⟨m, hm, ⟨_, e1⟩ | ⟨hc, e1⟩⟩ <;> rw [e1]
  · exact h
  · exact h1
  · refine ⟨?_, ?_, ?_⟩
    · intro x
      unfold markComplete
      dsimp only
      by_cases hx : x = e
      · subst hx; rw [upd_same]; simp
      · rw [upd_ne _ _ hx]; exact h1.sorted x
    · intro x p hp
      unfold markComplete at hp ⊢
      dsimp only at hp ⊢
      by_cases hx : x = e
      · subst hx; rw [upd_same] at hp; cases hp
      · rw [upd_ne _ _ hx] at hp ⊢; exact h1.ver x p hp
    · intro p hp
      unfold markComplete at hp
      dsimp only at hp
      rcases List.mem_cons.mp hp with rfl | hp
      · refine ⟨h1.sorted e, hc, ?_⟩
        intro q hq
        obtain ⟨m', hm', hs⟩ := h1.ver e q hq
        rw [hf.evMeta, hm] at hm'
        cases hm'
        exact hs
      · exact h1.proofs p hp

theorem handleWitness_SI {c : Cfg} {A : Nat → Nat → Prop} {s : St} (h : SI c A s) (hA : Allows A s) (w : Wit) :
    SI c A (handleWitness c s w) := by
  unfold handleWitness
  split
  · rename_i s1 hn
    exact tryMakeProof_SI (note_SI h hA hn) (by unfold Allows; rw [(note_frame hn).vals]; exact hA) _
  · exact h

theorem noteMeta_SI {c : Cfg} {A : Nat → Nat → Prop} {s : St} (h : SI c A s) (e : Nat) (ch : Chain) (data : Nat)
    (f : List Nat) : SI c A (noteMeta { s with finalised := f } e ch data) := by
  refine ⟨h.sorted, ?_, h.proofs⟩
  intro x p hp
  obtain ⟨m, hm, hs⟩ := h.ver x p hp
  refine ⟨m, ?_, hs⟩
  unfold noteMeta
  dsimp only
  by_cases hx : x = e
  · subst hx; rw [upd_same, hm]; rfl
  · rw [upd_ne _ _ hx]; exact hm

theorem step_SI {c : Cfg} {A : Nat → Nat → Prop} {s s' : St} {op : Op} (h : SI c A s) (hA : Allows A s)
    (hs : step c s op = .ok s') : SI c A s' := by
  cases op with
  | finalPassive e ch data =>
    simp only [step, bind_ok, ensure_ok, pure_ok] at hs
    obtain ⟨_, hn, rfl⟩ := hs
    exact tryMakeProof_SI (noteMeta_SI h e ch data _) hA e
  | finalActive e ch data auth sig =>
    simp only [step, bind_ok, ensure_ok] at hs
    obtain ⟨_, hn, hs⟩ := hs
    split at hs
    · simp only [pure_ok] at hs
      subst hs
      exact ⟨h.sorted, h.ver, h.proofs⟩
    · simp only [pure_ok] at hs
      subst hs
      exact handleWitness_SI (noteMeta_SI h e ch data _) hA _
  | gossip w => cases hs; exact handleWitness_SI h hA w
  | setVals vals thr xvals xthr => cases hs; exact ⟨h.sorted, h.ver, h.proofs⟩

theorem genesis_SI {c : Cfg} {A : Nat → Nat → Prop} {s : St} (g : Genesis s) : SI c A s := by
  refine ⟨?_, ?_, ?_⟩
  · intro e; rw [g.wit]; simp
  · intro e p hp; rw [g.wit] at hp; cases hp
  · rw [g.proofs]; simp

theorem reach_SI {c : Cfg} {P : Op → Prop} {G : St → Prop} {s : St} (h : ReachP c P G s) :
    SI c (fun _ _ => True) s := by
  induction h with
  | init g _ => exact genesis_SI g
  | step _ _ hs ih => exact step_SI ih (fun _ _ _ => trivial) hs

end Verif.Witness
