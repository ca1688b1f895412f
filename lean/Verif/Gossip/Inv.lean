import Verif.Gossip.Block

/-!
# Invariants of the gossip model
-/

namespace Verif.Gossip

open Verif.Witness (Cfg Wit Chain note note_ok note_frame tryMakeProof tryMakeProof_cases handleWitness noteMeta
  insertIdx processUnverified processUnverified_frame)
open Verif.Ethy (insertSorted mem_insertSorted insertSorted_sorted)

/-- What the record's handling of event `e` did to the list of completed events. -/
def DoneBy (e : Nat) (r r' : Witness.St) : Prop := r'.done = r.done ∨ r'.done = e :: r.done

theorem tryMakeProof_done {c : Cfg} (r : Witness.St) (e : Nat) : DoneBy e r (tryMakeProof c r e) := by
  have hf := processUnverified_frame (c := c) r e
  rcases tryMakeProof_cases c r e with ⟨_, e1⟩ | ⟨m, hm, ⟨_, e1⟩ | ⟨hc, e1⟩⟩ <;> rw [e1]
  · exact Or.inl rfl
  · exact Or.inl hf.done
  · right
    show e :: (processUnverified c r e).done = _
    rw [hf.done]

theorem handleWitness_done {c : Cfg} (r : Witness.St) (w : Wit) : DoneBy w.event r (handleWitness c r w) := by
  unfold handleWitness
  split
  · rename_i r1 hn
    have := tryMakeProof_done (c := c) r1 w.event
    unfold DoneBy at this ⊢
    rw [(note_frame hn).done] at this
    exact this
  · exact Or.inl rfl

theorem step_done {c : Cfg} {r r' : Witness.St} {op : Witness.Op} {e : Nat} (hs : Witness.step c r op = .ok r')
    (he : (∃ ch d, op = .finalPassive e ch d) ∨ (∃ ch d a sg, op = .finalActive e ch d a sg)) : DoneBy e r r' := by
  rcases he with ⟨ch, d, rfl⟩ | ⟨ch, d, a, sg, rfl⟩
  · simp only [Witness.step, bind_ok, ensure_ok, pure_ok] at hs
    obtain ⟨_, _, rfl⟩ := hs
    exact tryMakeProof_done (noteMeta { r with finalised := e :: r.finalised } e ch d) e
  · simp only [Witness.step, bind_ok, ensure_ok] at hs
    obtain ⟨_, _, hs⟩ := hs
    split at hs
    · cases hs; exact Or.inl rfl
    · rename_i dd _
      cases hs
      exact handleWitness_done (noteMeta { r with finalised := e :: r.finalised } e ch d) ⟨e, a, dd, sg⟩

/-- A vote: the event and the validator. -/
def Msg.vote (m : Msg) : Nat × Nat := (m.wit.event, m.wit.auth)

structure Inv (c : Cfg) (s : St) : Prop where
  once : (s.passed.map Msg.vote).Nodup
  kept : ∀ m ∈ s.passed, m.wit.auth ∈ s.known m.wit.event
  genuine : ∀ m ∈ s.passed, m ∈ s.heard ∧ m.wit.auth ∈ s.ever ∧ c.verify m.wit.auth m.wit.sig m.wit.digest = true
  inbox : ∀ m ∈ s.inbox, m ∈ s.heard ∧ m.wit.auth ∈ s.ever ∧ c.verify m.wit.auth m.wit.sig m.wit.digest = true
  source : ∀ e, ∀ a ∈ s.known e, a ∈ s.ever ∧
    ∃ m ∈ s.heard, m.vote = (e, a) ∧ c.verify m.wit.auth m.wit.sig m.wit.digest = true
  active : ∀ a ∈ s.active, a ∈ s.ever
  known : ∀ e, (s.known e).Pairwise (· < ·)
  sorted : s.complete.Pairwise (· < ·)
  size : s.complete.length ≤ cacheMax
  sub : ∀ e ∈ s.complete, e ∈ s.rcd.done
  forgot : ∀ e ∈ s.rcd.done, e ∉ s.complete →
    ∃ l : List Nat, l.Nodup ∧ l.length = cacheMax - 1 ∧ ∀ x ∈ l, x ∈ s.rcd.done ∧ e < x

theorem mem_tail_of {l : List Nat} {x : Nat} (h : x ∈ l.tail) : x ∈ l := List.mem_of_mem_tail h

/-- The worker handled event `e`. -/
theorem worked_inv {c : Cfg} {s : St} (h : Inv c s) {r : Witness.St} {e : Nat} (hd : DoneBy e s.rcd r) :
    Inv c (worked s r e) := by
  unfold worked
  split
  · rename_i hlt
    have hd' : r.done = e :: s.rcd.done := by
      rcases hd with h1 | h1
      · rw [h1] at hlt; omega
      · exact h1
    have hmemc : ∀ x, x ∈ noteComplete s.complete e → x = e ∨ x ∈ s.complete := by
      intro x hx
      unfold noteComplete at hx
      rcases mem_insertSorted.mp hx with hx | hx
      · exact Or.inl hx
      · right
        split at hx
        · exact mem_tail_of hx
        · exact hx
    refine ⟨?_, ?_, ?_, h.inbox, ?_, h.active, ?_, ?_, ?_, ?_, ?_⟩
    · exact h.once.sublist (List.filter_sublist.map _)
    · intro m hm
      have hm' := List.mem_filter.mp hm
      have hne : m.wit.event ≠ e := by simpa using hm'.2
      show _ ∈ upd s.known e [] m.wit.event
      rw [upd_ne _ _ hne]
      exact h.kept m hm'.1
    · intro m hm
      exact h.genuine m (List.mem_filter.mp hm).1
    · intro x a ha
      change a ∈ upd s.known e [] x at ha
      by_cases hx : x = e
      · subst hx; rw [upd_same] at ha; cases ha
      · rw [upd_ne _ _ hx] at ha; exact h.source x a ha
    · intro x
      show (upd s.known e [] x).Pairwise _
      by_cases hx : x = e
      · subst hx; rw [upd_same]; exact List.Pairwise.nil
      · rw [upd_ne _ _ hx]; exact h.known x
    · show (noteComplete s.complete e).Pairwise _
      unfold noteComplete
      refine insertSorted_sorted ?_
      split
      · exact h.sorted.sublist (List.tail_sublist _)
      · exact h.sorted
    · show (noteComplete s.complete e).length ≤ cacheMax
      unfold noteComplete
      have hsz := h.size
      have key : ∀ l : List Nat, (insertSorted e l).length ≤ l.length + 1 := by
        intro l
        induction l with
        | nil => exact Nat.le_refl _
        | cons y ys ih =>
          unfold insertSorted
          split
          · simp
          · split
            · simp
            · simp only [List.length_cons]; omega
      refine Nat.le_trans (key _) ?_
      split
      · rename_i hc; rw [List.length_tail]; unfold cacheMax at *; omega
      · unfold cacheMax at *; omega
    · intro x hx
      show x ∈ r.done
      rw [hd']
      rcases hmemc x hx with rfl | hx
      · exact List.mem_cons_self
      · exact List.mem_cons_of_mem _ (h.sub x hx)
    · intro x hx hnx
      change x ∈ r.done at hx
      rw [hd'] at hx
      change x ∉ noteComplete s.complete e at hnx
      show ∃ l : List Nat, l.Nodup ∧ l.length = cacheMax - 1 ∧ ∀ y ∈ l, y ∈ r.done ∧ x < y
      rw [hd']
      have hxe : x ≠ e := by
        rintro rfl
        exact hnx (by unfold noteComplete; exact mem_insertSorted.mpr (Or.inl rfl))
      rcases List.mem_cons.mp hx with hx | hx
      · exact absurd hx hxe
      · by_cases hxc : x ∈ s.complete
        · -- evicted now: it was the first of a full cache
          have hfull : cacheMax ≤ s.complete.length := by
            by_contra hn
            apply hnx
            unfold noteComplete
            rw [if_neg hn]
            exact mem_insertSorted.mpr (Or.inr hxc)
          cases hl : s.complete with
          | nil => rw [hl] at hxc; cases hxc
          | cons y ys =>
            have hxy : x = y := by
              rw [hl] at hxc
              rcases List.mem_cons.mp hxc with hxc | hxc
              · exact hxc
              · exfalso
                apply hnx
                unfold noteComplete
                rw [if_pos hfull, hl]
                exact mem_insertSorted.mpr (Or.inr hxc)
            subst hxy
            have hs := h.sorted
            rw [hl] at hs
            have hs' := List.pairwise_cons.mp hs
            refine ⟨ys, hs'.2.imp (fun hlt => Nat.ne_of_lt hlt), ?_, ?_⟩
            · have h1 := h.size
              rw [hl] at h1 hfull
              simp only [List.length_cons] at h1 hfull
              omega
            · intro z hz
              exact ⟨List.mem_cons_of_mem _ (h.sub z (by rw [hl]; exact List.mem_cons_of_mem _ hz)), hs'.1 z hz⟩
        · obtain ⟨l, h1, h2, h3⟩ := h.forgot x hx hxc
          exact ⟨l, h1, h2, fun z hz => ⟨List.mem_cons_of_mem _ (h3 z hz).1, (h3 z hz).2⟩⟩
  · rename_i hlt
    have hd' : r.done = s.rcd.done := by
      rcases hd with h1 | h1
      · exact h1
      · rw [h1] at hlt; simp at hlt
    refine ⟨h.once, h.kept, h.genuine, h.inbox, h.source, h.active, h.known, h.sorted, h.size, ?_, ?_⟩
    · intro x hx
      show x ∈ r.done
      rw [hd']; exact h.sub x hx
    · intro x hx hnx
      change x ∈ r.done at hx
      show ∃ l : List Nat, l.Nodup ∧ l.length = cacheMax - 1 ∧ ∀ y ∈ l, y ∈ r.done ∧ x < y
      rw [hd'] at hx ⊢
      exact h.forgot x hx hnx

theorem receive_inv {c : Cfg} {s : St} (h : Inv c s) (m : Msg) : Inv c (receive c s m) := by
  obtain ⟨r1, r2, r3, r4, r5, r6⟩ := receive_frame c s m
  have hk := receive_known c s m
  refine ⟨?_, ?_, ?_, ?_, ?_, ?_, ?_, ?_, ?_, ?_, ?_⟩
  · rw [receive_passed]
    split
    · rename_i hacc
      rw [List.map_cons, List.nodup_cons]
      refine ⟨?_, h.once⟩
      intro hm
      obtain ⟨x, hx, hv⟩ := List.mem_map.mp hm
      obtain ⟨e1, e2⟩ := Prod.mk.inj hv
      have := h.kept x hx
      rw [e1, e2] at this
      exact hacc.1.1 this
    · exact h.once
  · intro x hx
    rw [receive_passed] at hx
    split at hx
    · rename_i hacc
      rcases List.mem_cons.mp hx with rfl | hx
      · rw [hk, if_pos hacc.1, upd_same]; exact mem_insertSorted.mpr (Or.inl rfl)
      · exact receive_known_mono (h.kept x hx)
    · exact receive_known_mono (h.kept x hx)
  · intro x hx
    rw [receive_passed] at hx
    rw [r5, r6]
    split at hx
    · rename_i hacc
      rcases List.mem_cons.mp hx with rfl | hx
      · exact ⟨List.mem_cons_self, h.active _ hacc.1.2.1, hacc.1.2.2⟩
      · have := h.genuine x hx; exact ⟨List.mem_cons_of_mem _ this.1, this.2⟩
    · have := h.genuine x hx; exact ⟨List.mem_cons_of_mem _ this.1, this.2⟩
  · intro x hx
    rw [receive_inbox] at hx
    rw [r5, r6]
    split at hx
    · rename_i hacc
      rcases List.mem_append.mp hx with hx | hx
      · have := h.inbox x hx; exact ⟨List.mem_cons_of_mem _ this.1, this.2⟩
      · rw [List.mem_singleton] at hx
        subst hx
        exact ⟨List.mem_cons_self, h.active _ hacc.1.2.1, hacc.1.2.2⟩
    · have := h.inbox x hx; exact ⟨List.mem_cons_of_mem _ this.1, this.2⟩
  · intro e a ha
    rw [r5, r6]
    have hold : a ∈ s.known e → a ∈ s.ever ∧ ∃ x ∈ m :: s.heard, x.vote = (e, a) ∧
        c.verify x.wit.auth x.wit.sig x.wit.digest = true := by
      intro hka
      obtain ⟨h1, x, hx, h2⟩ := h.source e a hka
      exact ⟨h1, x, List.mem_cons_of_mem _ hx, h2⟩
    rw [hk] at ha
    split at ha
    · rename_i hrem
      by_cases he : e = m.wit.event
      · rw [he, upd_same] at ha
        rcases mem_insertSorted.mp ha with ha | ha
        · refine ⟨by rw [ha]; exact h.active _ hrem.2.1, m, List.mem_cons_self, ?_, hrem.2.2⟩
          unfold Msg.vote
          rw [he, ha]
        · exact hold (by rw [he]; exact ha)
      · rw [upd_ne _ _ he] at ha; exact hold ha
    · exact hold ha
  · rw [r2, r6]; exact h.active
  · intro e
    rw [hk]
    split
    · by_cases he : e = m.wit.event
      · subst he; rw [upd_same]; exact insertSorted_sorted (h.known _)
      · rw [upd_ne _ _ he]; exact h.known e
    · exact h.known e
  · rw [r3]; exact h.sorted
  · rw [r3]; exact h.size
  · rw [r3, r1]; exact h.sub
  · rw [r3, r1]; exact h.forgot

theorem step_inv {c : Cfg} {s s' : St} {op : Op} (h : Inv c s) (hs : step c s op = .ok s') : Inv c s' := by
  cases op with
  | recv m =>
    simp only [step, Except.ok.injEq] at hs
    subst hs
    exact receive_inv h m
  | work =>
    unfold step at hs
    cases hi : s.inbox with
    | nil => rw [hi] at hs; cases hs; exact h
    | cons m l =>
      rw [hi] at hs
      simp only [Except.ok.injEq] at hs
      subst hs
      refine worked_inv (s := { s with inbox := l }) ?_ (handleWitness_done s.rcd m.wit)
      exact ⟨h.once, h.kept, h.genuine, fun x hx => h.inbox x (by rw [hi]; exact List.mem_cons_of_mem _ hx), h.source,
        h.active, h.known, h.sorted, h.size, h.sub, h.forgot⟩
  | passive x ch data =>
    simp only [step, bind_ok, pure_ok] at hs
    obtain ⟨r, hr, rfl⟩ := hs
    exact worked_inv h (step_done hr (Or.inl ⟨_, _, rfl⟩))
  | sign x ch data auth sig =>
    simp only [step, bind_ok, pure_ok] at hs
    obtain ⟨r, hr, rfl⟩ := hs
    exact worked_inv h (step_done hr (Or.inr ⟨_, _, _, _, rfl⟩))
  | setVals vals thr xvals xthr =>
    simp only [step, bind_ok, pure_ok] at hs
    obtain ⟨r, hr, rfl⟩ := hs
    simp only [Witness.step, Except.ok.injEq] at hr
    subst hr
    have ev : ∀ a, a ∈ s.ever → a ∈ vals ++ s.ever := fun a ha => List.mem_append_right _ ha
    refine ⟨h.once, h.kept, fun m hm => ?_, fun m hm => ?_, fun e a ha => ?_, fun a ha => List.mem_append_left _ ha,
      h.known, h.sorted, h.size, h.sub, h.forgot⟩
    · have := h.genuine m hm; exact ⟨this.1, ev _ this.2.1, this.2.2⟩
    · have := h.inbox m hm; exact ⟨this.1, ev _ this.2.1, this.2.2⟩
    · have := h.source e a ha; exact ⟨ev _ this.1, this.2⟩
  | finalize n =>
    simp only [step, Except.ok.injEq] at hs
    subst hs
    exact ⟨h.once, h.kept, h.genuine, h.inbox, h.source, h.active, h.known, h.sorted, h.size, h.sub, h.forgot⟩

theorem reach_inv {c : Cfg} {s : St} (h : Reach c s) : Inv c s := by
  induction h with
  | init g =>
    refine ⟨?_, ?_, ?_, ?_, ?_, ?_, ?_, ?_, ?_, ?_, ?_⟩
    · rw [g.passed]; exact List.nodup_nil
    · rw [g.passed]; intro m hm; cases hm
    · rw [g.passed]; intro m hm; cases hm
    · rw [g.inbox]; intro m hm; cases hm
    · intro e a ha; rw [g.known] at ha; cases ha
    · rw [g.ever]; exact fun _ h => h
    · intro e; rw [g.known]; exact List.Pairwise.nil
    · rw [g.complete]; exact List.Pairwise.nil
    · rw [g.complete]; exact Nat.zero_le _
    · rw [g.complete]; intro e he; cases he
    · rw [g.rcd.done]; intro e he; cases he
  | step op _ hs ih => exact step_inv ih hs

end Verif.Gossip
