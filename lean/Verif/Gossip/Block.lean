import Verif.Gossip.Lemmas

/-!
# An event whose votes are all remembered stays unproved
-/

namespace Verif.Gossip

open Verif.Witness (Cfg Wit Chain note note_ok tryMakeProof handleWitness noteMeta insertIdx)
open Verif.Ethy (insertSorted mem_insertSorted)

/-- Every active validator counts as having voted for event `e`, none has, but for this node. -/
structure Blocked (s : St) (e : Nat) : Prop where
  ue : UE s.rcd
  known : ∀ a ∈ s.active, a ∈ s.known e
  unv : s.rcd.unv e = []
  wit : (s.rcd.wit e).length ≤ if e ∈ s.rcd.finalised then 1 else 0
  inbox : ∀ m ∈ s.inbox, m.wit.event ≠ e
  thr : 2 ≤ s.rcd.thr ∧ 2 ≤ s.rcd.xthr
  undone : e ∉ s.rcd.done

theorem Blocked.wit_one {s : St} {e : Nat} (h : Blocked s e) : (s.rcd.wit e).length ≤ 1 := by
  have := h.wit
  split at this <;> omega

theorem worked_rcd (s : St) (r : Witness.St) (e : Nat) : (worked s r e).rcd = r := by
  unfold worked; split <;> rfl

theorem worked_frame (s : St) (r : Witness.St) (e : Nat) :
    (worked s r e).active = s.active ∧ (worked s r e).inbox = s.inbox ∧ (worked s r e).heard = s.heard ∧
    (worked s r e).finalized = s.finalized ∧ (worked s r e).ever = s.ever := by
  unfold worked; split <;> exact ⟨rfl, rfl, rfl, rfl, rfl⟩

theorem worked_known_ne {s : St} {r : Witness.St} {e x : Nat} (h : e ≠ x) : (worked s r x).known e = s.known e := by
  unfold worked
  split
  · exact upd_ne _ _ h
  · rfl

theorem worked_known_eq {s : St} {r : Witness.St} {e : Nat} (h : r.done = s.rcd.done) :
    (worked s r e).known = s.known := by
  unfold worked
  rw [if_neg (by rw [h]; omega)]

theorem receive_frame (c : Cfg) (s : St) (m : Msg) :
    (receive c s m).rcd = s.rcd ∧ (receive c s m).active = s.active ∧ (receive c s m).complete = s.complete ∧
    (receive c s m).finalized = s.finalized ∧ (receive c s m).heard = m :: s.heard ∧
    (receive c s m).ever = s.ever := by
  unfold receive validate
  dsimp only
  split <;> split <;> exact ⟨rfl, rfl, rfl, rfl, rfl, rfl⟩

theorem receive_known (c : Cfg) (s : St) (m : Msg) :
    (receive c s m).known = if remembers c s m then
      upd s.known m.wit.event (insertSorted m.wit.auth (s.known m.wit.event)) else s.known := by
  unfold receive validate
  dsimp only
  split <;> split <;> rfl

theorem receive_known_mono {c : Cfg} {s : St} {m : Msg} {e a : Nat} (h : a ∈ s.known e) :
    a ∈ (receive c s m).known e := by
  rw [receive_known]
  split
  · by_cases he : e = m.wit.event
    · subst he; rw [upd_same]; exact mem_insertSorted.mpr (Or.inr h)
    · rw [upd_ne _ _ he]; exact h
  · exact h

theorem receive_inbox (c : Cfg) (s : St) (m : Msg) :
    (receive c s m).inbox = if accepts c s m then s.inbox ++ [m] else s.inbox := by
  unfold receive validate
  dsimp only
  split <;> split <;> rfl

theorem receive_passed (c : Cfg) (s : St) (m : Msg) :
    (receive c s m).passed = if accepts c s m then m :: s.passed else s.passed := by
  unfold receive validate
  dsimp only
  split <;> split <;> rfl

/-- Operations other than a change of validators. -/
def SameVals : Op → Prop
  | .setVals .. => False
  | _ => True

theorem step_blocked {c : Cfg} {s s' : St} {op : Op} {e : Nat} (h : Blocked s e) (ho : SameVals op)
    (hs : step c s op = .ok s') : Blocked s' e := by
  cases op with
  | recv m =>
    simp only [step, Except.ok.injEq] at hs
    subst hs
    obtain ⟨h1, h2, _, _, _, _⟩ := receive_frame c s m
    refine ⟨h1 ▸ h.ue, ?_, h1 ▸ h.unv, h1 ▸ h.wit, ?_, h1 ▸ h.thr, h1 ▸ h.undone⟩
    · rw [h2]; exact fun a ha => receive_known_mono (h.known a ha)
    · rw [receive_inbox]
      split
      · rename_i hacc
        intro x hx
        rcases List.mem_append.mp hx with hx | hx
        · exact h.inbox x hx
        · rw [List.mem_singleton] at hx
          subst hx
          rintro rfl
          exact hacc.1.1 (h.known _ hacc.1.2.1)
      · exact h.inbox
  | work =>
    unfold step at hs
    cases hi : s.inbox with
    | nil => rw [hi] at hs; cases hs; exact h
    | cons m l =>
      rw [hi] at hs
      simp only [Except.ok.injEq] at hs
      have hne : m.wit.event ≠ e := h.inbox m (by rw [hi]; exact List.mem_cons_self)
      have hsame := handleWitness_same (c := c) h.ue hne
      have hr := worked_rcd { s with inbox := l } (handleWitness c s.rcd m.wit) m.wit.event
      obtain ⟨f1, f2, _, _, _⟩ := worked_frame { s with inbox := l } (handleWitness c s.rcd m.wit) m.wit.event
      have hk := worked_known_ne (s := { s with inbox := l }) (r := handleWitness c s.rcd m.wit) (Ne.symm hne)
      rw [hs] at hr f1 f2 hk
      refine ⟨?_, ?_, ?_, ?_, ?_, ?_, ?_⟩
      · rw [hr]; exact handleWitness_UE h.ue _
      · rw [f1, hk]; exact h.known
      · rw [hr, hsame.unv]; exact h.unv
      · rw [hr, hsame.wit, hsame.finalised]; exact h.wit
      · rw [f2]; exact fun x hx => h.inbox x (by rw [hi]; exact List.mem_cons_of_mem _ hx)
      · rw [hr, hsame.thr, hsame.xthr]; exact h.thr
      · rw [hr]; exact fun hd => h.undone (hsame.done hd)
  | passive x ch data =>
    simp only [step, bind_ok, pure_ok] at hs
    obtain ⟨r, hr, rfl⟩ := hs
    have hue := step_UE h.ue hr
    simp only [Witness.step, bind_ok, ensure_ok, pure_ok] at hr
    obtain ⟨_, hf, hr⟩ := hr
    obtain ⟨f1, f2, _, _, _⟩ := worked_frame s r x
    have hrr := worked_rcd s r x
    by_cases hx : x = e
    · subst hx
      have hw0 : s.rcd.wit x = [] := by
        have := h.wit
        rw [if_neg hf] at this
        exact List.length_eq_zero_iff.mp (by omega)
      have hfew := tryMakeProof_few (c := c) (r := noteMeta { s.rcd with finalised := x :: s.rcd.finalised } x ch data)
        (e := x) h.unv (by show (s.rcd.wit x).length ≤ 1; rw [hw0]; simp) h.thr
      have hk : (worked s r x).known = s.known := worked_known_eq (by
        rw [← hr]; rcases hfew with e1 | e1 <;> rw [e1] <;> rfl)
      refine ⟨?_, ?_, ?_, ?_, ?_, ?_, ?_⟩
      · rw [hrr]; exact hue
      · rw [f1, hk]; exact h.known
      · rw [hrr, ← hr]
        rcases hfew with e1 | e1 <;> rw [e1]
        · exact h.unv
        · exact upd_same _ _ _
      · rw [hrr, ← hr]
        rcases hfew with e1 | e1 <;> rw [e1] <;>
        · show (s.rcd.wit x).length ≤ _
          rw [hw0]; simp
      · rw [f2]; exact h.inbox
      · rw [hrr, ← hr]; rcases hfew with e1 | e1 <;> rw [e1] <;> exact h.thr
      · rw [hrr, ← hr]; rcases hfew with e1 | e1 <;> rw [e1] <;> exact h.undone
    · have hsame := tryMakeProof_same (c := c)
        (r := noteMeta { s.rcd with finalised := x :: s.rcd.finalised } x ch data) h.ue hx
      rw [hr] at hsame
      have hk := worked_known_ne (s := s) (r := r) (Ne.symm hx)
      refine ⟨?_, ?_, ?_, ?_, ?_, ?_, ?_⟩
      · rw [hrr]; exact hue
      · rw [f1, hk]; exact h.known
      · rw [hrr, hsame.unv]; exact h.unv
      · rw [hrr, hsame.wit, hsame.finalised]
        refine Nat.le_trans h.wit ?_
        show _ ≤ if e ∈ x :: s.rcd.finalised then 1 else 0
        by_cases hm : e ∈ s.rcd.finalised
        · rw [if_pos hm, if_pos (List.mem_cons_of_mem _ hm)]
        · rw [if_neg hm]; omega
      · rw [f2]; exact h.inbox
      · rw [hrr, hsame.thr, hsame.xthr]; exact h.thr
      · rw [hrr]; exact fun hd => h.undone (hsame.done hd)
  | sign x ch data auth sig =>
    simp only [step, bind_ok, pure_ok] at hs
    obtain ⟨r, hr, rfl⟩ := hs
    have hue := step_UE h.ue hr
    simp only [Witness.step, bind_ok, ensure_ok] at hr
    obtain ⟨_, hf, hr⟩ := hr
    obtain ⟨f1, f2, _, _, _⟩ := worked_frame s r x
    have hrr := worked_rcd s r x
    by_cases hx : x = e
    · subst hx
      have hw0 : s.rcd.wit x = [] := by
        have := h.wit
        rw [if_neg hf] at this
        exact List.length_eq_zero_iff.mp (by omega)
      have key : UE r → r.unv x = [] ∧ (r.wit x).length ≤ 1 ∧ r.thr = s.rcd.thr ∧ r.xthr = s.rcd.xthr ∧
          r.done = s.rcd.done ∧ x ∈ r.finalised := by
        intro _
        split at hr
        · cases hr
          exact ⟨h.unv, by show (s.rcd.wit x).length ≤ 1; rw [hw0]; simp, rfl, rfl, rfl, List.mem_cons_self⟩
        · rename_i d hd
          cases hr
          unfold handleWitness
          split
          · rename_i r1 hn
            have hq : r1.unv x = [] ∧ (r1.wit x).length ≤ 1 ∧ r1.thr = s.rcd.thr ∧ r1.xthr = s.rcd.xthr ∧
                r1.done = s.rcd.done ∧ x ∈ r1.finalised := by
              obtain ⟨_, _, ⟨hm, _⟩ | ⟨m, i, hm, _, _, _, rfl⟩⟩ := note_ok hn
              · exfalso
                change upd _ x (some _) x = none at hm
                rw [upd_same] at hm
                cases hm
              · refine ⟨h.unv, ?_, rfl, rfl, rfl, List.mem_cons_self⟩
                show (upd s.rcd.wit x (insertIdx i sig (s.rcd.wit x)) x).length ≤ 1
                rw [upd_same, hw0]
                exact insertIdx_length i sig []
            obtain ⟨q1, q2, q3, q4, q5, q6⟩ := hq
            have hfew := tryMakeProof_few (c := c) (r := r1) q1 q2 (by rw [q3, q4]; exact h.thr)
            rcases hfew with e1 | e1 <;> (show _ ∧ _; rw [e1])
            · exact ⟨q1, q2, q3, q4, q5, q6⟩
            · exact ⟨upd_same _ _ _, q2, q3, q4, q5, q6⟩
          · exact ⟨h.unv, by show (s.rcd.wit x).length ≤ 1; rw [hw0]; simp, rfl, rfl, rfl, List.mem_cons_self⟩
      obtain ⟨k1, k2, k3, k4, k5, k6⟩ := key hue
      have hk := worked_known_eq (s := s) (e := x) k5
      refine ⟨?_, ?_, ?_, ?_, ?_, ?_, ?_⟩
      · rw [hrr]; exact hue
      · rw [f1, hk]; exact h.known
      · rw [hrr]; exact k1
      · rw [hrr, if_pos k6]; exact k2
      · rw [f2]; exact h.inbox
      · rw [hrr, k3, k4]; exact h.thr
      · rw [hrr, k5]; exact h.undone
    · have hsame : Same e { s.rcd with finalised := x :: s.rcd.finalised } r := by
        split at hr
        · cases hr; exact Same.refl _ _
        · cases hr
          refine Same.trans (b := noteMeta { s.rcd with finalised := x :: s.rcd.finalised } x ch data)
            ⟨rfl, rfl, upd_ne _ _ (Ne.symm hx), rfl, rfl, id, rfl⟩ (handleWitness_same ?_ hx)
          exact h.ue
      have hk := worked_known_ne (s := s) (r := r) (Ne.symm hx)
      refine ⟨?_, ?_, ?_, ?_, ?_, ?_, ?_⟩
      · rw [hrr]; exact hue
      · rw [f1, hk]; exact h.known
      · rw [hrr, hsame.unv]; exact h.unv
      · rw [hrr, hsame.wit, hsame.finalised]
        refine Nat.le_trans h.wit ?_
        show _ ≤ if e ∈ x :: s.rcd.finalised then 1 else 0
        by_cases hm : e ∈ s.rcd.finalised
        · rw [if_pos hm, if_pos (List.mem_cons_of_mem _ hm)]
        · rw [if_neg hm]; omega
      · rw [f2]; exact h.inbox
      · rw [hrr, hsame.thr, hsame.xthr]; exact h.thr
      · rw [hrr]; exact fun hd => h.undone (hsame.done hd)
  | setVals vals thr xvals xthr => exact absurd ho id
  | finalize n =>
    simp only [step, Except.ok.injEq] at hs
    subst hs
    exact ⟨h.ue, h.known, h.unv, h.wit, h.inbox, h.thr, h.undone⟩

theorem exec_blocked {c : Cfg} {e : Nat} : ∀ (ops : List Op) {s : St}, Blocked s e → (∀ op ∈ ops, SameVals op) →
    Blocked (exec c s ops) e
  | [], _, h, _ => h
  | op :: ops, s, h, ho => by
    unfold exec
    refine exec_blocked ops ?_ (fun o hm => ho o (List.mem_cons_of_mem _ hm))
    cases hs : step c s op with
    | ok s1 => exact step_blocked h (ho op List.mem_cons_self) hs
    | error _ => exact h

/-- A message with an old block number is only remembered. -/
theorem receive_old {c : Cfg} {s : St} {m : Msg} (h : old s m) :
    (receive c s m).inbox = s.inbox ∧ (receive c s m).passed = s.passed := by
  have : ¬ accepts c s m := fun ha => ha.2 h
  rw [receive_inbox, receive_passed, if_neg this, if_neg this]
  exact ⟨rfl, rfl⟩

/-- Messages with old block numbers change nothing but what is remembered and heard. -/
theorem exec_old {c : Cfg} : ∀ (ms : List Msg) {s : St}, (∀ m ∈ ms, old s m) →
    let t := exec c s (ms.map Op.recv)
    t.rcd = s.rcd ∧ t.active = s.active ∧ t.inbox = s.inbox ∧ t.finalized = s.finalized ∧
    (∀ e, ∀ a ∈ s.known e, a ∈ t.known e) ∧
    (∀ m ∈ ms, m.wit.auth ∈ s.active → c.verify m.wit.auth m.wit.sig m.wit.digest = true →
      m.wit.auth ∈ t.known m.wit.event)
  | [], s, _ => ⟨rfl, rfl, rfl, rfl, fun _ _ h => h, fun _ h => by cases h⟩
  | m :: ms, s, h => by
    obtain ⟨r1, r2, _, r4, _, _⟩ := receive_frame c s m
    have hold := h m List.mem_cons_self
    obtain ⟨i1, i2, i3, i4, i5, i6⟩ := exec_old ms (s := receive c s m) (fun x hx => by
      have := h x (List.mem_cons_of_mem _ hx)
      unfold old at this ⊢
      rw [r4]; exact this)
    refine ⟨i1.trans r1, i2.trans r2, i3.trans (receive_old hold).1, i4.trans r4,
      fun e a ha => i5 e a (receive_known_mono ha), ?_⟩
    intro x hx hact hver
    rcases List.mem_cons.mp hx with rfl | hx
    · refine i5 _ _ ?_
      rw [receive_known]
      split
      · rw [upd_same]; exact mem_insertSorted.mpr (Or.inl rfl)
      · rename_i hn
        by_contra hk
        exact hn ⟨hk, hact, hver⟩
    · exact i6 x hx (by rw [r2]; exact hact) hver

end Verif.Gossip
