import Verif.Prompt.Props

/-!
# C269, over whole histories: once the request and enough votes were delivered, the proof was made
-/

namespace Verif.Prompt

open Verif.Witness
open Verif.Gossip (Has Genuine UE note_genuine note_has note_UE processUnverified_has)

/-! ## Specification -/

/-- What happens to a node while the validators `V` do not change and the request of event `e` is `data` for
chain `ch`: votes of any kind, requests, own votes that are genuine and by one of the validators. -/
def Usual (c : Cfg) (V : List Nat) (e : Nat) (ch : Chain) (data : Nat) : Op → Prop
  | .finalPassive x ch' data' => x = e → ch' = ch ∧ data' = data
  | .finalActive x ch' data' a sig =>
    (x = e → ch' = ch ∧ data' = data) ∧
    ∃ d i, c.digestOf ch' data' a = some d ∧ c.verify a sig d = true ∧ authIndex V a = some i
  | .gossip _ => True
  | .setVals _ _ _ _ => False

/-- The operation is the request of `e`, seen by a node that signs or by one that does not. -/
def Asks (e : Nat) (ch : Chain) (data : Nat) (op : Op) : Prop :=
  op = .finalPassive e ch data ∨ ∃ a sig, op = .finalActive e ch data a sig

/-! ## Completed events stay completed -/

theorem markComplete_completed {s : St} {ps : List Proof} {x e : Nat} (h : CI s) (hx : ¬ isCompleted s x)
    (he : e = x ∨ isCompleted s e) : isCompleted (markComplete { s with proofs := ps } x) e := by
  have hne : x ∉ s.completed := fun hm => hx (Or.inl hm)
  have hc : (markComplete { s with proofs := ps } x).completed = compact (Ethy.insertSorted x s.completed) := by
    unfold markComplete; dsimp only; rw [if_neg hne]
  unfold isCompleted
  rw [hc]
  exact complete_mono h.sorted he hx

theorem consensus_open {c : Cfg} {s : St} (h : CI s) (hp : PosSt s) {x : Nat} {ch : Chain}
    (hw : isCompleted s x → s.wit x = []) (hc : hasConsensus (processUnverified c s x) x ch) :
    ¬ isCompleted (processUnverified c s x) x := by
  have hf := processUnverified_frame (c := c) s x
  intro hcomp
  rw [hf.isCompleted] at hcomp
  refine empty_none (s := processUnverified c s x) ?_ ?_ ch hc
  · unfold PosSt; rw [hf.thr, hf.xthr]; exact hp
  · rw [processUnverified_rejected (c := c) h hcomp]; exact hw hcomp

/-! ## The invariant -/

/-- What holds of the record while the validators are `V` and the request of `e` is `(ch, data)`. -/
structure K (V : List Nat) (e : Nat) (ch : Chain) (data : Nat) (s : St) : Prop where
  ci : CI s
  pos : PosSt s
  vals : s.vals = V
  req : s.evMeta e = none ∨ s.evMeta e = some (ch, data)
  made : ∀ p ∈ s.proofs, p.event = e → p.chain = ch ∧ p.data = data
  seen : ∀ x, ∀ a ∈ s.seen x, ∃ i, authIndex V a = some i ∧ Has s x i
  fin : e ∈ s.finalised → s.evMeta e ≠ none ∨ isCompleted s e
  known : SeenKnown s

/-- The vote `w` of validator number `j` was not lost: the event is completed, or the vote is on record, or it
is stored for the time when the request comes. -/
def D (e : Nat) (ch : Chain) (data : Nat) (w : Wit) (j : Nat) (s : St) : Prop :=
  isCompleted s e ∨ (s.evMeta e = some (ch, data) ∧ Has s e j) ∨ (e ∉ s.finalised ∧ w ∈ s.unv e)

section
variable {c : Cfg} {V : List Nat} {e : Nat} {ch : Chain} {data : Nat}

theorem note_K {s s' : St} {w : Wit} (h : K V e ch data s) (hn : note c s w = .ok s') : K V e ch data s' := by
  have hf := note_frame hn
  refine ⟨note_CI h.ci hn, ?_, hf.vals.trans h.vals, ?_, ?_, ?_, ?_, note_seen h.known hn⟩
  · unfold PosSt; rw [hf.thr, hf.xthr]; exact h.pos
  · rw [hf.evMeta]; exact h.req
  · rw [hf.proofs]; exact h.made
  · intro x a ha
    obtain ⟨_, _, ⟨_, he⟩ | ⟨m, i, hm, _, _, hi, he⟩⟩ := note_ok hn
    · rw [he] at ha
      obtain ⟨i, h1, h2⟩ := h.seen x a ha
      exact ⟨i, h1, note_has hn h2⟩
    · have hs : s'.seen = upd s.seen w.event (Ethy.insertSorted w.auth (s.seen w.event)) := by rw [he]
      have hw : s'.wit = upd s.wit w.event (insertIdx i w.sig (s.wit w.event)) := by rw [he]
      rw [hs] at ha
      by_cases hx : x = w.event
      · subst hx
        rw [upd_same] at ha
        rcases Ethy.mem_insertSorted.mp ha with rfl | ha
        · refine ⟨i, by rw [← h.vals]; exact hi, ?_⟩
          unfold Has
          rw [hw, upd_same]
          exact Gossip.insertIdx_has i w.sig _
        · obtain ⟨i', h1, h2⟩ := h.seen _ a ha
          exact ⟨i', h1, note_has hn h2⟩
      · rw [upd_ne _ _ hx] at ha
        obtain ⟨i', h1, h2⟩ := h.seen x a ha
        exact ⟨i', h1, note_has hn h2⟩
  · rw [hf.finalised, hf.evMeta, hf.isCompleted]; exact h.fin

theorem processUnverified_K {s : St} (h : K V e ch data s) (x : Nat) : K V e ch data (processUnverified c s x) :=
  processUnverified_ind (Q := K V e ch data)
    ⟨clearUnv_CI h.ci x, h.pos, h.vals, h.req, h.made, h.seen, h.fin, h.known⟩ (fun _ _ _ ht _ hn => note_K ht hn)

theorem tryMakeProof_K {s : St} (h : K V e ch data s) {x : Nat} (hw : isCompleted s x → s.wit x = []) :
    K V e ch data (tryMakeProof c s x) := by
  have hci := tryMakeProof_CI (c := c) h.ci h.pos hw
  have hsn := tryMakeProof_seen (c := c) h.known x
  have hk := processUnverified_K (c := c) h x
  have hf := processUnverified_frame (c := c) s x
  rcases tryMakeProof_cases c s x with ⟨_, e1⟩ | ⟨m, hm, ⟨_, e1⟩ | ⟨hc, e1⟩⟩
  · rw [e1]; exact h
  · rw [e1]; exact hk
  · have hop := consensus_open h.ci h.pos hw hc
    rw [e1] at hci hsn ⊢
    refine ⟨hci, hk.pos, hk.vals, ?_, ?_, ?_, ?_, hsn⟩
    · show upd _ x none e = none ∨ upd _ x none e = _
      by_cases hx : e = x
      · subst hx; rw [upd_same]; exact Or.inl rfl
      · rw [upd_ne _ _ hx]; exact hk.req
    · intro p hp hpe
      rcases List.mem_cons.mp hp with rfl | hp
      · dsimp only at hpe ⊢
        subst hpe
        rcases h.req with hr | hr
        · rw [hr] at hm; cases hm
        · rw [hr] at hm; cases hm; exact ⟨rfl, rfl⟩
      · exact hk.made p hp hpe
    · intro y a ha
      change a ∈ upd (processUnverified c s x).seen x [] y at ha
      by_cases hy : y = x
      · subst hy; rw [upd_same] at ha; cases ha
      · rw [upd_ne _ _ hy] at ha
        obtain ⟨i, h1, g, hg⟩ := hk.seen y a ha
        refine ⟨i, h1, g, ?_⟩
        show _ ∈ upd (processUnverified c s x).wit x [] y
        rw [upd_ne _ _ hy]; exact hg
    · intro hfin
      by_cases hx : e = x
      · exact Or.inr (markComplete_completed hk.ci hop (Or.inl hx))
      · rcases hk.fin hfin with h1 | h1
        · left
          show upd _ x none e ≠ none
          rw [upd_ne _ _ hx]; exact h1
        · exact Or.inr (markComplete_completed hk.ci hop (Or.inr h1))

theorem handleWitness_K {s : St} (h : K V e ch data s) (w : Wit) : K V e ch data (handleWitness c s w) := by
  unfold handleWitness
  split
  · rename_i s1 hn
    refine tryMakeProof_K (note_K h hn) ?_
    intro hc
    rw [(note_frame hn).isCompleted] at hc
    exact absurd hc (note_ok hn).1
  · exact h

theorem noteMeta_K {s : St} (h : K V e ch data s) {x data' : Nat} {ch' : Chain}
    (hx : x = e → ch' = ch ∧ data' = data) :
    K V e ch data (noteMeta { s with finalised := x :: s.finalised } x ch' data') := by
  refine ⟨noteMeta_CI h.ci x ch' data', h.pos, h.vals, ?_, h.made, h.seen, ?_, noteMeta_seen h.known x ch' data'⟩
  · show upd s.evMeta x _ e = none ∨ upd s.evMeta x _ e = _
    by_cases he : e = x
    · subst he
      obtain ⟨rfl, rfl⟩ := hx rfl
      rw [upd_same]
      right
      rcases h.req with hr | hr <;>
        rw [show ({ s with finalised := e :: s.finalised } : St).evMeta e = s.evMeta e from rfl, hr] <;> rfl
    · rw [upd_ne _ _ he]; exact h.req
  · intro hf
    show upd s.evMeta x _ e ≠ none ∨ _
    by_cases he : e = x
    · subst he; rw [upd_same]; exact Or.inl (by simp)
    · rw [upd_ne _ _ he]
      rcases List.mem_cons.mp hf with hf | hf
      · exact absurd hf he
      · exact h.fin hf

theorem step_K {s s' : St} {op : Op} (h : K V e ch data s) (ho : Usual c V e ch data op) (hs : step c s op = .ok s') :
    K V e ch data s' := by
  cases op with
  | finalPassive x ch' data' =>
    simp only [step, bind_ok, ensure_ok, pure_ok] at hs
    obtain ⟨_, hn, rfl⟩ := hs
    exact tryMakeProof_K (noteMeta_K h ho) (fun _ => (h.ci.fresh x hn).2)
  | finalActive x ch' data' a sig =>
    obtain ⟨ho, d, i, hd, _, _⟩ := ho
    simp only [step, bind_ok, ensure_ok] at hs
    obtain ⟨_, hn, hs⟩ := hs
    rw [hd] at hs
    simp only [pure_ok] at hs
    subst hs
    exact handleWitness_K (noteMeta_K h ho) _
  | gossip w => cases hs; exact handleWitness_K h w
  | setVals vals thr xvals xthr => exact ho.elim

/-! ## No vote is lost -/

theorem tryMakeProof_D {s : St} (h : K V e ch data s) {x : Nat} (hw : isCompleted s x → s.wit x = []) {w : Wit} {j : Nat}
    (hd : isCompleted s e ∨ (s.evMeta e = some (ch, data) ∧ Has s e j) ∨
      (e ∉ s.finalised ∧ w ∈ s.unv e)) : D e ch data w j (tryMakeProof c s x) := by
  have hk := processUnverified_K (c := c) h x
  have hf := processUnverified_frame (c := c) s x
  have hmono : isCompleted s e → isCompleted (tryMakeProof c s x) e := by
    intro hc
    rcases tryMakeProof_cases c s x with ⟨_, e1⟩ | ⟨m, hm, ⟨_, e1⟩ | ⟨hcs, e1⟩⟩ <;> rw [e1]
    · exact hc
    · rw [hf.isCompleted]; exact hc
    · exact markComplete_completed hk.ci (consensus_open h.ci h.pos hw hcs) (Or.inr ((hf.isCompleted e).mpr hc))
  by_cases hx : x = e
  · subst hx
    rcases hd with hd | ⟨hm, hh⟩ | ⟨hfin, hu⟩
    · exact Or.inl (hmono hd)
    · rcases tryMakeProof_cases c s x with ⟨_, e1⟩ | ⟨m, hm', ⟨_, e1⟩ | ⟨hcs, e1⟩⟩ <;> rw [e1]
      · exact Or.inr (Or.inl ⟨hm, hh⟩)
      · exact Or.inr (Or.inl ⟨by rw [hf.evMeta]; exact hm, processUnverified_has hh⟩)
      · exact Or.inl (markComplete_completed hk.ci (consensus_open h.ci h.pos hw hcs) (Or.inl rfl))
    · rcases tryMakeProof_cases c s x with ⟨_, e1⟩ | ⟨m, hm', _⟩
      · rw [e1]; exact Or.inr (Or.inr ⟨hfin, hu⟩)
      · rw [(h.ci.fresh x hfin).1] at hm'; cases hm'
  · have hs := Gossip.tryMakeProof_same (c := c) h.ci.unvEv hx
    rcases hd with hd | ⟨hm, hh⟩ | ⟨hfin, hu⟩
    · exact Or.inl (hmono hd)
    · refine Or.inr (Or.inl ⟨by rw [hs.evMeta]; exact hm, ?_⟩)
      unfold Has; rw [hs.wit]; exact hh
    · exact Or.inr (Or.inr ⟨by rw [hs.finalised]; exact hfin, by rw [hs.unv]; exact hu⟩)

theorem note_D {s s' : St} {v w : Wit} {j : Nat} (hn : note c s v = .ok s') (hd : D e ch data w j s) :
    D e ch data w j s' := by
  have hf := note_frame hn
  rcases hd with hd | ⟨hm, hh⟩ | ⟨hfin, hu⟩
  · exact Or.inl ((hf.isCompleted e).mpr hd)
  · exact Or.inr (Or.inl ⟨by rw [hf.evMeta]; exact hm, note_has hn hh⟩)
  · refine Or.inr (Or.inr ⟨by rw [hf.finalised]; exact hfin, ?_⟩)
    obtain ⟨_, _, ⟨_, rfl⟩ | ⟨m, i, hm, _, _, _, rfl⟩⟩ := note_ok hn
    · show w ∈ upd s.unv v.event _ e
      by_cases he : e = v.event
      · subst he; rw [upd_same]; exact List.mem_append_left _ hu
      · rw [upd_ne _ _ he]; exact hu
    · exact hu

theorem handleWitness_D {s : St} (h : K V e ch data s) (v : Wit) {w : Wit} {j : Nat} (hd : D e ch data w j s) :
    D e ch data w j (handleWitness c s v) := by
  unfold handleWitness
  split
  · rename_i s1 hn
    refine tryMakeProof_D (note_K h hn) ?_ (note_D hn hd)
    intro hc
    rw [(note_frame hn).isCompleted] at hc
    exact absurd hc (note_ok hn).1
  · exact hd

/-- When the request comes, a stored genuine vote is recorded. -/
theorem stored_D {s : St} (h : K V e ch data s) {w : Wit} {j : Nat} (hwe : w.event = e) (hg : Genuine c w ch data)
    (hj : authIndex V w.auth = some j) (hm : s.evMeta e = some (ch, data)) (hw : isCompleted s e → s.wit e = [])
    (hu : w ∈ s.unv e) : D e ch data w j (tryMakeProof c s e) := by
  subst hwe
  by_cases hc : isCompleted s w.event
  · exact tryMakeProof_D h hw (Or.inl hc)
  have hk := processUnverified_K (c := c) h w.event
  have hf := processUnverified_frame (c := c) s w.event
  have hh : Has (processUnverified c s w.event) w.event j := by
    unfold processUnverified
    refine Gossip.fold_counted (m := (ch, data)) hg _ { s with unv := upd s.unv w.event [] }
      (fun v hv => h.ci.unvEv _ v hv) hm (by show authIndex s.vals _ = _; rw [h.vals]; exact hj) hc ?_ (Or.inl hu)
    intro hs
    obtain ⟨i, h1, h2⟩ := h.seen w.event w.auth hs
    rw [hj] at h1
    cases h1
    exact h2
  rcases tryMakeProof_cases c s w.event with ⟨h0, _⟩ | ⟨m, hm', ⟨_, e1⟩ | ⟨hcs, e1⟩⟩
  · rw [hm] at h0; cases h0
  · rw [e1]; exact Or.inr (Or.inl ⟨by rw [hf.evMeta]; exact hm, hh⟩)
  · rw [e1]; exact Or.inl (markComplete_completed hk.ci (consensus_open h.ci h.pos hw hcs) (Or.inl rfl))

/-- A genuine vote that arrives is not lost. -/
theorem arrive_D {s : St} (h : K V e ch data s) {w : Wit} {j : Nat} (hwe : w.event = e) (hg : Genuine c w ch data)
    (hj : authIndex V w.auth = some j) : D e ch data w j (handleWitness c s w) := by
  subst hwe
  by_cases hc : isCompleted s w.event
  · exact handleWitness_D h w (Or.inl hc)
  rcases h.req with hm | hm
  · have hfin : w.event ∉ s.finalised := fun hf => (h.fin hf).elim (fun h1 => h1 hm) hc
    have hn : note c s w = .ok { s with unv := upd s.unv w.event (s.unv w.event ++ [w]) } := by
      simp only [note, bind_ok, ensure_ok]
      refine ⟨(), hc, (), by rw [h.known _ hm]; exact List.not_mem_nil, ?_⟩
      rw [hm]
    unfold handleWitness
    rw [hn]
    refine tryMakeProof_D (note_K h hn) (fun hx => absurd hx hc) (Or.inr (Or.inr ⟨hfin, ?_⟩))
    show w ∈ upd s.unv w.event _ w.event
    rw [upd_same]
    exact List.mem_append_right _ List.mem_cons_self
  · by_cases hs : w.auth ∈ s.seen w.event
    · obtain ⟨i, h1, h2⟩ := h.seen w.event w.auth hs
      rw [hj] at h1
      cases h1
      exact handleWitness_D h w (Or.inr (Or.inl ⟨hm, h2⟩))
    · obtain ⟨s1, hn, hh⟩ := note_genuine hm hg (by rw [h.vals]; exact hj) hc hs
      have hf := note_frame hn
      unfold handleWitness
      rw [hn]
      refine tryMakeProof_D (note_K h hn) (fun hx => absurd ((hf.isCompleted _).mp hx) hc)
        (Or.inr (Or.inl ⟨by rw [hf.evMeta]; exact hm, hh⟩))

theorem step_D {s s' : St} {op : Op} (h : K V e ch data s) (ho : Usual c V e ch data op) {w : Wit} {j : Nat}
    (hwe : w.event = e) (hg : Genuine c w ch data) (hj : authIndex V w.auth = some j) (hd : D e ch data w j s)
    (hs : step c s op = .ok s') : D e ch data w j s' := by
  cases op with
  | finalPassive x ch' data' =>
    have ho' : x = e → ch' = ch ∧ data' = data := ho
    simp only [step, bind_ok, ensure_ok, pure_ok] at hs
    obtain ⟨_, hn, rfl⟩ := hs
    have hk := noteMeta_K h ho'
    have hwx : isCompleted (noteMeta { s with finalised := x :: s.finalised } x ch' data') x →
        (noteMeta { s with finalised := x :: s.finalised } x ch' data').wit x = [] := fun _ => (h.ci.fresh x hn).2
    by_cases hx : x = e
    · subst hx
      have hm0 := (h.ci.fresh x hn).1
      rcases hd with hd | ⟨hm, _⟩ | ⟨_, hu⟩
      · exact tryMakeProof_D hk hwx (Or.inl hd)
      · rw [hm0] at hm; cases hm
      · refine stored_D hk hwe hg hj ?_ hwx hu
        rcases hk.req with h1 | h1
        · rcases hk.fin List.mem_cons_self with h2 | h2
          · exact absurd h1 h2
          · change upd s.evMeta x _ x = none at h1
            rw [upd_same] at h1; cases h1
        · exact h1
    · refine tryMakeProof_D hk hwx ?_
      rcases hd with hd | ⟨hm, hh⟩ | ⟨hf, hu⟩
      · exact Or.inl hd
      · refine Or.inr (Or.inl ⟨?_, hh⟩)
        show upd s.evMeta x _ e = _
        rw [upd_ne _ _ (Ne.symm hx)]; exact hm
      · refine Or.inr (Or.inr ⟨?_, hu⟩)
        intro hm
        rcases List.mem_cons.mp hm with hm | hm
        · exact hx hm.symm
        · exact hf hm
  | finalActive x ch' data' a sig =>
    obtain ⟨ho', d, i, hdg, hsig, hi⟩ := ho
    simp only [step, bind_ok, ensure_ok] at hs
    obtain ⟨_, hn, hs⟩ := hs
    rw [hdg] at hs
    simp only [pure_ok] at hs
    subst hs
    have hk := noteMeta_K h ho'
    by_cases hx : x = e
    · subst hx
      obtain ⟨rfl, rfl⟩ := ho' rfl
      have hm0 := (h.ci.fresh x hn).1
      have hm1 : (noteMeta { s with finalised := x :: s.finalised } x ch' data').evMeta x = some (ch', data') := by
        rcases hk.req with h1 | h1
        · change upd s.evMeta x _ x = none at h1
          rw [upd_same] at h1; cases h1
        · exact h1
      rcases hd with hd | ⟨hm, _⟩ | ⟨_, hu⟩
      · exact handleWitness_D hk _ (Or.inl hd)
      · rw [hm0] at hm; cases hm
      · by_cases hc : isCompleted s x
        · exact handleWitness_D hk _ (Or.inl hc)
        obtain ⟨s2, hn2, _⟩ := note_genuine (c := c) (w := ⟨x, a, d, sig⟩) hm1 ⟨hdg, hsig⟩
          (by rw [hk.vals]; exact hi) hc (by
            show a ∉ s.seen x
            rw [h.known x hm0]; exact List.not_mem_nil)
        have hf := note_frame hn2
        unfold handleWitness
        rw [hn2]
        refine stored_D (note_K hk hn2) hwe hg hj (by rw [hf.evMeta]; exact hm1)
          (fun hx => absurd ((hf.isCompleted x).mp hx) hc) ?_
        obtain ⟨_, _, ⟨h0, _⟩ | ⟨m, k, _, _, _, _, rfl⟩⟩ := note_ok hn2
        · rw [hm1] at h0; cases h0
        · exact hu
    · refine handleWitness_D hk _ ?_
      rcases hd with hd | ⟨hm, hh⟩ | ⟨hf, hu⟩
      · exact Or.inl hd
      · refine Or.inr (Or.inl ⟨?_, hh⟩)
        show upd s.evMeta x _ e = _
        rw [upd_ne _ _ (Ne.symm hx)]; exact hm
      · refine Or.inr (Or.inr ⟨?_, hu⟩)
        intro hm
        rcases List.mem_cons.mp hm with hm | hm
        · exact hx hm.symm
        · exact hf hm
  | gossip v => cases hs; exact handleWitness_D h v hd
  | setVals vals thr xvals xthr => exact ho.elim

/-! ## Whole histories -/

theorem exec_K : ∀ (ops : List Op) {s : St}, K V e ch data s → (∀ op ∈ ops, Usual c V e ch data op) →
    K V e ch data (exec c s ops)
  | [], _, h, _ => h
  | op :: ops, s, h, ho => by
    unfold exec
    refine exec_K ops ?_ (fun o hm => ho o (List.mem_cons_of_mem _ hm))
    cases hs : step c s op with
    | ok s1 => exact step_K h (ho op List.mem_cons_self) hs
    | error _ => exact h

theorem exec_D {w : Wit} {j : Nat} (hwe : w.event = e) (hg : Genuine c w ch data) (hj : authIndex V w.auth = some j) :
    ∀ (ops : List Op) {s : St}, K V e ch data s → (∀ op ∈ ops, Usual c V e ch data op) →
    D e ch data w j s ∨ Op.gossip w ∈ ops → D e ch data w j (exec c s ops)
  | [], _, _, _, hd => by
    rcases hd with hd | hd
    · exact hd
    · cases hd
  | op :: ops, s, h, ho, hd => by
    unfold exec
    have hop := ho op List.mem_cons_self
    have hk : K V e ch data (keep s (step c s op)) := by
      cases hs : step c s op with
      | ok s1 => exact step_K h hop hs
      | error _ => exact h
    refine exec_D hwe hg hj ops hk (fun o hm => ho o (List.mem_cons_of_mem _ hm)) ?_
    rcases hd with hd | hd
    · left
      cases hs : step c s op with
      | ok s1 => exact step_D h hop hwe hg hj hd hs
      | error _ => exact hd
    · rcases List.mem_cons.mp hd with rfl | hd
      · exact Or.inl (arrive_D h hwe hg hj)
      · exact Or.inr hd

end

theorem handleWitness_finalised {c : Cfg} {s : St} (w : Wit) : (handleWitness c s w).finalised = s.finalised := by
  unfold handleWitness
  split
  · rename_i s1 hn
    have hf := note_frame hn
    have hf2 := processUnverified_frame (c := c) s1 w.event
    rcases tryMakeProof_cases c s1 w.event with ⟨_, e1⟩ | ⟨m, hm, ⟨_, e1⟩ | ⟨hc, e1⟩⟩ <;> rw [e1]
    · exact hf.finalised
    · exact hf2.finalised.trans hf.finalised
    · exact hf2.finalised.trans hf.finalised
  · rfl

theorem tryMakeProof_finalised {c : Cfg} {s : St} (x : Nat) : (tryMakeProof c s x).finalised = s.finalised := by
  have hf2 := processUnverified_frame (c := c) s x
  rcases tryMakeProof_cases c s x with ⟨_, e1⟩ | ⟨m, hm, ⟨_, e1⟩ | ⟨hc, e1⟩⟩ <;> rw [e1]
  · exact hf2.finalised
  · exact hf2.finalised

theorem keep_finalised {c : Cfg} {s : St} {e : Nat} (op : Op) (h : e ∈ s.finalised) :
    e ∈ (keep s (step c s op)).finalised := by
  cases hs : step c s op with
  | error _ => exact h
  | ok s1 =>
    show e ∈ s1.finalised
    cases op with
    | finalPassive x ch' data' =>
      simp only [step, bind_ok, ensure_ok, pure_ok] at hs
      obtain ⟨_, _, rfl⟩ := hs
      rw [tryMakeProof_finalised]; exact List.mem_cons_of_mem _ h
    | finalActive x ch' data' a sig =>
      simp only [step, bind_ok, ensure_ok] at hs
      obtain ⟨_, _, hs⟩ := hs
      split at hs <;> simp only [pure_ok] at hs <;> subst hs
      · exact List.mem_cons_of_mem _ h
      · rw [handleWitness_finalised]; exact List.mem_cons_of_mem _ h
    | gossip w => cases hs; rw [handleWitness_finalised]; exact h
    | setVals vals thr xvals xthr => cases hs; exact h

theorem asks_finalised {c : Cfg} {s : St} {e : Nat} {ch : Chain} {data : Nat} {op : Op} (h : Asks e ch data op) :
    e ∈ (keep s (step c s op)).finalised := by
  by_cases hm : e ∈ s.finalised
  · exact keep_finalised op hm
  rcases h with rfl | ⟨a, sig, rfl⟩
  · have : step c s (.finalPassive e ch data) =
        .ok (tryMakeProof c (noteMeta { s with finalised := e :: s.finalised } e ch data) e) := by
      simp only [step, bind_ok, ensure_ok, pure_ok]
      exact ⟨(), hm, trivial⟩
    rw [this]
    show e ∈ (tryMakeProof c _ e).finalised
    rw [tryMakeProof_finalised]; exact List.mem_cons_self
  · cases hd : c.digestOf ch data a with
    | none =>
      have : step c s (.finalActive e ch data a sig) = .ok { s with finalised := e :: s.finalised } := by
        simp only [step, bind_ok, ensure_ok]
        refine ⟨(), hm, ?_⟩
        rw [hd]; rfl
      rw [this]; exact List.mem_cons_self
    | some d =>
      have : step c s (.finalActive e ch data a sig) =
          .ok (handleWitness c (noteMeta { s with finalised := e :: s.finalised } e ch data) ⟨e, a, d, sig⟩) := by
        simp only [step, bind_ok, ensure_ok]
        refine ⟨(), hm, ?_⟩
        rw [hd]; rfl
      rw [this]
      show e ∈ (handleWitness c _ _).finalised
      rw [handleWitness_finalised]; exact List.mem_cons_self

theorem exec_finalised {c : Cfg} {e : Nat} {ch : Chain} {data : Nat} : ∀ (ops : List Op) {s : St},
    e ∈ s.finalised ∨ (∃ op ∈ ops, Asks e ch data op) → e ∈ (exec c s ops).finalised
  | [], _, h => by
    rcases h with h | ⟨_, h, _⟩
    · exact h
    · cases h
  | op :: ops, s, h => by
    unfold exec
    refine exec_finalised (ch := ch) (data := data) ops ?_
    rcases h with h | ⟨o, ho, ha⟩
    · exact Or.inl (keep_finalised op h)
    · rcases List.mem_cons.mp ho with rfl | ho
      · exact Or.inl (asks_finalised ha)
      · exact Or.inr ⟨o, ho, ha⟩

/-- The sets of a node do not change in such a history. -/
theorem exec_sets {c : Cfg} {V : List Nat} {e : Nat} {ch : Chain} {data : Nat} {ops : List Op} {s : St} (g : Genesis s)
    (ho : ∀ op ∈ ops, Usual c V e ch data op) : Sets s.vals s.thr s.xvals s.xthr (exec c s ops) := by
  refine (reach_fixed (c := c) (exec_reach ops (.init g ⟨rfl, rfl, rfl, rfl⟩) ?_)).1
  intro op h
  have := ho op h
  cases op <;> trivial

/-- C269, part: while the validators do not change, in whatever order the request of an event and genuine votes
of as many different validators as needed are delivered, among any other votes and requests, at the end the
proof was made. The event must not be taken for completed without a proof (see
`Verif.Witness.C20_incomplete_rejected_refuted`). Missing: changes of validators. -/
theorem C269_delivered_partial {c : Cfg} {s : St} (g : Genesis s) (hp : PosSt s) {e data n : Nat} {ch : Chain}
    {ops : List Op} (ho : ∀ op ∈ ops, Usual c s.vals e ch data op) (hr : ∃ op ∈ ops, Asks e ch data op)
    (hn : Needed s ch n) {L : List Nat} (hL : L.Nodup) (hl : n ≤ L.length)
    (hv : ∀ j ∈ L, Counts s ch j ∧
      ∃ w, Op.gossip w ∈ ops ∧ w.event = e ∧ Genuine c w ch data ∧ authIndex s.vals w.auth = some j)
    (hq : isCompleted (exec c s ops) e → e ∈ (exec c s ops).done) :
    ∃ p ∈ (exec c s ops).proofs, p.event = e ∧ p.chain = ch ∧ p.data = data := by
  have hfix : ReachP c FixedOp PosSt (exec c s ops) := by
    refine exec_reach ops (.init g hp) ?_
    intro op h
    have := ho op h
    cases op <;> trivial
  have hs0 : K s.vals e ch data s := by
    refine ⟨(reach_CI (.init g hp : ReachP c PosOp PosSt s)).1, hp, rfl, Or.inl (g.evMeta e), ?_, ?_, ?_, ?_⟩
    · intro p hm; rw [g.proofs] at hm; cases hm
    · intro x a ha; rw [g.seen] at ha; cases ha
    · intro hm; rw [g.finalised] at hm; cases hm
    · intro x _; exact g.seen x
  have hk := exec_K ops hs0 ho
  have hsets := exec_sets g ho
  by_cases hc : isCompleted (exec c s ops) e
  · have := hq hc
    rw [← hk.ci.made] at this
    obtain ⟨p, h1, h2⟩ := List.mem_map.mp this
    exact ⟨p, h1, h2, hk.made p h1 h2⟩
  · exfalso
    have hfin := exec_finalised (c := c) ops (s := s) (Or.inr hr)
    have hm : (exec c s ops).evMeta e = some (ch, data) := by
      rcases hk.req with h1 | h1
      · rcases hk.fin hfin with h2 | h2
        · exact absurd h1 h2
        · exact absurd h2 hc
      · exact h1
    refine reach_waiting hfix e (ch, data) hm (enough hL (n := n) ?_ hl ?_)
    · unfold Needed at hn ⊢
      rw [hsets.thr, hsets.xthr]; exact hn
    · intro j hj
      obtain ⟨hcnt, w, hw, hwe, hg, hi⟩ := hv j hj
      refine ⟨?_, ?_⟩
      · rcases exec_D hwe hg hi ops hs0 ho (Or.inr hw) with h1 | ⟨_, h1⟩ | ⟨h1, _⟩
        · exact absurd h1 hc
        · exact h1
        · exact absurd hfin h1
      · unfold Counts at hcnt ⊢
        rw [hsets.vals, hsets.xvals]; exact hcnt

/-- A false vote, a vote for the XRP Ledger, the request seen by a node that signs as validator 100 (no signer
there), another event's vote, and the second vote of a signer. -/
def mixedOps : List Op :=
  [.gossip ⟨9, 200, 50, 1⟩, .gossip (sgn 9 50 300), .finalActive 9 .xrpl 50 100 150, .gossip (sgn 8 50 200),
   .gossip (sgn 9 50 300), .gossip (sgn 9 50 400)]

example : ∃ p ∈ (exec cfg0 g0 mixedOps).proofs, p.event = 9 ∧ p.chain = .xrpl ∧ p.data = 50 := by
  refine C269_delivered_partial genesis_g0 ⟨by decide, by decide⟩ (n := 2) (L := [2, 3]) ?_
    ⟨.finalActive 9 .xrpl 50 100 150, by decide, Or.inr ⟨100, 150, rfl⟩⟩ rfl (by decide) (by decide) ?_
    (fun _ => by decide +kernel)
  · intro op h
    simp only [mixedOps, List.mem_cons, List.not_mem_nil, or_false] at h
    rcases h with rfl | rfl | rfl | rfl | rfl | rfl <;> first
      | trivial
      | exact ⟨fun _ => ⟨rfl, rfl⟩, 50, 0, rfl, rfl, by decide +kernel⟩
  · intro j hj
    simp only [List.mem_cons, List.not_mem_nil, or_false] at hj
    rcases hj with rfl | rfl
    · exact ⟨⟨300, by decide +kernel, by decide +kernel⟩, sgn 9 50 300, by decide, rfl, ⟨rfl, by decide⟩, by decide +kernel⟩
    · exact ⟨⟨400, by decide +kernel, by decide +kernel⟩, sgn 9 50 400, by decide, rfl, ⟨rfl, by decide⟩, by decide +kernel⟩

end Verif.Prompt
