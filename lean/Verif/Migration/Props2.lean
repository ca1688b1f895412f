import Verif.Migration.Props

/-!
# C137 and C138: weight of a migration, and migrations one after the other; examples for C135 and C136
-/

namespace Verif.Migration

variable {σ : Type}

/-! ## A migration to look at

The storage is a version and a list of items. Migration `v` sets each item to `v`, one per step, the key being
the number of items done, and then sets the version. -/

namespace Demo

def pos : Option Key → Nat
  | some [i] => i
  | _ => 0

def mig (v : Nat) : Mig (Nat × List Nat) where
  uptodate := fun d => decide (v ≤ d.1)
  complete := fun d => (v, d.2)
  maxStep := ⟨50, 50⟩
  step := fun d l =>
    if pos l < d.2.length then ((d.1, d.2.set (pos l) v), ⟨50, 50⟩, some [pos l + 1])
    else (d, ⟨50, 50⟩, none)

def cfg : Cfg where
  maxWeight := ⟨200, 200⟩
  base := ⟨10, 10⟩

def genesis : World (Nat × List Nat) where
  mig := noop _
  st := {
    data := (0, [0, 0, 0])
    enabled := true
    status := .idle
    last := none
    delay := none
    limit := 100 }

/-- The runtime with the first migration has arrived. -/
def start : World (Nat × List Nat) := exec cfg genesis [.upgrade (mig 1)]

end Demo

/-! ## Examples for C135 and C136 -/

theorem exec_during {c : Cfg} {w0 : World σ} : ∀ (ops : List (Op σ)) {w : World σ} {g : Nat},
    During c (fun _ _ => False) w0 g w →
    (∀ op ∈ ops, ∀ m', op ≠ .upgrade m') →
    (∀ k, k < ops.length → inProgress (exec c w (ops.take k)).st = true) →
    During c (fun _ _ => False) w0 g (exec c w ops)
  | [], _, _, h, _, _ => h
  | op :: ops, w, g, h, hn, hk => by
    have h0 : inProgress w.st = true := hk 0 (by simp)
    have hrest : ∀ k, k < ops.length →
        inProgress (exec c (after w (step c w op)) (ops.take k)).st = true := by
      intro k hlt
      have := hk (k + 1) (by simp; omega)
      simpa only [List.take_succ_cons, exec] using this
    show During c _ w0 g (exec c (after w (step c w op)) ops)
    refine exec_during ops ?_ (fun o ho => hn o (List.mem_cons_of_mem _ ho)) hrest
    cases hs : step c w op with
    | ok w1 => exact h.step h0 (fun m' e => absurd e (hn op List.mem_cons_self m')) hs
    | error _ => exact h

/-- The demonstration migration leaves the version alone until it is completed. -/
theorem Demo.version {v : Nat} {d d' : Nat × List Nat} {l l' : Option Key} {n : Nat} (h : Part (Demo.mig v) d l n d' l') :
    d'.1 = d.1 := by
  induction h with
  | zero => rfl
  | next e _ ih =>
    rw [ih]
    simp only [Demo.mig] at e
    split at e
    · exact (congrArg Prod.fst (Prod.mk.inj e).1).symm
    · exact (congrArg Prod.fst (Prod.mk.inj e).1).symm

def slow : List (Op (Nat × List Nat)) :=
  [.setLimit 1, .block 1 ⟨100, 100⟩, .enable false, .block 2 ⟨900, 900⟩, .guarded (fun _ => .ok (7, [])), .setDelay (some 2),
   .enable true, .block 3 ⟨900, 900⟩, .block 4 ⟨5, 5⟩, .block 6 ⟨900, 900⟩, .block 8 ⟨60, 70⟩, .setLimit 9, .block 10 ⟨60, 60⟩]

def quick : List (Op (Nat × List Nat)) := [.block 1 ⟨900, 900⟩]

/-- A slow and a quick schedule of the same migration: both meet the conditions of `C135_same`, with the same
result; halfway through the slow one, one item is done and a guarded call was refused. -/
example :
    During Demo.cfg (fun _ _ => False) Demo.start 0 (exec Demo.cfg Demo.start slow) ∧
    During Demo.cfg (fun _ _ => False) Demo.start 0 (exec Demo.cfg Demo.start quick) ∧
    Demo.start.st.status = .inProgress 0 ∧ Demo.start.st.last = none ∧
    (∀ n d l, Part Demo.start.mig Demo.start.st.data none n d l → Demo.start.mig.uptodate d = false) ∧
    (exec Demo.cfg Demo.start (slow.take 7)).st.data = (0, [1, 0, 0]) ∧
    (exec Demo.cfg Demo.start (slow.take 7)).st.status = .inProgress 1 ∧
    (exec Demo.cfg Demo.start slow).st.status = .completed ∧
    (exec Demo.cfg Demo.start slow).st.data = (1, [1, 1, 1]) ∧
    (exec Demo.cfg Demo.start quick).st.status = .completed ∧
    (exec Demo.cfg Demo.start quick).st.data = (1, [1, 1, 1]) := by
  refine ⟨exec_during slow .refl ?_ ?_, exec_during quick .refl ?_ ?_, rfl, rfl, ?_, ?_⟩
  · intro op h m' e
    subst e
    simp [slow] at h
  · decide +kernel
  · intro op h m' e
    subst e
    simp [quick] at h
  · decide +kernel
  · intro n d l h
    have hv : d.1 = 0 := Demo.version (v := 1) h
    show decide (1 ≤ d.1) = false
    rw [hv]; rfl
  · decide +kernel

theorem Demo.roomy {w : World (Nat × List Nat)} (n : Nat) (hm : w.mig.maxStep = ⟨50, 50⟩) (he : w.st.enabled = true)
    (hd : w.st.delay = none) : Roomy Demo.cfg w (.block n ⟨60, 60⟩) := by
  refine ⟨he, fun d h => absurd (hd.symm.trans h) (by simp), ?_⟩
  rw [hm]
  decide

/-- The demonstration migration takes four steps, and there is a history with four roomy blocks. -/
example : Whole (Demo.mig 1) (0, [0, 0, 0]) none 4 (0, [1, 1, 1]) ∧
    (let w := exec Demo.cfg Demo.start [.setLimit 1]
     During Demo.cfg (Roomy Demo.cfg) w 4 (exec Demo.cfg w [.block 1 ⟨60, 60⟩, .block 2 ⟨60, 60⟩, .block 3 ⟨60, 60⟩,
       .block 4 ⟨60, 60⟩])) := by
  refine ⟨.next (x := [1]) rfl (.next (x := [2]) rfl (.next (x := [3]) rfl (.last rfl))), ?_⟩
  exact .good (op := .block 4 ⟨60, 60⟩) (.good (op := .block 3 ⟨60, 60⟩) (.good (op := .block 2 ⟨60, 60⟩)
    (.good (op := .block 1 ⟨60, 60⟩) .refl (by decide +kernel) (Demo.roomy _ rfl rfl rfl) rfl)
    (by decide +kernel) (Demo.roomy _ rfl rfl rfl) rfl)
    (by decide +kernel) (Demo.roomy _ rfl rfl rfl) rfl)
    (by decide +kernel) (Demo.roomy _ rfl rfl rfl) rfl

/-- A paused migration rests: a block does nothing until root switches migrations on again. -/
theorem C135_paused (c : Cfg) (m : Mig σ) (s : St σ) (block : Nat) (r : W) (h : s.enabled = false) :
    (migrate c m s block r).1 = s := by
  unfold migrate
  simp only
  split
  · rfl
  · split
    · rfl
    · rfl

/-- The delay between blocks with migration steps is never zero (a division by zero in every block) and the limit
of steps is never zero. -/
theorem C136_delay {c : Cfg} {w0 w : World σ} (h0 : Genesis w0) (h : Reach c w0 w) :
    (∀ d, w.st.delay = some d → 1 < d) ∧ 0 < w.st.limit := by
  induction h with
  | refl => exact ⟨fun d hd => absurd (h0.delay.symm.trans hd) (by simp), by rw [h0.limit]; decide⟩
  | step _ hs ih =>
    refine ⟨?_, limit_step ih.2 hs⟩
    rename_i w1 w2 op _
    cases op with
    | block b r =>
      simp only [Migration.step, Except.ok.injEq] at hs
      subst hs
      have : (migrate c w1.mig w1.st b r).1.delay = w1.st.delay := by
        unfold migrate
        simp only
        repeat' split
        all_goals rfl
      show ∀ d, (migrate c w1.mig w1.st b r).1.delay = some d → 1 < d
      rw [this]; exact ih.1
    | enable b =>
      simp only [Migration.step, Except.ok.injEq] at hs
      subst hs
      exact ih.1
    | setDelay d =>
      simp only [Migration.step, setDelay, bind_ok, ensure_ok, pure_ok] at hs
      obtain ⟨_, ⟨_, hd, rfl⟩, rfl⟩ := hs
      exact hd
    | setLimit d =>
      simp only [Migration.step, setLimit, bind_ok, ensure_ok, pure_ok] at hs
      obtain ⟨_, ⟨_, hd, rfl⟩, rfl⟩ := hs
      exact ih.1
    | guarded f =>
      simp only [Migration.step, guarded, bind_ok, ensure_ok, pure_ok] at hs
      obtain ⟨_, ⟨_, _, _, _, rfl⟩, rfl⟩ := hs
      exact ih.1
    | upgrade m' =>
      simp only [Migration.step, Except.ok.injEq] at hs
      subst hs
      have : (upgrade m' w1.st).delay = w1.st.delay := by
        unfold upgrade
        repeat' split
        all_goals rfl
      show ∀ d, (upgrade m' w1.st).delay = some d → 1 < d
      rw [this]; exact ih.1

/-- A paused migration in progress with a delay set. -/
example : (exec Demo.cfg Demo.start (slow.take 6)).st.enabled = false ∧
    (exec Demo.cfg Demo.start (slow.take 6)).st.delay = some 2 ∧
    (exec Demo.cfg Demo.start (slow.take 6)).st.status = .inProgress 1 := by
  decide +kernel

/-! ## C137: the weight of a migration -/

theorem loop_weight {m : Mig σ} {lim : W} (hm : ∀ d l, (m.step d l).2.1.t ≤ m.maxStep.t ∧ (m.step d l).2.1.p ≤ m.maxStep.p) :
    ∀ {n : Nat} {d : σ} {l : Option Key} {u : W} {k : Nat},
    (loop m lim n d l u k).2.2.1 = u ∨
    ((loop m lim n d l u k).2.2.1.t < lim.t + m.maxStep.t ∧ (loop m lim n d l u k).2.2.1.p < lim.p + m.maxStep.p) := by
  intro n
  induction n with
  | zero => intro d l u k; exact .inl rfl
  | succ n ih =>
    intro d l u k
    unfold loop
    split
    · rename_i hu
      rw [allLt_iff] at hu
      have hw := hm d l
      have bound : ∀ w : W, w.t ≤ m.maxStep.t ∧ w.p ≤ m.maxStep.p →
          (u.add w).t < lim.t + m.maxStep.t ∧ (u.add w).p < lim.p + m.maxStep.p := by
        intro w ⟨h1, h2⟩
        constructor
        · show min (u.t + w.t) (U64 - 1) < _; omega
        · show min (u.p + w.p) (U64 - 1) < _; omega
      split
      · rename_i d1 w e
        rw [e] at hw
        exact .inr (bound w hw)
      · rename_i d1 w x e
        rw [e] at hw
        rcases ih (d := d1) (l := some x) (u := u.add w) (k := k + 1) with h | h
        · rw [h]; exact .inr (bound w hw)
        · exact .inr h
    · exact .inl rfl

/-- **C137**, what holds: a block uses at most its base weight, or less than the smaller of what remains and the
maximum for migrations plus one step. Missing: that it stays within what remains (`C137_refuted`). -/
theorem C137_weight_partial (c : Cfg) (m : Mig σ) (s : St σ) (block : Nat) (r : W)
    (hm : ∀ d l, (m.step d l).2.1.t ≤ m.maxStep.t ∧ (m.step d l).2.1.p ≤ m.maxStep.p) :
    (migrate c m s block r).2.t ≤ max c.base.t (min r.t c.maxWeight.t + m.maxStep.t) ∧
    (migrate c m s block r).2.p ≤ max c.base.p (min r.p c.maxWeight.p + m.maxStep.p) := by
  have z : ∀ x y : Nat, (0 : Nat) ≤ max x y := fun _ _ => Nat.zero_le _
  unfold migrate
  simp only
  split
  · exact ⟨z _ _, z _ _⟩
  · split
    · split
      · exact ⟨z _ _, z _ _⟩
      · split
        · exact ⟨z _ _, z _ _⟩
        · have h := loop_weight (lim := r.min c.maxWeight) hm (n := s.limit) (d := s.data) (l := s.last)
            (u := W.add ⟨0, 0⟩ c.base) (k := 0)
          generalize loop m (r.min c.maxWeight) s.limit s.data s.last (W.add ⟨0, 0⟩ c.base) 0 = x at h
          obtain ⟨d, l, u, n, fin⟩ := x
          have hu : u.t ≤ max c.base.t (min r.t c.maxWeight.t + m.maxStep.t) ∧
              u.p ≤ max c.base.p (min r.p c.maxWeight.p + m.maxStep.p) := by
            rcases h with h | ⟨h1, h2⟩
            · simp only at h
              subst h
              constructor
              · show min (0 + c.base.t) (U64 - 1) ≤ _; omega
              · show min (0 + c.base.p) (U64 - 1) ≤ _; omega
            · have e1 : u.t < min r.t c.maxWeight.t + m.maxStep.t := h1
              have e2 : u.p < min r.p c.maxWeight.p + m.maxStep.p := h2
              omega
          simp only
          split
          · exact hu
          · exact hu
    · exact ⟨z _ _, z _ _⟩

/-- Although no step weighs more than announced, a block uses more than what remains in it, and more than the
maximum set for migrations. -/
theorem C137_refuted : ∃ (c : Cfg) (m : Mig (Nat × List Nat)) (w : World (Nat × List Nat)) (r : W),
    Reach c Demo.genesis w ∧ w.mig = m ∧
    (∀ d l, (m.step d l).2.1.t ≤ m.maxStep.t ∧ (m.step d l).2.1.p ≤ m.maxStep.p) ∧
    r.t < (migrate c m w.st 1 r).2.t ∧ r.p < (migrate c m w.st 1 r).2.p ∧
    c.maxWeight.t < (migrate c m w.st 1 r).2.t := by
  refine ⟨Demo.cfg, Demo.mig 1, Demo.start, ⟨200, 200⟩, ?_, rfl, ?_, ?_, ?_, ?_⟩
  · exact .step (op := .upgrade (Demo.mig 1)) .refl rfl
  · intro d l
    simp only [Demo.mig]
    split <;> exact ⟨Nat.le_refl _, Nat.le_refl _⟩
  · decide +kernel
  · decide +kernel
  · decide +kernel

/-! ## C138: one migration after the other -/

/-- A history in which the runtime is never replaced while a migration is in progress. -/
inductive Calm (c : Cfg) : World σ → World σ → Prop where
  | refl {w : World σ} : Calm c w w
  | step {w w1 w2 : World σ} {op : Op σ} : Calm c w w1 →
      (∀ m', op = .upgrade m' → inProgress w1.st = false) → step c w1 op = .ok w2 → Calm c w w2

/-- **C138**, what holds: if the runtime is never replaced while a migration is in progress, every migration starts
at the beginning of the storage. Missing: the same for all histories (`C138_refuted`). -/
theorem C138_fresh_partial {c : Cfg} {w0 w : World σ} (h0 : Genesis w0) (h : Calm c w0 w)
    (hp : inProgress w.st = false) (m : Mig σ) : (upgrade m w.st).last = none := by
  have key : inProgress w.st = false → w.st.last = none := by
    clear hp
    induction h with
    | refl => intro _; exact h0.last
    | step _ hop hs ih =>
      rename_i w1 w2 op _
      intro hp
      cases op with
      | block b r =>
        simp only [Migration.step, Except.ok.injEq] at hs
        subst hs
        cases hi : inProgress w1.st with
        | true =>
          obtain ⟨k, hk⟩ := inProgress_iff.1 hi
          rcases migrate_spec c w1.mig w1.st b r hk with ⟨j, d, _, e2⟩ | ⟨j, d, l, _, e2⟩ | ⟨d, l, _, e2⟩
          · show (migrate c w1.mig w1.st b r).1.last = none
            rw [e2]
          · exfalso
            have : inProgress (migrate c w1.mig w1.st b r).1 = true := by rw [e2]; rfl
            rw [show inProgress (migrate c w1.mig w1.st b r).1 = false from hp] at this
            cases this
          · exfalso
            have : inProgress (migrate c w1.mig w1.st b r).1 = true := by rw [e2]; rfl
            rw [show inProgress (migrate c w1.mig w1.st b r).1 = false from hp] at this
            cases this
        | false =>
          have : (migrate c w1.mig w1.st b r).1 = w1.st := by
            unfold migrate
            simp only
            split
            · rfl
            · split
              · rename_i k hk
                have := inProgress_iff.2 ⟨k, hk⟩
                rw [hi] at this
                cases this
              · rfl
          show (migrate c w1.mig w1.st b r).1.last = none
          rw [this]
          exact ih hi
      | enable b =>
        simp only [Migration.step, Except.ok.injEq] at hs
        subst hs
        exact ih hp
      | setDelay d =>
        simp only [Migration.step, setDelay, bind_ok, ensure_ok, pure_ok] at hs
        obtain ⟨_, ⟨_, _, rfl⟩, rfl⟩ := hs
        exact ih hp
      | setLimit d =>
        simp only [Migration.step, setLimit, bind_ok, ensure_ok, pure_ok] at hs
        obtain ⟨_, ⟨_, hd, rfl⟩, rfl⟩ := hs
        exact ih hp
      | guarded f =>
        simp only [Migration.step, guarded, bind_ok, ensure_ok, pure_ok] at hs
        obtain ⟨_, ⟨_, _, _, _, rfl⟩, rfl⟩ := hs
        exact ih hp
      | upgrade m' =>
        simp only [Migration.step, Except.ok.injEq] at hs
        subst hs
        have : (upgrade m' w1.st).last = w1.st.last := by
          unfold upgrade
          repeat' split
          all_goals rfl
        show (upgrade m' w1.st).last = none
        rw [this]
        exact ih (hop m' rfl)
  have : (upgrade m w.st).last = w.st.last := by
    unfold upgrade
    repeat' split
    all_goals rfl
  rw [this]
  exact key hp

theorem exec_reach {c : Cfg} {w0 : World σ} : ∀ (ops : List (Op σ)) {w : World σ}, Reach c w0 w → Reach c w0 (exec c w ops)
  | [], _, h => h
  | op :: ops, w, h => by
    unfold exec
    refine exec_reach ops ?_
    cases hs : step c w op with
    | ok w1 => exact h.step hs
    | error _ => exact h

/-- The runtime is replaced by one without a migration while the first one is halfway, and later by one with a
second migration: that one begins where the first was, is declared completed, and never touches the first
item. -/
theorem C138_refuted : ∃ (c : Cfg) (w w1 : World (Nat × List Nat)) (k : Key),
    Reach c Demo.genesis w ∧ w.mig = Demo.mig 2 ∧ w.st.status = .inProgress 0 ∧ w.st.last = some k ∧
    Reach c w w1 ∧ w1.st.status = .completed ∧ w1.st.data = (2, [1, 2, 2]) ∧
    Whole (Demo.mig 2) w.st.data none 4 (0, [2, 2, 2]) := by
  refine ⟨Demo.cfg,
    exec Demo.cfg Demo.genesis [.upgrade (Demo.mig 1), .setLimit 1, .block 1 ⟨900, 900⟩, .upgrade (noop _), .upgrade (Demo.mig 2)],
    exec Demo.cfg (exec Demo.cfg Demo.genesis
      [.upgrade (Demo.mig 1), .setLimit 1, .block 1 ⟨900, 900⟩, .upgrade (noop _), .upgrade (Demo.mig 2)])
      [.setLimit 9, .block 2 ⟨900, 900⟩],
    [1], exec_reach _ .refl, rfl, ?_, ?_, exec_reach _ .refl, ?_, ?_, ?_⟩
  · decide +kernel
  · decide +kernel
  · decide +kernel
  · decide +kernel
  · exact .next (x := [1]) rfl (.next (x := [2]) rfl (.next (x := [3]) rfl (.last rfl)))

/-- Two migrations, each in full, with a quiet upgrade in between. -/
example : Genesis Demo.genesis ∧
    inProgress (exec Demo.cfg Demo.start quick).st = false ∧
    (exec Demo.cfg (exec Demo.cfg Demo.start quick) [.upgrade (Demo.mig 2), .block 2 ⟨900, 900⟩]).st.data = (2, [2, 2, 2]) :=
  ⟨⟨rfl, rfl, rfl, rfl⟩, by decide +kernel, by decide +kernel⟩

end Verif.Migration
