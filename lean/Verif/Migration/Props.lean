import Verif.Migration.Model

/-!
# C135 to C138: multi-block migrations

Specification: `Part` and `Whole` say what it means to carry out a migration step by step in one go, without
blocks, delays, limits or pauses.
-/

namespace Verif.Migration

variable {σ : Type}

/-! ## Specification -/

/-- `n` steps that are not the last one lead from storage `d` and key `l` to `d'` and `l'`. -/
inductive Part (m : Mig σ) : σ → Option Key → Nat → σ → Option Key → Prop where
  | zero {d : σ} {l : Option Key} : Part m d l 0 d l
  | next {d d1 d2 : σ} {l l2 : Option Key} {w : W} {x : Key} {n : Nat} :
      m.step d l = (d1, w, some x) → Part m d1 (some x) n d2 l2 → Part m d l (n + 1) d2 l2

/-- The migration, taken up at storage `d` and key `l`, is over after exactly `n` more steps and leaves `d'`. -/
inductive Whole (m : Mig σ) : σ → Option Key → Nat → σ → Prop where
  | last {d d1 : σ} {l : Option Key} {w : W} : m.step d l = (d1, w, none) → Whole m d l 1 d1
  | next {d d1 d2 : σ} {l : Option Key} {w : W} {x : Key} {n : Nat} :
      m.step d l = (d1, w, some x) → Whole m d1 (some x) n d2 → Whole m d l (n + 1) d2

/-- A history in which the migration `m` is in progress, up to the point where it is not any more. New runtimes
with the same migration are allowed. `g` counts the blocks that satisfy `Good`. -/
inductive During (c : Cfg) (Good : World σ → Op σ → Prop) : World σ → Nat → World σ → Prop where
  | refl {w : World σ} : During c Good w 0 w
  | step {w w1 w2 : World σ} {op : Op σ} {g : Nat} : During c Good w g w1 → inProgress w1.st = true →
      (∀ m', op = .upgrade m' → m' = w1.mig) → step c w1 op = .ok w2 → During c Good w g w2
  | good {w w1 w2 : World σ} {op : Op σ} {g : Nat} : During c Good w g w1 → inProgress w1.st = true →
      Good w1 op → step c w1 op = .ok w2 → During c Good w (g + 1) w2

/-- A block that leaves room for a step: migrations are on, it is not skipped, and the weight suffices. -/
def Roomy (c : Cfg) (w : World σ) : Op σ → Prop
  | .block n r => w.st.enabled = true ∧ (∀ d, w.st.delay = some d → n % d = 0) ∧
      (c.base.add w.mig.maxStep).t ≤ r.t ∧ (c.base.add w.mig.maxStep).p ≤ r.p ∧
      (c.base.add w.mig.maxStep).t ≤ c.maxWeight.t ∧ (c.base.add w.mig.maxStep).p ≤ c.maxWeight.p ∧
      c.base.t < r.t ∧ c.base.p < r.p ∧ c.base.t < c.maxWeight.t ∧ c.base.p < c.maxWeight.p
  | _ => False

/-! ## Lemmas -/

theorem allLt_iff {a b : W} : a.allLt b = true ↔ a.t < b.t ∧ a.p < b.p := by
  unfold W.allLt
  rw [Bool.and_eq_true, decide_eq_true_iff, decide_eq_true_iff]

theorem Whole.pos {m : Mig σ} {d d1 : σ} {l : Option Key} {n : Nat} (h : Whole m d l n d1) : 0 < n := by
  cases h <;> omega

theorem Whole.unique {m : Mig σ} {d d1 : σ} {l : Option Key} {n : Nat} (h : Whole m d l n d1) :
    ∀ {n' : Nat} {d2 : σ}, Whole m d l n' d2 → n = n' ∧ d1 = d2 := by
  induction h with
  | last e =>
    intro n' d2 h2
    cases h2 with
    | last e2 =>
      rw [e] at e2
      simp only [Prod.mk.injEq] at e2
      exact ⟨rfl, e2.1⟩
    | next e2 _ =>
      rw [e] at e2
      simp at e2
  | next e _ ih =>
    intro n' d2 h2
    cases h2 with
    | last e2 =>
      rw [e] at e2
      simp at e2
    | next e2 h3 =>
      rw [e] at e2
      simp only [Prod.mk.injEq, Option.some.injEq] at e2
      obtain ⟨rfl, _, rfl⟩ := e2
      obtain ⟨rfl, rfl⟩ := ih h3
      exact ⟨rfl, rfl⟩

theorem Part.trans {m : Mig σ} {d d1 d2 : σ} {l l1 l2 : Option Key} {a b : Nat} (h : Part m d l a d1 l1)
    (k : Part m d1 l1 b d2 l2) : Part m d l (a + b) d2 l2 := by
  induction h with
  | zero => simpa using k
  | next e _ ih =>
    have := Part.next e (ih k)
    rwa [Nat.add_right_comm] at this

theorem Part.whole {m : Mig σ} {d d1 d2 : σ} {l l1 : Option Key} {a b : Nat} (h : Part m d l a d1 l1)
    (k : Whole m d1 l1 b d2) : Whole m d l (a + b) d2 := by
  induction h with
  | zero => simpa using k
  | next e _ ih =>
    have := Whole.next e (ih k)
    rwa [Nat.add_right_comm] at this

/-- What is left after part of a whole. -/
theorem Part.rest {m : Mig σ} {d d1 d2 : σ} {l l1 : Option Key} {a : Nat} (h : Part m d l a d1 l1) :
    ∀ {n : Nat}, Whole m d l n d2 → ∃ b, n = a + b ∧ Whole m d1 l1 b d2 := by
  induction h with
  | zero => intro n k; exact ⟨n, by omega, k⟩
  | next e _ ih =>
    intro n k
    cases k with
    | last e2 => rw [e] at e2; simp at e2
    | next e2 k =>
      rw [e] at e2
      simp only [Prod.mk.injEq, Option.some.injEq] at e2
      obtain ⟨rfl, _, rfl⟩ := e2
      obtain ⟨b, rfl, hb⟩ := ih k
      exact ⟨b, by omega, hb⟩

theorem loop_spec {m : Mig σ} {lim : W} : ∀ {n : Nat} {d d' : σ} {l l' : Option Key} {u u' : W} {k k' : Nat} {fin : Bool},
    loop m lim n d l u k = (d', l', u', k', fin) →
    (fin = true ∧ l' = none ∧ ∃ j, k' = k + j ∧ Whole m d l j d') ∨
    (fin = false ∧ ∃ j, k' = k + j ∧ Part m d l j d' l' ∧ (0 < n → u.allLt lim = true → 0 < j)) := by
  intro n
  induction n with
  | zero =>
    intro d d' l l' u u' k k' fin h
    simp only [loop, Prod.mk.injEq] at h
    obtain ⟨rfl, rfl, rfl, rfl, rfl⟩ := h
    exact .inr ⟨rfl, 0, rfl, .zero, fun h => absurd h (by omega)⟩
  | succ n ih =>
    intro d d' l l' u u' k k' fin h
    unfold loop at h
    split at h
    · split at h
      · rename_i d1 w e
        simp only [Prod.mk.injEq] at h
        obtain ⟨rfl, rfl, rfl, rfl, rfl⟩ := h
        exact .inl ⟨rfl, rfl, 1, rfl, .last e⟩
      · rename_i d1 w x e
        rcases ih h with ⟨h1, h2, j, h3, h4⟩ | ⟨h1, j, h3, h4, _⟩
        · exact .inl ⟨h1, h2, j + 1, by omega, .next e h4⟩
        · exact .inr ⟨h1, j + 1, by omega, .next e h4, fun _ _ => by omega⟩
    · rename_i hu
      simp only [Prod.mk.injEq] at h
      obtain ⟨rfl, rfl, rfl, rfl, rfl⟩ := h
      exact .inr ⟨rfl, 0, rfl, .zero, fun _ h => absurd h hu⟩

/-- What a block does to a migration in progress. -/
theorem migrate_spec (c : Cfg) (m : Mig σ) (s : St σ) (block : Nat) (r : W) {k : Nat} (hs : s.status = .inProgress k) :
    (∃ j d, Whole m s.data s.last j d ∧ (migrate c m s block r).1 = { s with
        data := m.complete d
        status := .completed
        last := none }) ∨
    (∃ j d l, Part m s.data s.last j d l ∧ (migrate c m s block r).1 = { s with
        data := d
        status := .inProgress (if j = 0 then k else satAdd k j)
        last := l }) ∨
    (∃ d l, Part m s.data s.last 0 d l ∧ (migrate c m s block r).1 = { s with
        data := d
        status := .inProgress (satAdd k 0)
        last := l }) := by
  have same : ∃ j d l, Part m s.data s.last j d l ∧ s = { s with
        data := d
        status := .inProgress (if j = 0 then k else satAdd k j)
        last := l } := ⟨0, s.data, s.last, .zero, by rw [if_pos rfl, ← hs]⟩
  unfold migrate
  simp only
  split
  · exact .inr (.inl same)
  · rw [hs]
    simp only
    split
    · exact .inr (.inl same)
    · split
      · exact .inr (.inl same)
      · generalize hl : loop m (r.min c.maxWeight) s.limit s.data s.last (W.add ⟨0, 0⟩ c.base) 0 = x
        obtain ⟨d, l, u, n, fin⟩ := x
        simp only
        rcases loop_spec hl with ⟨rfl, rfl, j, _, h⟩ | ⟨rfl, j, hj, h, _⟩
        · exact .inl ⟨j, d, h, by rw [if_pos rfl]⟩
        · rw [if_neg (by simp)]
          by_cases h0 : j = 0
          · subst h0
            exact .inr (.inr ⟨d, l, h, by rw [hj, Nat.zero_add]⟩)
          · exact .inr (.inl ⟨j, d, l, h, by rw [hj, Nat.zero_add, if_neg h0]⟩)

/-- Where a migration stands that started with storage `d0`. -/
def Stands (m : Mig σ) (d0 : σ) (w : World σ) : Prop :=
  w.mig = m ∧
  ((∃ n, w.st.status = .inProgress (Nat.min n (U32 - 1)) ∧ Part m d0 none n w.st.data w.st.last) ∨
   (∃ n d1, w.st.status = .completed ∧ w.st.last = none ∧ Whole m d0 none n d1 ∧ w.st.data = m.complete d1))

theorem inProgress_iff {s : St σ} : inProgress s = true ↔ ∃ k, s.status = .inProgress k := by
  unfold inProgress
  split <;> simp_all

theorem satAdd_min (n j : Nat) : satAdd (Nat.min n (U32 - 1)) j = Nat.min (n + j) (U32 - 1) := by
  show min (min n (U32 - 1) + j) (U32 - 1) = min (n + j) (U32 - 1)
  omega

theorem Stands.step {c : Cfg} {m : Mig σ} {d0 : σ} {w w1 : World σ} {op : Op σ} (h : Stands m d0 w)
    (hp : inProgress w.st = true) (hu : ∀ n d l, Part m d0 none n d l → m.uptodate d = false)
    (hop : ∀ m', op = .upgrade m' → m' = w.mig) (hs : Migration.step c w op = .ok w1) : Stands m d0 w1 := by
  obtain ⟨hm, h⟩ := h
  obtain ⟨k, hk⟩ := inProgress_iff.1 hp
  rcases h with ⟨n, h1, h2⟩ | ⟨n, d1, h1, _⟩
  · cases op with
    | block b r =>
      simp only [Migration.step, Except.ok.injEq] at hs
      subst hs
      refine ⟨hm, ?_⟩
      rcases migrate_spec c w.mig w.st b r h1 with ⟨j, d, e1, e2⟩ | ⟨j, d, l, e1, e2⟩ | ⟨d, l, e1, e2⟩
      · refine .inr ⟨n + j, d, ?_, ?_, ?_, ?_⟩
        · dsimp only; rw [e2]
        · dsimp only; rw [e2]
        · rw [hm] at e1; exact h2.whole e1
        · dsimp only; rw [e2, hm]
      · refine .inl ⟨n + j, ?_, ?_⟩
        · dsimp only; rw [e2]
          split
          · rename_i h0; rw [h0]; rfl
          · exact congrArg Status.inProgress (satAdd_min n j)
        · dsimp only; rw [e2]; rw [hm] at e1; exact h2.trans e1
      · refine .inl ⟨n, ?_, ?_⟩
        · dsimp only; rw [e2]; exact congrArg Status.inProgress (satAdd_min n 0)
        · dsimp only; rw [e2]; rw [hm] at e1; exact h2.trans e1
    | enable b =>
      simp only [Migration.step, Except.ok.injEq] at hs
      subst hs
      exact ⟨hm, .inl ⟨n, h1, h2⟩⟩
    | setDelay d =>
      simp only [Migration.step, setDelay, bind_ok, ensure_ok, pure_ok] at hs
      obtain ⟨_, ⟨_, _, rfl⟩, rfl⟩ := hs
      exact ⟨hm, .inl ⟨n, h1, h2⟩⟩
    | setLimit d =>
      simp only [Migration.step, setLimit, bind_ok, ensure_ok, pure_ok] at hs
      obtain ⟨_, ⟨_, _, rfl⟩, rfl⟩ := hs
      exact ⟨hm, .inl ⟨n, h1, h2⟩⟩
    | guarded f =>
      simp only [Migration.step, guarded, bind_ok, ensure_ok, pure_ok] at hs
      obtain ⟨_, ⟨_, h3, _⟩, _⟩ := hs
      rw [hp] at h3
      cases h3
    | upgrade m' =>
      simp only [Migration.step, Except.ok.injEq] at hs
      subst hs
      have hm' : m' = m := (hop m' rfl).trans hm
      subst hm'
      refine ⟨rfl, ?_⟩
      have e : upgrade m' w.st = w.st := by
        unfold upgrade
        rw [hu _ _ _ h2, hp]
        rfl
      dsimp only
      rw [e]
      exact .inl ⟨n, h1, h2⟩
  · rw [h1] at hk; cases hk

theorem During.stands {c : Cfg} {Good : World σ → Op σ → Prop} {d0 : σ} {w0 w : World σ} {g : Nat}
    (hgood : ∀ w op m', Good w op → op ≠ .upgrade m')
    (h : During c Good w0 g w) (h0 : w0.st.status = .inProgress 0) (hl : w0.st.last = none) (hd : w0.st.data = d0)
    (hu : ∀ n d l, Part w0.mig d0 none n d l → w0.mig.uptodate d = false) : Stands w0.mig d0 w := by
  induction h with
  | refl => exact ⟨rfl, .inl ⟨0, by rw [h0]; rfl, by rw [hd, hl]; exact .zero⟩⟩
  | step _ hp hop hs ih => exact ih.step hp hu hop hs
  | good _ hp hg hs ih => exact ih.step hp hu (fun m' e => absurd e (hgood _ _ _ hg)) hs

theorem roomy_not {c : Cfg} : ∀ (w : World σ) (op : Op σ) (m' : Mig σ), Roomy c w op → op ≠ .upgrade m' := by
  intro w op m' h e
  subst e
  exact h

/-! ## C135: the outcome of a migration does not depend on the schedule -/

/-- **C135.** However the blocks, weights, delays, limits, pauses and new runtimes with the same migration fall:
while the migration is in progress, the storage is what the steps counted so far make of it, each starting from
the key the one before ended with, and when it is completed, all steps have been carried out, each once, and
`on_complete` after the last. -/
theorem C135_outcome {c : Cfg} {w0 w : World σ} {g : Nat} (h : During c (fun _ _ => False) w0 g w)
    (h0 : w0.st.status = .inProgress 0) (hl : w0.st.last = none)
    (hu : ∀ n d l, Part w0.mig w0.st.data none n d l → w0.mig.uptodate d = false) :
    (∃ n, w.st.status = .inProgress (min n (U32 - 1)) ∧ Part w0.mig w0.st.data none n w.st.data w.st.last) ∨
    (∃ n d1, w.st.status = .completed ∧ w.st.last = none ∧ Whole w0.mig w0.st.data none n d1 ∧
      w.st.data = w0.mig.complete d1) :=
  (h.stands (fun _ _ _ h => h.elim) h0 hl rfl hu).2

/-- Two histories of the same migration end with the same storage. -/
theorem C135_same {c : Cfg} {w0 w0' w w' : World σ} {g g' : Nat} (h : During c (fun _ _ => False) w0 g w)
    (h' : During c (fun _ _ => False) w0' g' w') (hm : w0'.mig = w0.mig) (hd : w0'.st.data = w0.st.data)
    (h0 : w0.st.status = .inProgress 0) (hl : w0.st.last = none)
    (h0' : w0'.st.status = .inProgress 0) (hl' : w0'.st.last = none)
    (hu : ∀ n d l, Part w0.mig w0.st.data none n d l → w0.mig.uptodate d = false)
    (hc : w.st.status = .completed) (hc' : w'.st.status = .completed) : w.st.data = w'.st.data := by
  have a := C135_outcome h h0 hl hu
  have b := C135_outcome h' h0' hl' (by rw [hm, hd]; exact hu)
  rw [hm, hd] at b
  rcases a with ⟨_, a, _⟩ | ⟨n, d1, _, _, a, e⟩
  · rw [hc] at a; cases a
  · rcases b with ⟨_, b, _⟩ | ⟨n', d2, _, _, b, e'⟩
    · rw [hc'] at b; cases b
    · rw [e, e', (a.unique b).2]

/-- No call that needs the migrated storage gets through before the migration is over. -/
theorem C135_guarded {c : Cfg} {w : World σ} {k : Nat} (h : w.st.status = .inProgress k) (f : σ → Except Err σ) :
    step c w (.guarded f) = .error "MigrationInProgress" := by
  have hp : inProgress w.st = true := inProgress_iff.2 ⟨k, h⟩
  simp [step, guarded, hp, ensure, bind, Except.bind]

/-! ## C136: migrations finish -/

theorem Roomy.block {c : Cfg} {w : World σ} {b k : Nat} {r : W} (h : Roomy c w (.block b r))
    (hs : w.st.status = .inProgress k) (hlim : 0 < w.st.limit)
    (hw : w.mig.maxStep.t < U64 ∧ w.mig.maxStep.p < U64) (hb : c.base.t < U64 ∧ c.base.p < U64) :
    (∃ j d, Whole w.mig w.st.data w.st.last j d ∧ (migrate c w.mig w.st b r).1 = { w.st with
        data := w.mig.complete d
        status := .completed
        last := none }) ∨
    (∃ j d l, 0 < j ∧ Part w.mig w.st.data w.st.last j d l ∧ (migrate c w.mig w.st b r).1 = { w.st with
        data := d
        status := .inProgress (satAdd k j)
        last := l }) := by
  obtain ⟨h1, h2, h3, h4, h5, h6, h7, h8, h9, h10⟩ := h
  have t1 : min (c.base.t + w.mig.maxStep.t) (U64 - 1) ≤ r.t := h3
  have t2 : min (c.base.t + w.mig.maxStep.t) (U64 - 1) ≤ c.maxWeight.t := h5
  have hn : ¬ (r.min c.maxWeight).allLt (c.base.add w.mig.maxStep) = true := by
    rw [allLt_iff]
    intro hlt
    have : min r.t c.maxWeight.t < min (c.base.t + w.mig.maxStep.t) (U64 - 1) := hlt.1
    omega
  have hbase : (W.add ⟨0, 0⟩ c.base).allLt (r.min c.maxWeight) = true := by
    rw [allLt_iff]
    constructor
    · show min (0 + c.base.t) (U64 - 1) < min r.t c.maxWeight.t; omega
    · show min (0 + c.base.p) (U64 - 1) < min r.p c.maxWeight.p; omega
  have hd : ¬ skips w.st b = true := by
    unfold skips
    split
    · rename_i d hd
      simp [h2 d hd]
    · simp
  unfold migrate
  simp only
  rw [if_neg hn, hs]
  simp only
  rw [if_neg (by rw [h1]; simp), if_neg hd]
  generalize hl : loop w.mig (r.min c.maxWeight) w.st.limit w.st.data w.st.last (W.add ⟨0, 0⟩ c.base) 0 = x
  obtain ⟨d, l, u, n, fin⟩ := x
  simp only
  rcases loop_spec hl with ⟨rfl, rfl, j, _, h⟩ | ⟨rfl, j, hj, h, hpos⟩
  · exact .inl ⟨j, d, h, by rw [if_pos rfl]⟩
  · rw [if_neg (by simp), hj, Nat.zero_add]
    exact .inr ⟨j, d, l, hpos hlim hbase, h, rfl⟩

/-- The block limit is never zero. -/
theorem limit_step {c : Cfg} {w w1 : World σ} {op : Op σ} (h : 0 < w.st.limit) (hs : step c w op = .ok w1) :
    0 < w1.st.limit := by
  cases op with
  | block b r =>
    simp only [Migration.step, Except.ok.injEq] at hs
    subst hs
    have : (migrate c w.mig w.st b r).1.limit = w.st.limit := by
      unfold migrate
      simp only
      repeat' split
      all_goals rfl
    show 0 < (migrate c w.mig w.st b r).1.limit
    rw [this]; exact h
  | enable b =>
    simp only [Migration.step, Except.ok.injEq] at hs
    subst hs
    exact h
  | setDelay d =>
    simp only [Migration.step, setDelay, bind_ok, ensure_ok, pure_ok] at hs
    obtain ⟨_, ⟨_, _, rfl⟩, rfl⟩ := hs
    exact h
  | setLimit d =>
    simp only [Migration.step, setLimit, bind_ok, ensure_ok, pure_ok] at hs
    obtain ⟨_, ⟨_, hd, rfl⟩, rfl⟩ := hs
    exact hd
  | guarded f =>
    simp only [Migration.step, guarded, bind_ok, ensure_ok, pure_ok] at hs
    obtain ⟨_, ⟨_, _, _, _, rfl⟩, rfl⟩ := hs
    exact h
  | upgrade m' =>
    simp only [Migration.step, Except.ok.injEq] at hs
    subst hs
    have : (upgrade m' w.st).limit = w.st.limit := by
      unfold upgrade
      repeat' split
      all_goals rfl
    show 0 < (upgrade m' w.st).limit
    rw [this]; exact h

/-- **C136.** If the steps of a migration are finite in number, `n`, then it is completed after at most `n` blocks
that leave room for a step, whatever else happens in between. -/
theorem C136_finishes {c : Cfg} {w0 w : World σ} {g n : Nat} {d1 : σ} (h : During c (Roomy c) w0 g w)
    (h0 : w0.st.status = .inProgress 0) (hl : w0.st.last = none) (hlim : 0 < w0.st.limit)
    (hw : w0.mig.maxStep.t < U64 ∧ w0.mig.maxStep.p < U64) (hb : c.base.t < U64 ∧ c.base.p < U64)
    (hu : ∀ n d l, Part w0.mig w0.st.data none n d l → w0.mig.uptodate d = false)
    (hn : Whole w0.mig w0.st.data none n d1) (hg : n ≤ g) :
    w.st.status = .completed ∧ w.st.data = w0.mig.complete d1 := by
  have key : 0 < w.st.limit ∧
      ((w.st.status = .completed ∧ w.st.data = w0.mig.complete d1) ∨
       ∃ j, g ≤ j ∧ Part w0.mig w0.st.data none j w.st.data w.st.last ∧ inProgress w.st = true) := by
    clear hg
    induction h with
    | refl => exact ⟨hlim, .inr ⟨0, Nat.le_refl _, by rw [hl]; exact .zero, inProgress_iff.2 ⟨0, h0⟩⟩⟩
    | step hd hp hop hs ih =>
      obtain ⟨l1, ih⟩ := ih
      refine ⟨limit_step l1 hs, ?_⟩
      have hst := hd.stands (roomy_not (c := c)) h0 hl rfl hu
      have hst1 := hst.step hp hu hop hs
      rcases ih with ⟨ih, _⟩ | ⟨j, hj, ih, _⟩
      · obtain ⟨k, hk⟩ := inProgress_iff.1 hp
        rw [ih] at hk; cases hk
      · rename_i op _ _
        obtain ⟨hm, _⟩ := hst
        obtain ⟨k, hk⟩ := inProgress_iff.1 hp
        cases op with
        | block b r =>
          simp only [Migration.step, Except.ok.injEq] at hs
          subst hs
          rcases migrate_spec c _ _ b r hk with ⟨i, d, e1, e2⟩ | ⟨i, d, l, e1, e2⟩ | ⟨d, l, e1, e2⟩
          · left
            dsimp only; rw [e2]
            rw [hm] at e1
            have := (ih.whole e1).unique hn
            exact ⟨rfl, by dsimp only; rw [hm, this.2]⟩
          · right
            dsimp only; rw [e2]
            rw [hm] at e1
            exact ⟨j + i, by omega, ih.trans e1, rfl⟩
          · right
            dsimp only; rw [e2]
            rw [hm] at e1
            exact ⟨j + 0, by omega, ih.trans e1, rfl⟩
        | enable b =>
          simp only [Migration.step, Except.ok.injEq] at hs
          subst hs
          exact .inr ⟨j, hj, ih, hp⟩
        | setDelay d =>
          simp only [Migration.step, setDelay, bind_ok, ensure_ok, pure_ok] at hs
          obtain ⟨_, ⟨_, _, rfl⟩, rfl⟩ := hs
          exact .inr ⟨j, hj, ih, hp⟩
        | setLimit d =>
          simp only [Migration.step, setLimit, bind_ok, ensure_ok, pure_ok] at hs
          obtain ⟨_, ⟨_, _, rfl⟩, rfl⟩ := hs
          exact .inr ⟨j, hj, ih, hp⟩
        | guarded f =>
          simp only [Migration.step, guarded, bind_ok, ensure_ok, pure_ok] at hs
          obtain ⟨_, ⟨_, h3, _⟩, _⟩ := hs
          rw [hp] at h3
          cases h3
        | upgrade m' =>
          simp only [Migration.step, Except.ok.injEq] at hs
          subst hs
          have hm' := (hop m' rfl).trans hm
          have e : ∀ s : St σ, m'.uptodate s.data = false → inProgress s = true → upgrade m' s = s := by
            intro s e1 e2
            unfold upgrade
            rw [e1, e2]
            rfl
          dsimp only
          rw [e _ (by rw [hm']; exact hu _ _ _ ih) hp]
          exact .inr ⟨j, hj, ih, hp⟩
    | good hd hp hg hs ih =>
      obtain ⟨l1, ih⟩ := ih
      refine ⟨limit_step l1 hs, ?_⟩
      have hst := hd.stands (roomy_not (c := c)) h0 hl rfl hu
      rcases ih with ⟨ih, _⟩ | ⟨j, hj, ih, _⟩
      · obtain ⟨k, hk⟩ := inProgress_iff.1 hp
        rw [ih] at hk; cases hk
      · rename_i op _ _
        obtain ⟨hm, _⟩ := hst
        obtain ⟨k, hk⟩ := inProgress_iff.1 hp
        cases op with
        | block b r =>
          simp only [Migration.step, Except.ok.injEq] at hs
          subst hs
          rcases hg.block hk l1 (by rw [hm]; exact hw) hb with ⟨i, d, e1, e2⟩ | ⟨i, d, l, hi, e1, e2⟩
          · left
            dsimp only; rw [e2]
            rw [hm] at e1
            have := (ih.whole e1).unique hn
            exact ⟨rfl, by dsimp only; rw [hm, this.2]⟩
          · right
            dsimp only; rw [e2]
            rw [hm] at e1
            exact ⟨j + i, by omega, ih.trans e1, rfl⟩
        | enable b => exact hg.elim
        | setDelay d => exact hg.elim
        | setLimit d => exact hg.elim
        | guarded f => exact hg.elim
        | upgrade m' => exact hg.elim
  rcases key.2 with h1 | ⟨j, hj, h1, _⟩
  · exact h1
  · obtain ⟨b, hb1, hb2⟩ := h1.rest hn
    have := hb2.pos
    omega

end Verif.Migration
