import Verif.Migration.Settings

/-!
# C258: the events of the migration pallet

/repo/pallet/migration/src/lib.rs:113-126 `Event` and the places where they are deposited.
-/

namespace Verif.Migration

variable {σ : Type}

/-- lib.rs:113-126 `Event`. -/
inductive Said where
  | enabled
  | disabled
  | complete (items : Nat)
  | started
  | delay (d : Option Nat)
  | limit (n : Nat)
deriving DecidableEq

/-- lib.rs:218-300 `migrate` and `complete_migration`: the number in the event of the end of the migration, if the block ends it. The
conditions are those of `migrate`. -/
def ended (c : Cfg) (m : Mig σ) (s : St σ) (block : Nat) (remaining : W) : Option Nat :=
  let lim := remaining.min c.maxWeight
  if lim.allLt (c.base.add m.maxStep) = true then none
  else match s.status with
    | .inProgress prev =>
      if s.enabled = false then none
      else if skips s block = true then none
      else
        let (_, _, _, k, fin) := loop m lim s.limit s.data s.last (W.add ⟨0, 0⟩ c.base) 0
        if fin = true then some (satAdd prev k) else none
    | _ => none

/-- The events of an operation: lib.rs:144-167 `on_runtime_upgrade`, 175-183 `enable_migration`, 190-201 `set_block_delay`, 207-213
`set_block_limit`; a call that fails leaves none. -/
def evs (c : Cfg) (w : World σ) : Op σ → List Said
  | .block n r => (ended c w.mig w.st n r).toList.map .complete
  | .enable b => [if b = true then .enabled else .disabled]
  | .setDelay d =>
    match setDelay w.st d with
    | .ok _ => [.delay d]
    | .error _ => []
  | .setLimit n =>
    match setLimit w.st n with
    | .ok _ => [.limit n]
    | .error _ => []
  | .guarded _ => []
  | .upgrade m => if m.uptodate w.st.data = true then [] else if inProgress w.st = true then [] else [.started]

/-- All events of a history. -/
def story (c : Cfg) (w : World σ) : List (Op σ) → List Said
  | [] => []
  | op :: ops => evs c w op ++ story c (after w (step c w op)) ops

/-! ## The reader -/

/-- What a reader of the events keeps: root's settings, and whether a migration has begun and not ended. -/
structure View where
  set : Settings
  busy : Bool
deriving DecidableEq

def hear (v : View) : Said → View
  | .enabled => { v with set := { v.set with enabled := true } }
  | .disabled => { v with set := { v.set with enabled := false } }
  | .delay d => { v with set := { v.set with delay := d } }
  | .limit n => { v with set := { v.set with limit := n } }
  | .started => { v with busy := true }
  | .complete _ => { v with busy := false }

/-- No new runtime finds its storage up to date while a migration is going on. -/
def Unbroken (c : Cfg) (w : World σ) : List (Op σ) → Prop
  | [] => True
  | op :: ops => (∀ m, op = .upgrade m → inProgress w.st = true → m.uptodate w.st.data = false) ∧
      Unbroken c (after w (step c w op)) ops

/-! ## Proofs -/

/-- What a block does to a migration in progress, and what it tells. -/
theorem ended_spec (c : Cfg) (m : Mig σ) (s : St σ) (block : Nat) (r : W) {k : Nat} (hs : s.status = .inProgress k) :
    (∃ j d, Whole m s.data s.last j d ∧ ended c m s block r = some (satAdd k j) ∧ (migrate c m s block r).1 = { s with
        data := m.complete d
        status := .completed
        last := none }) ∨
    (ended c m s block r = none ∧ inProgress (migrate c m s block r).1 = true) := by
  have hp : inProgress s = true := inProgress_iff.2 ⟨k, hs⟩
  unfold ended migrate
  simp only
  split
  · exact .inr ⟨rfl, hp⟩
  · rw [hs]
    simp only
    split
    · exact .inr ⟨rfl, hp⟩
    · split
      · exact .inr ⟨rfl, hp⟩
      · generalize hl : loop m (r.min c.maxWeight) s.limit s.data s.last (W.add ⟨0, 0⟩ c.base) 0 = x
        obtain ⟨d, l, u, n, fin⟩ := x
        simp only
        rcases loop_spec hl with ⟨rfl, rfl, j, hj, h⟩ | ⟨rfl, j, hj, h, _⟩
        · exact .inl ⟨j, d, h, by rw [if_pos rfl, hj, Nat.zero_add], by rw [if_pos rfl]⟩
        · exact .inr ⟨by rw [if_neg (by simp)], by rw [if_neg (by simp)]; rfl⟩

theorem ended_idle (c : Cfg) (m : Mig σ) (s : St σ) (block : Nat) (r : W) (hs : inProgress s = false) :
    ended c m s block r = none ∧ (migrate c m s block r).1 = s := by
  unfold ended migrate
  simp only
  split
  · exact ⟨rfl, rfl⟩
  · cases e : s.status with
    | inProgress k =>
      rw [inProgress_iff.2 ⟨k, e⟩] at hs
      cases hs
    | idle => exact ⟨rfl, rfl⟩
    | completed => exact ⟨rfl, rfl⟩

theorem setDelay_cases (s : St σ) (d : Option Nat) : setDelay s d = .ok { s with delay := d } ∨ setDelay s d = .error "InvalidBlockDelay" := by
  by_cases h : ∀ x, d = some x → 1 < x
  · left
    simp only [setDelay, bind_ok, ensure_ok, pure_ok]
    exact ⟨(), h, trivial⟩
  · right
    simp only [setDelay, ensure]
    rw [if_neg h]
    rfl

theorem setLimit_cases (s : St σ) (n : Nat) : setLimit s n = .ok { s with limit := n } ∨ setLimit s n = .error "InvalidBlockLimit" := by
  by_cases h : 0 < n
  · left
    simp only [setLimit, bind_ok, ensure_ok, pure_ok]
    exact ⟨(), h, trivial⟩
  · right
    simp only [setLimit, ensure]
    rw [if_neg h]
    rfl

/-- One operation: the settings heard are those in force; a migration in progress was heard of; and if no runtime breaks it off, what is
heard of is in progress. -/
theorem evs_hear (c : Cfg) (w : World σ) (op : Op σ) (v : View) (h1 : v.set = inForce w.st) (h2 : inProgress w.st = true → v.busy = true) :
    ((evs c w op).foldl hear v).set = inForce (after w (step c w op)).st ∧
    (inProgress (after w (step c w op)).st = true → ((evs c w op).foldl hear v).busy = true) ∧
    ((v.busy = true → inProgress w.st = true) → (∀ m, op = .upgrade m → inProgress w.st = true → m.uptodate w.st.data = false) →
      ((evs c w op).foldl hear v).busy = true → inProgress (after w (step c w op)).st = true) := by
  cases op with
  | block n r =>
    simp only [evs, step, after]
    cases hp : inProgress w.st with
    | false =>
      obtain ⟨e1, e2⟩ := ended_idle c w.mig w.st n r hp
      rw [e1, e2]
      refine ⟨h1, fun q => ?_, fun q _ q' => ?_⟩
      · rw [hp] at q
        cases q
      · have := q q'
        cases this
    | true =>
      obtain ⟨k, hk⟩ := inProgress_iff.1 hp
      have hf := migrate_force c w.mig w.st n r
      rcases ended_spec c w.mig w.st n r hk with ⟨j, d, _, e1, e2⟩ | ⟨e1, e2⟩
      · rw [e1]
        refine ⟨?_, fun q => ?_, fun _ _ q => ?_⟩
        · rw [hf]
          exact h1
        · rw [e2] at q
          cases q
        · cases q
      · rw [e1]
        refine ⟨?_, fun _ => h2 hp, fun _ _ _ => e2⟩
        rw [hf]
        exact h1
  | enable b =>
    cases b
    · exact ⟨by simp only [evs, List.foldl, hear, h1]; rfl, h2, fun q _ q' => q q'⟩
    · exact ⟨by simp only [evs, List.foldl, hear, h1]; rfl, h2, fun q _ q' => q q'⟩
  | setDelay d =>
    rcases setDelay_cases w.st d with e | e
    · simp only [evs, step, e]
      exact ⟨by simp only [List.foldl, hear, h1]; rfl, h2, fun q _ q' => q q'⟩
    · simp only [evs, step, e]
      exact ⟨h1, h2, fun q _ q' => q q'⟩
  | setLimit n =>
    rcases setLimit_cases w.st n with e | e
    · simp only [evs, step, e]
      exact ⟨by simp only [List.foldl, hear, h1]; rfl, h2, fun q _ q' => q q'⟩
    · simp only [evs, step, e]
      exact ⟨h1, h2, fun q _ q' => q q'⟩
  | guarded f =>
    cases h : step c w (.guarded f) with
    | error e => exact ⟨h1, h2, fun q _ q' => q q'⟩
    | ok w1 =>
      simp only [step, guarded, bind_ok, pure_ok] at h
      obtain ⟨s, ⟨_, _, d, _, e1⟩, e2⟩ := h
      subst e1
      subst e2
      exact ⟨h1, h2, fun q _ q' => q q'⟩
  | upgrade m =>
    simp only [evs, step, after]
    rw [upgrade_force]
    unfold upgrade
    cases hu : m.uptodate w.st.data with
    | true =>
      refine ⟨h1, fun q => (by cases q), fun q q1 q2 => ?_⟩
      have := q1 m rfl (q q2)
      rw [hu] at this
      cases this
    | false =>
      cases hp : inProgress w.st with
      | true => exact ⟨h1, fun _ => h2 hp, fun _ _ _ => hp⟩
      | false => exact ⟨h1, fun _ => rfl, fun _ _ _ => rfl⟩

theorem story_hear (c : Cfg) : ∀ (ops : List (Op σ)) (w : World σ) (v : View), v.set = inForce w.st →
    (inProgress w.st = true → v.busy = true) →
    ((story c w ops).foldl hear v).set = inForce (exec c w ops).st ∧
    (inProgress (exec c w ops).st = true → ((story c w ops).foldl hear v).busy = true) ∧
    ((v.busy = true → inProgress w.st = true) → Unbroken c w ops →
      ((story c w ops).foldl hear v).busy = true → inProgress (exec c w ops).st = true)
  | [], _, _, h1, h2 => ⟨h1, h2, fun q _ q' => q q'⟩
  | op :: ops, w, v, h1, h2 => by
    obtain ⟨a1, a2, a3⟩ := evs_hear c w op v h1 h2
    obtain ⟨b1, b2, b3⟩ := story_hear c ops _ _ a1 a2
    unfold story exec
    rw [List.foldl_append]
    exact ⟨b1, b2, fun q hb => b3 (a3 q hb.1) hb.2⟩

/-! ## The property -/

/-- **C258 (settings)** — whoever heard all events knows what root decided: whether migrations run, in which blocks and how fast. -/
theorem C258_settings (c : Cfg) (w : World σ) (h : Genesis w) (ops : List (Op σ)) :
    ((story c w ops).foldl hear ⟨inForce w.st, false⟩).set = inForce (exec c w ops).st := by
  refine (story_hear c ops w ⟨inForce w.st, false⟩ rfl fun q => ?_).1
  unfold inProgress at q
  rw [h.status] at q
  cases q

/-- **C258 (free)** — while, by the events, no migration is going on, no call is refused because of one: it does what it does. -/
theorem C258_free (c : Cfg) (w : World σ) (h : Genesis w) (ops : List (Op σ))
    (hb : ((story c w ops).foldl hear ⟨inForce w.st, false⟩).busy = false) (f : σ → Except Err σ) {d : σ}
    (hf : f (exec c w ops).st.data = .ok d) :
    step c (exec c w ops) (.guarded f) = .ok { exec c w ops with st := { (exec c w ops).st with data := d } } := by
  have h0 : inProgress w.st = false := by
    unfold inProgress
    rw [h.status]
  have hp : inProgress (exec c w ops).st = false := by
    cases hp : inProgress (exec c w ops).st with
    | false => rfl
    | true =>
      have := (story_hear c ops w ⟨inForce w.st, false⟩ rfl (fun q => by rw [h0] at q; cases q)).2.1 hp
      rw [hb] at this
      cases this
  simp only [step, guarded, bind_ok, ensure_ok, pure_ok]
  exact ⟨_, ⟨(), hp, d, hf, rfl⟩, rfl⟩

/-- **C258 (busy, partial)** — while, by the events, a migration is going on, every call that needs the migrated storage is refused. Proved
for histories in which no new runtime finds its storage up to date during a migration; without this it is false (`C258_busy_refuted`). -/
theorem C258_busy_partial (c : Cfg) (w : World σ) (h : Genesis w) (ops : List (Op σ)) (hu : Unbroken c w ops)
    (hb : ((story c w ops).foldl hear ⟨inForce w.st, false⟩).busy = true) (f : σ → Except Err σ) :
    step c (exec c w ops) (.guarded f) = .error "MigrationInProgress" := by
  have h0 : inProgress w.st = false := by
    unfold inProgress
    rw [h.status]
  have hp := (story_hear c ops w ⟨inForce w.st, false⟩ rfl (fun q => by rw [h0] at q; cases q)).2.2 (fun q => by cases q) hu hb
  obtain ⟨k, hk⟩ := inProgress_iff.1 hp
  exact C135_guarded hk f

/-- **C258 (end)** — the event of the end of a migration is true: all its steps have been made, each once, and the last actions taken; the
number it gives is that of the steps (as long as this number fits 32 bits). -/
theorem C258_complete {c : Cfg} {w0 w w1 : World σ} {g n k : Nat} {r : W} (h : During c (fun _ _ => False) w0 g w)
    (h0 : w0.st.status = .inProgress 0) (hl : w0.st.last = none)
    (hu : ∀ n d l, Part w0.mig w0.st.data none n d l → w0.mig.uptodate d = false)
    (ht : Said.complete k ∈ evs c w (.block n r)) (hs : step c w (.block n r) = .ok w1) :
    ∃ j d1, Whole w0.mig w0.st.data none j d1 ∧ k = min j (U32 - 1) ∧ w1.st.data = w0.mig.complete d1 ∧ w1.st.status = .completed := by
  obtain ⟨hm, hw⟩ := h.stands (fun _ _ _ h => h.elim) h0 hl rfl hu
  have ht : ended c w.mig w.st n r = some k := by
    simp only [evs, List.mem_map, Option.mem_toList] at ht
    obtain ⟨x, hx, e⟩ := ht
    cases e
    exact hx
  cases hs
  rcases hw with ⟨j, e1, e2⟩ | ⟨_, _, e1, _⟩
  · rcases ended_spec c w.mig w.st n r e1 with ⟨i, d, a1, a2, a3⟩ | ⟨a1, _⟩
    · rw [a2, satAdd_min] at ht
      cases ht
      rw [hm] at a1
      refine ⟨j + i, d, e2.whole a1, rfl, ?_, ?_⟩
      · dsimp only
        rw [a3, hm]
      · dsimp only
        rw [a3]
    · rw [a1] at ht
      cases ht
  · have hp : inProgress w.st = false := by
      unfold inProgress
      rw [e1]
    rw [(ended_idle c w.mig w.st n r hp).1] at ht
    cases ht

/-- A call of another pallet that does nothing. -/
def Demo.call : Nat × List Nat → Except Err (Nat × List Nat) := .ok

/-- **C258 is false** of migrations that are broken off: a runtime without a migration arrives while one is going on. The events are the
same as if it had not, but calls are refused in one case and not in the other. -/
theorem C258_busy_refuted : ∃ (c : Cfg) (w : World (Nat × List Nat)) (ops ops' : List (Op (Nat × List Nat)))
    (f : Nat × List Nat → Except Err (Nat × List Nat)), Genesis w ∧ story c w ops = story c w ops' ∧
      step c (exec c w ops) (.guarded f) = .error "MigrationInProgress" ∧ (step c (exec c w ops') (.guarded f)).isOk = true :=
  ⟨Demo.cfg, Demo.genesis, [.upgrade (Demo.mig 1), .block 1 ⟨100, 100⟩],
    [.upgrade (Demo.mig 1), .block 1 ⟨100, 100⟩, .upgrade (noop _)], Demo.call, ⟨rfl, rfl, rfl, rfl⟩, rfl, rfl, rfl⟩

/-- **C258 is false** of items: for a migration that, like the pallet's mock (mock.rs:60-91), looks for the next item in each step and ends
when there is none, the number of items told is one more than that of the items there are. -/
theorem C258_items_refuted : ∃ (c : Cfg) (w : World (Nat × List Nat)) (ops : List (Op (Nat × List Nat))) (k : Nat), Genesis w ∧
    Said.complete k ∈ story c w ops ∧ (exec c w ops).st.data.2.length < k ∧ w.st.data.2.length < k :=
  ⟨Demo.cfg, Demo.genesis, [.upgrade (Demo.mig 1), .block 1 ⟨900, 900⟩], 4, ⟨rfl, rfl, rfl, rfl⟩, by decide +kernel, by decide +kernel,
    by decide +kernel⟩

/-! ## Cases -/

/-- A migration in two blocks, slowed down by root, with refused settings in between. -/
def Demo.tale : List (Op (Nat × List Nat)) :=
  [.setLimit 3, .setLimit 0, .upgrade (Demo.mig 1), .setDelay (some 2), .setDelay (some 1), .block 3 ⟨900, 900⟩, .block 4 ⟨900, 900⟩,
    .enable false, .block 6 ⟨900, 900⟩, .enable true, .block 8 ⟨900, 900⟩]

example : story Demo.cfg Demo.genesis Demo.tale =
    [.limit 3, .started, .delay (some 2), .disabled, .enabled, .complete 4] := by decide +kernel
example : (story Demo.cfg Demo.genesis Demo.tale).foldl hear ⟨inForce Demo.genesis.st, false⟩ = ⟨⟨true, some 2, 3⟩, false⟩ := by
  decide +kernel
example := C258_settings Demo.cfg Demo.genesis ⟨rfl, rfl, rfl, rfl⟩ Demo.tale
example := C258_free Demo.cfg Demo.genesis ⟨rfl, rfl, rfl, rfl⟩ Demo.tale (by decide +kernel) Demo.call rfl
-- before the last block, calls are refused
example := C258_busy_partial Demo.cfg Demo.genesis ⟨rfl, rfl, rfl, rfl⟩ (Demo.tale.take 10) (by
    refine ⟨?_, ?_, ?_, ?_, ?_, ?_, ?_, ?_, ?_, ?_, trivial⟩ <;> intro m e <;> cases e
    intro q
    cases q) (by decide +kernel) Demo.call
-- the end of a migration of three items, after four steps
example := C258_complete (c := Demo.cfg) (w0 := Demo.start) (w := Demo.start) (k := 4) (n := 1) (r := ⟨900, 900⟩) .refl rfl rfl
  (fun n d l h => by
    have := Demo.version h
    show decide (1 ≤ d.1) = false
    rw [this]
    rfl) (by decide +kernel) rfl

end Verif.Migration
