import Verif.Migration.Props2

/-!
# C239: what root sets for migrations takes effect and stays
-/

namespace Verif.Migration

variable {σ : Type}

/-- What root decides: whether migrations run, in which blocks, and how many steps a block makes. -/
structure Settings where
  enabled : Bool
  delay : Option Nat
  limit : Nat
deriving DecidableEq

/-- Root's word. A delay of one block or none is not accepted, nor is a limit of no steps. -/
def said (k : Settings) : Op σ → Settings
  | .enable b => { k with enabled := b }
  | .setDelay none => { k with delay := none }
  | .setDelay (some d) => if d ≤ 1 then k else { k with delay := some d }
  | .setLimit n => if n = 0 then k else { k with limit := n }
  | _ => k

/-- What is in force. -/
def inForce (s : St σ) : Settings := ⟨s.enabled, s.delay, s.limit⟩

theorem migrate_force (c : Cfg) (m : Mig σ) (s : St σ) (n : Nat) (r : W) :
    inForce (migrate c m s n r).1 = inForce s := by
  unfold migrate
  dsimp only
  split
  · rfl
  · split
    · split
      · rfl
      · split
        · rfl
        · split <;> rfl
    · rfl

theorem upgrade_force (m : Mig σ) (s : St σ) : inForce (upgrade m s) = inForce s := by
  unfold upgrade
  split
  · rfl
  · split <;> rfl

theorem after_force (c : Cfg) (w : World σ) (op : Op σ) :
    inForce (after w (step c w op)).st = said (inForce w.st) op := by
  cases op with
  | block n r => exact migrate_force ..
  | enable b => rfl
  | setDelay d =>
    cases d with
    | none =>
      have : setDelay w.st none = .ok { w.st with delay := none } := by
        simp only [setDelay]
        rw [show (ensure (∀ x : Nat, (none : Option Nat) = some x → 1 < x) "InvalidBlockDelay") = Except.ok () from
          if_pos (fun _ q => nomatch q)]
        rfl
      simp only [step, this]
      rfl
    | some d =>
      by_cases hd : 1 < d
      · have : setDelay w.st (some d) = .ok { w.st with delay := some d } := by
          simp only [setDelay]
          rw [show (ensure (∀ x : Nat, some d = some x → 1 < x) "InvalidBlockDelay") = Except.ok () from
            if_pos (fun x q => by cases q; exact hd)]
          rfl
        simp only [step, this, said]
        rw [if_neg (by omega)]
        rfl
      · have : setDelay w.st (some d) = .error "InvalidBlockDelay" := by
          simp only [setDelay]
          rw [show (ensure (∀ x : Nat, some d = some x → 1 < x) "InvalidBlockDelay") = Except.error "InvalidBlockDelay" from
            if_neg (fun q => hd (q d rfl))]
          rfl
        simp only [step, this, said]
        rw [if_pos (by omega)]
        rfl
  | setLimit n =>
    by_cases hn : 0 < n
    · have : setLimit w.st n = .ok { w.st with limit := n } := by
        simp only [setLimit]
        rw [show (ensure (0 < n) "InvalidBlockLimit") = Except.ok () from if_pos hn]
        rfl
      simp only [step, this, said]
      rw [if_neg (by omega)]
      rfl
    · have : setLimit w.st n = .error "InvalidBlockLimit" := by
        simp only [setLimit]
        rw [show (ensure (0 < n) "InvalidBlockLimit") = Except.error "InvalidBlockLimit" from if_neg hn]
        rfl
      simp only [step, this, said]
      rw [if_pos (by omega)]
      rfl
  | guarded f =>
    cases h : step c w (.guarded f) with
    | error e => rfl
    | ok w1 =>
      simp only [step, guarded, bind_ok, pure_ok] at h
      obtain ⟨s, ⟨_, _, d, _, h1⟩, h⟩ := h
      subst h h1
      rfl
  | upgrade m => exact upgrade_force ..

/-- **C239 (migrations).** After any history, upgrades and failing calls included, what is in force is what root said
last. -/
theorem C239_migration (c : Cfg) : ∀ (ops : List (Op σ)) (w : World σ),
    inForce (exec c w ops).st = ops.foldl said (inForce w.st)
  | [], _ => rfl
  | op :: ops, w => by
    unfold exec
    rw [C239_migration c ops, List.foldl_cons, after_force]

theorem loop_count {m : Mig σ} {lim : W} : ∀ {n : Nat} {d d' : σ} {l l' : Option Key} {u u' : W} {k k' : Nat} {fin : Bool},
    loop m lim n d l u k = (d', l', u', k', fin) → k' ≤ k + n
  | 0, d, d', l, l', u, u', k, k', fin, h => by
    cases h
    exact Nat.le_refl _
  | n + 1, d, d', l, l', u, u', k, k', fin, h => by
    unfold loop at h
    split at h
    · split at h
      · cases h
        omega
      · have := loop_count h
        omega
    · cases h
      omega

/-- **C239 (migrations).** A block leaves the storage as it is when root's last word is that migrations do not run, or
when its number is no multiple of the delay root set last. -/
theorem C239_migration_rest {c : Cfg} {w : World σ} {ops : List (Op σ)} {n : Nat} {r : W}
    (h : (ops.foldl said (inForce w.st)).enabled = false ∨
      ∃ d, (ops.foldl said (inForce w.st)).delay = some d ∧ ¬ d ∣ n) :
    step c (exec c w ops) (.block n r) = .ok (exec c w ops) := by
  rw [← C239_migration c] at h
  have : (migrate c (exec c w ops).mig (exec c w ops).st n r).1 = (exec c w ops).st := by
    unfold migrate
    dsimp only
    split
    · rfl
    · split
      · rcases h with h | ⟨d, h, hd⟩
        · rw [if_pos (show (exec c w ops).st.enabled = false from h)]
        · have hk : skips (exec c w ops).st n = true := by
            unfold skips
            rw [show (exec c w ops).st.delay = some d from h]
            simp only [ne_eq, decide_eq_true_eq]
            exact fun e => hd (Nat.dvd_of_mod_eq_zero e)
          rw [if_pos hk]
          split <;> rfl
      · rfl
  simp only [step, this]

/-- **C239 (migrations).** A block makes at most as many steps as the limit root set last: either some such number of
steps is the rest of the migration, or the storage is what they lead to. -/
theorem C239_migration_limit {c : Cfg} {w w1 : World σ} {ops : List (Op σ)} {n k : Nat} {r : W}
    (hk : (exec c w ops).st.status = .inProgress k) (h : step c (exec c w ops) (.block n r) = .ok w1) :
    ∃ j ≤ (ops.foldl said (inForce w.st)).limit,
      (∃ d, Whole (exec c w ops).mig (exec c w ops).st.data (exec c w ops).st.last j d ∧
        w1.st.data = (exec c w ops).mig.complete d) ∨
      Part (exec c w ops).mig (exec c w ops).st.data (exec c w ops).st.last j w1.st.data w1.st.last := by
  rw [← C239_migration c]
  generalize hw : exec c w ops = v at *
  cases h
  dsimp only
  have same : ∃ j ≤ (inForce v.st).limit, (∃ d, Whole v.mig v.st.data v.st.last j d ∧ v.st.data = v.mig.complete d) ∨
      Part v.mig v.st.data v.st.last j v.st.data v.st.last := ⟨0, Nat.zero_le _, .inr .zero⟩
  unfold migrate
  simp only [hk]
  split
  · exact same
  · split
    · exact same
    · split
      · exact same
      · generalize hl : loop v.mig (r.min c.maxWeight) v.st.limit v.st.data v.st.last (W.add ⟨0, 0⟩ c.base) 0 = x
        obtain ⟨d, l, u, i, fin⟩ := x
        have hc := loop_count hl
        rw [Nat.zero_add] at hc
        rcases loop_spec hl with ⟨rfl, rfl, j, hj, q⟩ | ⟨rfl, j, hj, q, _⟩
        · rw [Nat.zero_add] at hj
          subst hj
          exact ⟨_, hc, .inl ⟨d, q, rfl⟩⟩
        · rw [Nat.zero_add] at hj
          subst hj
          exact ⟨_, hc, .inr q⟩

/-- Root slows the migration down; a delay of one block and a limit of no steps are refused. -/
def slowly : List (Op (Nat × List Nat)) :=
  [.setLimit 2, .setDelay (some 3), .setDelay (some 1), .setLimit 0, .enable true]

example : slowly.foldl said (inForce Demo.start.st) = ⟨true, some 3, 2⟩ := by decide +kernel
-- a block whose number is no multiple of three does nothing; one that is makes two steps
example := C239_migration_rest (c := Demo.cfg) (w := Demo.start) (ops := slowly) (n := 4) (r := ⟨900, 900⟩)
  (.inr ⟨3, by decide +kernel, by decide⟩)
example : (exec Demo.cfg Demo.start (slowly ++ [.block 4 ⟨900, 900⟩])).st.status = .inProgress 0 ∧
    (exec Demo.cfg Demo.start (slowly ++ [.block 4 ⟨900, 900⟩, .block 6 ⟨900, 900⟩])).st.status = .inProgress 2 := by
  decide +kernel
example := C239_migration_limit (c := Demo.cfg) (w := Demo.start) (ops := slowly) (k := 0) (n := 6) (r := ⟨900, 900⟩)
  (by decide +kernel) rfl

end Verif.Migration
