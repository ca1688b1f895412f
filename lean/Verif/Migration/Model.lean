import Verif.Ledger

/-!
# Model of multi-block migrations

/repo/pallet/migration/src/lib.rs and /repo/primitives/src/migration.rs. A migration is any implementation of
the trait `MigrationStep`: functions on the storage it migrates, which can be of any type. Events, logging and
the database weights of the early returns of `migrate` are not modelled (those returns are modelled as using
no weight).
-/

namespace Verif.Migration

/-- A weight: computation time and proof size, each a `u64`. -/
structure W where
  t : Nat
  p : Nat
deriving DecidableEq

/-- `Weight::all_lt` (dependency): less in both components. -/
def W.allLt (a b : W) : Bool := decide (a.t < b.t) && decide (a.p < b.p)

/-- `Weight::min` (dependency). -/
def W.min (a b : W) : W := ⟨Nat.min a.t b.t, Nat.min a.p b.p⟩

/-- `Weight::saturating_add` (dependency). -/
def W.add (a b : W) : W := ⟨Nat.min (a.t + b.t) (U64 - 1), Nat.min (a.p + b.p) (U64 - 1)⟩

/-- A storage key. -/
abbrev Key := List Nat

/-- migration.rs:32-60 `MigrationStep`. `step` takes the last key and gives the storage, the weight used and
`none` if it was the final step (`finish_step`), or else the next last key (`continue_step`). -/
structure Mig (σ : Type) where
  /-- `version_check` -/
  uptodate : σ → Bool
  /-- `on_complete` -/
  complete : σ → σ
  /-- `max_step_weight` -/
  maxStep : W
  step : σ → Option Key → σ × W × Option Key

/-- migration.rs:65-81 `NoopMigration`. -/
def noop (σ : Type) : Mig σ where
  uptodate := fun _ => true
  complete := id
  maxStep := ⟨0, 0⟩
  step := fun d _ => (d, ⟨0, 0⟩, none)

/-- lib.rs:41-48 `MigrationStatus`. -/
inductive Status where
  | idle
  | inProgress (steps : Nat)
  | completed
deriving DecidableEq

/-- Constants of `Config` (/repo/pallet/migration/src/lib.rs:68-82). -/
structure Cfg where
  /-- `MaxMigrationWeight` -/
  maxWeight : W
  /-- `WeightInfo::migrate` -/
  base : W

/-- lib.rs:84-109: the storage of the pallet, with the storage being migrated. -/
structure St (σ : Type) where
  data : σ
  /-- `MigrationEnabled` -/
  enabled : Bool
  /-- `Status` -/
  status : Status
  /-- `LastKey` -/
  last : Option Key
  /-- `BlockDelay` -/
  delay : Option Nat
  /-- `BlockLimit` -/
  limit : Nat

/-- lib.rs:303-308 `migration_in_progress`. -/
def inProgress {σ : Type} (s : St σ) : Bool :=
  match s.status with
  | .inProgress _ => true
  | _ => false

/-- lib.rs:257-272: the loop of `migrate`: storage, last key, weight used, number of steps, and whether the
migration finished. The first argument is the number of steps the block limit still allows. -/
def loop {σ : Type} (m : Mig σ) (lim : W) : Nat → σ → Option Key → W → Nat → σ × Option Key × W × Nat × Bool
  | 0, d, l, u, k => (d, l, u, k, false)
  | n + 1, d, l, u, k =>
    if u.allLt lim = true then
      match m.step d l with
      | (d1, w, none) => (d1, none, u.add w, k + 1, true)
      | (d1, w, some x) => loop m lim n d1 (some x) (u.add w) (k + 1)
    else (d, l, u, k, false)

/-- Addition of `u32` numbers that stops at the largest. -/
def satAdd (a b : Nat) : Nat := Nat.min (a + b) (U32 - 1)

/-- lib.rs:243-249: the block is skipped because of the delay. In the code a delay of zero would panic;
`C136_delay` shows that it does not occur. -/
def skips {σ : Type} (s : St σ) (block : Nat) : Bool :=
  match s.delay with
  | some d => decide (block % d ≠ 0)
  | none => false

/-- lib.rs:218-290 `migrate`, 293-300 `complete_migration`: the state and the weight used. -/
def migrate {σ : Type} (c : Cfg) (m : Mig σ) (s : St σ) (block : Nat) (remaining : W) : St σ × W :=
  let lim := remaining.min c.maxWeight
  if lim.allLt (c.base.add m.maxStep) = true then (s, ⟨0, 0⟩)
  else match s.status with
    | .inProgress prev =>
      if s.enabled = false then (s, ⟨0, 0⟩)
      else if skips s block = true then (s, ⟨0, 0⟩)
      else
        let (d, l, u, k, fin) := loop m lim s.limit s.data s.last (W.add ⟨0, 0⟩ c.base) 0
        if fin = true then ({ s with
          data := m.complete d
          status := .completed
          last := none }, u)
        else ({ s with
          data := d
          status := .inProgress (satAdd prev k)
          last := l }, u)
    | _ => (s, ⟨0, 0⟩)

/-- lib.rs:144-167 `on_runtime_upgrade`, for a runtime whose migration is `m`. -/
def upgrade {σ : Type} (m : Mig σ) (s : St σ) : St σ :=
  if m.uptodate s.data = true then { s with status := .idle }
  else if inProgress s = true then s
  else { s with status := .inProgress 0 }

/-- lib.rs:190-201 `set_block_delay`, by root. -/
def setDelay {σ : Type} (s : St σ) (d : Option Nat) : Except Err (St σ) := do
  ensure (∀ x, d = some x → 1 < x) "InvalidBlockDelay"
  pure { s with delay := d }

/-- lib.rs:207-213 `set_block_limit`, by root. -/
def setLimit {σ : Type} (s : St σ) (n : Nat) : Except Err (St σ) := do
  ensure (0 < n) "InvalidBlockLimit"
  pure { s with limit := n }

/-- A call of another pallet that begins with `ensure_migrated` (lib.rs:313-316), `f` being the rest of it. -/
def guarded {σ : Type} (s : St σ) (f : σ → Except Err σ) : Except Err (St σ) := do
  ensure (inProgress s = false) "MigrationInProgress"
  let d ← f s.data
  pure { s with data := d }

/-- The calls (/repo/pallet/migration/src/lib.rs:170-214), blocks
(/repo/pallet/migration/src/lib.rs:138-168) and upgrades of the runtime. -/
inductive Op (σ : Type) where
  /-- `on_idle` in a block, with the weight that remains -/
  | block (number : Nat) (remaining : W)
  /-- `enable_migration`, by root -/
  | enable (on : Bool)
  | setDelay (d : Option Nat)
  | setLimit (n : Nat)
  /-- a call that needs the migrated storage -/
  | guarded (f : σ → Except Err σ)
  /-- the runtime is replaced by one whose migration is `m` -/
  | upgrade (m : Mig σ)

/-- The chain: the migration of the runtime it runs, and the storage. -/
structure World (σ : Type) where
  mig : Mig σ
  st : St σ

/-- Each case is the function of that name above, or written out. -/
def step {σ : Type} (c : Cfg) (w : World σ) : Op σ → Except Err (World σ)
  | .block n r => .ok { w with st := (migrate c w.mig w.st n r).1 }
  | .enable b => .ok { w with st := { w.st with enabled := b } }
  | .setDelay d => do
      let s ← setDelay w.st d
      pure { w with st := s }
  | .setLimit n => do
      let s ← setLimit w.st n
      pure { w with st := s }
  | .guarded f => do
      let s ← guarded w.st f
      pure { w with st := s }
  | .upgrade m => .ok ⟨m, upgrade m w.st⟩

/-- What becomes of the world: a rejected operation changes nothing. -/
def after {σ : Type} (w : World σ) : Except Err (World σ) → World σ
  | .ok w1 => w1
  | .error _ => w

/-- Run a list of operations; rejected ones change nothing. -/
def exec {σ : Type} (c : Cfg) (w : World σ) : List (Op σ) → World σ
  | [] => w
  | op :: ops => exec c (after w (step c w op)) ops

/-- The storage of the pallet when it is added to a chain; lib.rs:101-109: the limit is 100. -/
structure Genesis {σ : Type} (w : World σ) : Prop where
  status : w.st.status = .idle
  last : w.st.last = none
  limit : w.st.limit = 100
  delay : w.st.delay = none

/-- What can be reached from the start by these operations; an operation that fails changes nothing.
Histories have no counterpart in the code. -/
inductive Reach {σ : Type} (c : Cfg) : World σ → World σ → Prop where
  | refl {w : World σ} : Reach c w w
  | step {w w1 w2 : World σ} {op : Op σ} : Reach c w w1 → step c w1 op = .ok w2 → Reach c w w2

end Verif.Migration
