import Verif.Fees.Props

/-!
# C259: the events of fee control

/repo/pallet/fee-control/src/lib.rs:82-89 `Event`, deposited at 101, 113 and 125.
-/

namespace Verif.Fees

open Verif

/-- lib.rs:82-89 `Event`. -/
inductive Said where
  | baseFee (v : Nat)
  | weightMul (v : Nat)
  | lengthMul (v : Nat)
deriving DecidableEq

/-- lib.rs:93-127: each call that succeeds tells the value it was given. -/
def evs (s : St) (op : Op) : List Said :=
  match step s op, op with
  | .ok _, .setBaseFee _ v => [.baseFee v]
  | .ok _, .setWeightMul _ v => [.weightMul v]
  | .ok _, .setLengthMul _ v => [.lengthMul v]
  | .error _, _ => []

/-- A failing call changes nothing. -/
def next (s : St) (op : Op) : St :=
  match step s op with
  | .ok s' => s'
  | .error _ => s

/-- A history; a call that fails changes nothing. No counterpart in the code. -/
def exec (s : St) : List Op → St
  | [] => s
  | op :: ops => exec (next s op) ops

/-- The events of a history. -/
def story (s : St) : List Op → List Said
  | [] => []
  | op :: ops => evs s op ++ story (next s op) ops

/-! ## The reader -/

/-- The last value told in a list of events, picked by `f`, or the one at the beginning. -/
def lastOf (f : Said → Option Nat) (d : Nat) (l : List Said) : Nat := ((l.filterMap f).getLast?).getD d

/-- What a reader knows who was there from the start of the chain: the last word on each of the three values. -/
def known (l : List Said) : St where
  baseFee := lastOf (fun | .baseFee v => some v | _ => none) 7500000000000 l
  weightMul := lastOf (fun | .weightMul v => some v | _ => none) 100000 l
  lengthMul := lastOf (fun | .lengthMul v => some v | _ => none) 350 l

/-! ## Proofs -/

theorem lastOf_snoc (f : Said → Option Nat) (d : Nat) (l : List Said) (e : Said) :
    lastOf f d (l ++ [e]) = (f e).getD (lastOf f d l) := by
  unfold lastOf
  rw [List.filterMap_append]
  cases h : f e with
  | none => simp [List.filterMap_cons, h]
  | some v => simp [List.filterMap_cons, h]

theorem evs_known {s : St} {l : List Said} (op : Op) (h : known l = s) : known (l ++ evs s op) = next s op := by
  unfold evs next
  subst h
  cases op with
  | setBaseFee o v =>
    cases e : step (known l) (.setBaseFee o v) with
    | error _ => rw [List.append_nil]
    | ok s' =>
      simp only [step, bind_ok, ensure_ok, pure_ok] at e
      obtain ⟨_, _, _, _, rfl⟩ := e
      simp only [known, lastOf_snoc]
      rfl
  | setWeightMul o v =>
    cases e : step (known l) (.setWeightMul o v) with
    | error _ => rw [List.append_nil]
    | ok s' =>
      simp only [step, bind_ok, ensure_ok, pure_ok] at e
      obtain ⟨_, _, _, _, rfl⟩ := e
      simp only [known, lastOf_snoc]
      rfl
  | setLengthMul o v =>
    cases e : step (known l) (.setLengthMul o v) with
    | error _ => rw [List.append_nil]
    | ok s' =>
      simp only [step, bind_ok, ensure_ok, pure_ok] at e
      obtain ⟨_, _, _, _, rfl⟩ := e
      simp only [known, lastOf_snoc]
      rfl

theorem story_known : ∀ (ops : List Op) {s : St} {l : List Said}, known l = s → known (l ++ story s ops) = exec s ops
  | [], s, l, h => by
    unfold story exec
    rw [List.append_nil]
    exact h
  | op :: ops, s, l, h => by
    unfold story exec
    rw [← List.append_assoc]
    exact story_known ops (evs_known op h)

/-! ## The property -/

/-- **C259** — after any calls by anyone, failed ones included, the last word of the events on each value is the value in force. -/
theorem C259_page (ops : List Op) : known (story start ops) = exec start ops := story_known (l := []) ops rfl

/-- **C259 (foretelling)** — a reader of the events can foretell the fee of every transaction, and what a unit of EVM gas costs at least. -/
theorem C259_fee (ops : List Op) (e : Env) (t : Tx) : fee (known (story start ops)) e t = fee (exec start ops) e t ∧
    (known (story start ops)).baseFee = (exec start ops).baseFee := by
  rw [C259_page]
  exact ⟨rfl, rfl⟩

/-- **C259 (root)** — as long as root is silent, nothing is told and no fee changes. -/
theorem C259_silent : ∀ (ops : List Op) (s : St), (∀ op ∈ ops, op.origin ≠ .root) → story s ops = [] ∧ exec s ops = s
  | [], _, _ => ⟨rfl, rfl⟩
  | op :: ops, s, h => by
    have e : ∃ m, step s op = .error m := by
      cases e : step s op with
      | error m => exact ⟨m, rfl⟩
      | ok s' => exact absurd (C206_root e).1 (h op (List.mem_cons_self ..))
    obtain ⟨m, e⟩ := e
    have e1 : evs s op = [] := by
      unfold evs
      rw [e]
    have e2 : next s op = s := by
      unfold next
      rw [e]
    unfold story exec
    rw [e1, e2]
    exact C259_silent ops s fun o ho => h o (List.mem_cons_of_mem _ ho)

/-! ## Cases -/

/-- Root changes two values, one of them twice; a share above one, and an account, are refused. -/
def tale : List Op :=
  [.setWeightMul .root 200000, .setWeightMul .root 2000000000, .setLengthMul (.signed 5) 0, .setLengthMul .root 400,
    .setWeightMul .root 50000]

example : story start tale = [.weightMul 200000, .lengthMul 400, .weightMul 50000] ∧
    known (story start tale) = ⟨7500000000000, 50000, 400⟩ ∧ exec start tale = ⟨7500000000000, 50000, 400⟩ := by decide +kernel
example : fee (known (story start tale)) env0 small ≠ fee start env0 small := by decide +kernel
example := C259_silent [.setLengthMul (.signed 5) 0] start (by decide)

end Verif.Fees
