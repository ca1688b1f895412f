import Verif.Dex.Fee

/-! Concrete histories of the exchange, used to show that the theorems' hypotheses are met. -/

namespace Verif.Dex

/-- The production constants (/repo/runtime/src/lib.rs). -/
def cfg0 : Cfg := ⟨3, 1000, 3, 100⟩

/-- Three ordinary assets owned by account 9, no balances. -/
def g0 : St where
  led := Ledger.empty
  owner := fun a => if a = 1 ∨ a = 2 ∨ a = 3 then some 9 else none
  nextId := 1
  feeTo := none
  lp := fun _ => none
  res := fun _ => (0, 0)
  lastK := fun _ => 0
  enabled := fun _ => false
  now := 10

theorem genesis_g0 : Genesis g0 :=
  ⟨Ledger.sound_empty, fun _ _ => rfl, fun _ => rfl, fun _ => rfl, fun _ => rfl, fun _ => rfl⟩

theorem keyed_small {x : Acct} (h : x < 1000) : Keyed x := by
  refine ⟨?_, fun p => ?_⟩
  · rintro rfl; revert h; decide
  · rintro rfl
    unfold poolAddr at h
    simp only [Nat.reducePow, Nat.reduceMul] at h
    change (_ : Nat) < (_ : Nat) at h
    omega

theorem run_reach {c : Cfg} : ∀ (ops : List Op) {s s' : St}, Reach c s →
    (∀ op ∈ ops, ∀ w, op.signer = some w → w < 1000) → run c s ops = .ok s' → Reach c s'
  | [], s, s', h, _, e => by cases e; exact h
  | op :: ops, s, s', h, hk, e => by
    simp only [run, bind_ok] at e
    obtain ⟨s1, e1, e2⟩ := e
    exact run_reach ops (h.step (fun w hw => keyed_small (hk op (by simp) w hw)) e1)
      (fun o ho => hk o (by simp [ho])) e2

/-- Two pools, 1/2 and 2/3, funded by account 7; account 8 trades. -/
def demoOps : List Op :=
  [.mintAsset 9 1 7 1000000000000, .mintAsset 9 2 7 1000000000000, .mintAsset 9 3 7 1000000000000,
   .mintAsset 9 1 8 5000000000, .mintAsset 9 2 8 5000000000,
   .add 7 1 2 1000000000 4000000000 0 0 7 (some 10),
   .add 7 3 2 3000000000 2000000000 0 0 7 none]

/-- The state after `demoOps`. -/
def demo : St := (run cfg0 g0 demoOps).toOption.getD g0

theorem demo_run : run cfg0 g0 demoOps = .ok demo := by
  have h : (run cfg0 g0 demoOps).isOk = true := by decide +kernel
  unfold demo
  cases e : run cfg0 g0 demoOps with
  | error x => rw [e] at h; cases h
  | ok s => rfl

theorem demo_reach : Reach cfg0 demo :=
  run_reach demoOps (.init genesis_g0) (by decide) demo_run

/-- Run operations from `demo`. -/
def after (ops : List Op) : St := (run cfg0 demo ops).toOption.getD demo

end Verif.Dex
