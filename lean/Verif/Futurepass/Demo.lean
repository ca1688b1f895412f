import Verif.Futurepass.Spec

/-! # Futurepass: a concrete chain used to show that hypotheses can be met -/

namespace Verif.Futurepass.Demo

/-- Futurepass `n` lives at `1000 + n`. Account 3 has signed one message, number 77: to be a delegate of 1001 until
block 100. Account 4 has signed one for 1001 as well, number 78. -/
def cfg : Cfg where
  addr := fun n => 1000 + n
  addr_inj := fun _ _ h => Nat.add_left_cancel h
  recover := fun sig m =>
    if sig = 77 ∧ m = (1001, 3, .any, 100) then some 3
    else if sig = 78 ∧ m = (1001, 4, .any, 100) then some 4
    else none
  base := 10
  factor := 5
  ed := 1
  maxProxies := 32

/-- Accounts 1 to 9 have money. -/
def g0 : St where
  next := 1
  holder := fun _ => none
  proxies := fun _ => []
  dep := fun _ => 0
  free := fun a => if 1 ≤ a ∧ a ≤ 9 then 1000 else 0
  reserved := fun _ => 0
  now := 1
  events := []

theorem genesis : Genesis cfg g0 := ⟨rfl, fun _ => rfl, fun _ => rfl, fun _ => rfl, fun _ => rfl, rfl⟩

/-- Checks that the accounts of an operation are below 1000. -/
def keyB : Op → Bool
  | .call who _ => decide (who < 1000)
  | .evm who _ => decide (who < 1000)
  | .contract who m _ _ => decide (who < 1000) && decide (m < 1000)
  | .block => true
  | .endow _ _ => true

theorem key_of {s : St} {op : Op} (h : keyB op = true) : NoKey cfg s op := by
  have hw : ∀ {w : Acct}, w < 1000 → ∀ n, w ≠ cfg.addr n := by
    intro w h n e
    subst e
    exact absurd h (Nat.not_lt.mpr (Nat.le_add_right 1000 n))
  cases op with
  | call who call => exact hw (of_decide_eq_true h)
  | evm who a => exact hw (of_decide_eq_true h)
  | contract who m dl a =>
    simp only [keyB, Bool.and_eq_true, decide_eq_true_eq] at h
    exact fun n => ⟨hw h.1 n, hw h.2 n⟩
  | block => trivial
  | endow a x => trivial

theorem along_of : ∀ (ops : List Op) (s : St), ops.all keyB = true → Along cfg (NoKey cfg) s ops
  | [], _, _ => trivial
  | op :: ops, s, h => by
    simp only [List.all_cons, Bool.and_eq_true] at h
    exact ⟨key_of h.1, along_of ops _ h.2⟩

theorem reach (ops : List Op) (h : ops.all keyB = true) : Reach cfg (NoKey cfg) g0 (exec cfg g0 ops) :=
  exec_reach ops (.init genesis) (along_of ops g0 h)

/-- A step that succeeds leads to `after`. -/
theorem after_ok {s : St} {op : Op} (h : (step cfg s op).isOk = true) : step cfg s op = .ok (after cfg s op) := by
  unfold after
  cases he : step cfg s op with
  | ok s1 => rfl
  | error e =>
    rw [he] at h
    cases h

/-- Account 1 creates a futurepass. -/
def opCreate : Op := .call 1 (.create 1)
/-- Account 1 makes 3 a delegate with its signature. -/
def opRegister : Op := .call 1 (.register 1001 3 .any 100 77)
/-- Account 1 makes 4 a delegate. -/
def opRegister4 : Op := .evm 1 (.direct (.pass 1001 (.register 4 .any 100 78)))
/-- Account 2 creates a futurepass for itself. -/
def opCreate2 : Op := .evm 2 (.direct (.registrar (some 2)))

def ops1 : List Op := [opCreate]
def ops2 : List Op := [opCreate, opRegister]
def ops3 : List Op := [opCreate, opRegister, opRegister4, opCreate2]

def d1 : St := exec cfg g0 ops1
def d2 : St := exec cfg g0 ops2
def d3 : St := exec cfg g0 ops3

theorem reach1 : Reach cfg (NoKey cfg) g0 d1 := reach _ (by decide +kernel)
theorem reach2 : Reach cfg (NoKey cfg) g0 d2 := reach _ (by decide +kernel)
theorem reach3 : Reach cfg (NoKey cfg) g0 d3 := reach _ (by decide +kernel)

theorem room1 : creations d1 + 1 < U128 := by decide +kernel
theorem room2 : creations d2 + 1 < U128 := by decide +kernel
theorem room3 : creations d3 + 1 < U128 := by decide +kernel

end Verif.Futurepass.Demo
