import Verif.Ethy.Votes

/-! Concrete histories of the bridge. -/

namespace Verif.Ethy

/-- The production constants (/repo/runtime/src/lib.rs), bonds in XRP. -/
def cfg0 : Cfg := ⟨1000, 1000, 100, 100, 100, 66⟩

/-- Four notaries, a challenge period of 10 blocks, nothing submitted. -/
def g0 : St where
  now := 0
  period := 10
  processed := []
  missed := []
  validAt := fun _ => []
  claims := fun _ => none
  status := fun _ => none
  challenges := []
  challenger := fun _ => none
  votes := fun _ => []
  notaryKeys := [11, 12, 13, 14]
  valCount := 4
  relayer := none
  bond := fun _ => 0
  free := fun _ => 1000
  held := fun _ => 0
  log := []

theorem genesis_g0 : Genesis g0 :=
  ⟨rfl, rfl, fun _ => rfl, fun _ => rfl, fun _ => rfl, rfl, fun _ => rfl, fun _ => rfl, rfl,
   fun _ => rfl, fun _ => rfl, rfl⟩

theorem exec_reach {c : Cfg} {P : Op → Prop} {G : St → Prop} : ∀ (ops : List Op) {s : St},
    ReachP c P G s → (∀ op ∈ ops, P op) → ReachP c P G (exec c s ops)
  | [], _, h, _ => h
  | op :: ops, s, h, hp => by
    unfold exec
    refine exec_reach ops ?_ (fun o ho => hp o (List.mem_cons_of_mem _ ho))
    cases hs : step c s op with
    | ok s1 => exact h.step (hp op List.mem_cons_self) hs
    | error _ => exact h

theorem exec_Reach (c : Cfg) (ops : List Op) {s : St} (h : Genesis s) : Reach c (exec c s ops) :=
  exec_reach ops (.init h trivial) (fun _ _ => trivial)

/-- Relayer 1 is bonded and submits claim 100 for event 5. -/
def opsSubmit : List Op := [.depositBond 1, .setRelayer 1, .submitEvent 1 5 100]

/-- Account 2 challenges it. -/
def opsChallenge : List Op := opsSubmit ++ [.challenge 2 5]

/-- Three of four notaries confirm it. -/
def opsValid : List Op :=
  opsChallenge ++ [.notarize 0 5 true, .notarize 1 5 true, .notarize 2 5 true]

/-- Two of four notaries reject it. -/
def opsInvalid : List Op := opsChallenge ++ [.notarize 0 5 false, .notarize 3 5 false]

/-- `n` blocks. -/
def blocks (n : Nat) : List Op := List.replicate n .nextBlock

end Verif.Ethy
