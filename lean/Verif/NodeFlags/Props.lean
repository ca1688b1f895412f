import Verif.NodeFlags.Model
import Verif.SignKeys.Props

/-! # C268: a node does for the bridges what its flags say -/

namespace Verif.NodeFlags

open Verif.SignKeys

/-! ## Specification -/

/-- An operation that leaves the node running, with the flags it has. -/
def Keeps : Op → Prop
  | .block _ => True
  | .purge => True
  | _ => False

/-- The address last given since the data of the chain was last removed; `on` says whether the node runs. -/
def lastGiven (on : Bool) (u : Option Nat) : List Op → Option Nat
  | [] => u
  | .start f :: ops => lastGiven true (f.eth.or u) ops
  | .stop :: ops => lastGiven false u ops
  | .block _ :: ops => lastGiven on u ops
  | .purge :: ops => lastGiven on (if on = true then u else none) ops

/-! ## Lemmas -/

theorem configure_eth (d : Disk) (f : Flags) : (configure d f).eth = f.eth.or d.eth := by
  unfold configure
  cases f.eth <;> cases f.xrp <;> rfl

theorem runs_append (n : Node) (a b : List Op) : runs n (a ++ b) = runs (runs n a) b := List.foldl_append ..

theorem keeps_step (n : Node) (f : Flags) (h : n.run = some f) (op : Op) (hk : Keeps op) :
    (step n op).run = some f ∧ (step n op).disk.eth = n.disk.eth := by
  cases op with
  | start f => exact hk.elim
  | stop => exact hk.elim
  | block b => simp [step, h]
  | purge => simp [step, h]

theorem keeps_runs (ops : List Op) : ∀ (n : Node) (f : Flags), n.run = some f → (∀ op ∈ ops, Keeps op) →
    (runs n ops).run = some f ∧ (runs n ops).disk.eth = n.disk.eth := by
  induction ops with
  | nil => intro n f h _; exact ⟨h, rfl⟩
  | cons op ops ih =>
    intro n f h hk
    obtain ⟨h1, h2⟩ := keeps_step n f h op (hk op List.mem_cons_self)
    obtain ⟨h3, h4⟩ := ih (step n op) f h1 (fun o ho => hk o (List.mem_cons_of_mem _ ho))
    exact ⟨h3, h4.trans h2⟩

theorem eth_eq (ops : List Op) : ∀ n : Node, (runs n ops).disk.eth = lastGiven n.run.isSome n.disk.eth ops := by
  induction ops with
  | nil => intro n; rfl
  | cons op ops ih =>
    intro n
    show (runs (step n op) ops).disk.eth = _
    rw [ih]
    cases op with
    | start f => simp [step, lastGiven, configure_eth]
    | stop => rfl
    | block b => cases h : n.run <;> simp [step, lastGiven, h]
    | purge => cases h : n.run <;> simp [step, lastGiven, h]

/-- The flags after a history that ends in a run. -/
theorem last_run (ops later : List Op) (f : Flags) (hl : ∀ op ∈ later, Keeps op) :
    (runs fresh (ops ++ .start f :: later)).run = some f ∧
    (runs fresh (ops ++ .start f :: later)).disk.eth = f.eth.or (runs fresh ops).disk.eth := by
  rw [runs_append]
  have := keeps_runs later (step (runs fresh ops) (.start f)) f rfl hl
  exact ⟨this.1, this.2.trans (configure_eth _ _)⟩

/-! ## Theorems -/

/-- **C268**: whatever was before, a validator that is started with an address for Ethereum asks that address, and only it, until
it is stopped or started again. -/
theorem C268_given (ops later : List Op) (f : Flags) (u : Nat) (hl : ∀ op ∈ later, Keeps op) (hu : f.eth = some u)
    (hv : f.validator = true) (ho : f.ocw = true) : asks (runs fresh (ops ++ .start f :: later)) = some u := by
  obtain ⟨h1, h2⟩ := last_run ops later f hl
  simp [asks, h1, h2, hv, ho, hu]

/-- Whom a running validator asks, for all histories: the address last given since the data of the chain was removed. -/
theorem C268_last (ops : List Op) (f : Flags) (h : (runs fresh ops).run = some f) (hv : f.validator = true) (ho : f.ocw = true) :
    asks (runs fresh ops) = lastGiven false none ops := by
  have := eth_eq ops fresh
  simp only [asks, h, hv, ho, and_self, if_true]
  exact this

/-- A node that is not started as a validator asks nobody and never votes, whatever keys are on its disk. -/
theorem C268_not_validator (multi : List Nat → Nat → List Nat) (ops later : List Op) (f : Flags) (hl : ∀ op ∈ later, Keeps op)
    (hv : f.validator = false) (held : List Nat) (v : VSet) (b : Block) :
    asks (runs fresh (ops ++ .start f :: later)) = none ∧ nodeVotes multi (runs fresh (ops ++ .start f :: later)) held v b = [] := by
  obtain ⟨h1, _⟩ := last_run ops later f hl
  refine ⟨by simp [asks, h1, hv], ?_⟩
  simp only [nodeVotes, h1, hv]
  split
  · exact C267_passive_partial multi v _ (by intro held h; simp at h)
  · rfl

/-- A validator votes as C267 says if the protocol of the votes is on, and never if it is off. -/
theorem C268_votes (multi : List Nat → Nat → List Nat) (ops later : List Op) (f : Flags) (hl : ∀ op ∈ later, Keeps op)
    (hv : f.validator = true) (held : List Nat) (v : VSet) (b : Block) (hb : b.store = some held) :
    nodeVotes multi (runs fresh (ops ++ .start f :: later)) held v b = if f.p2p = true then votes multi v b else [] := by
  obtain ⟨h1, _⟩ := last_run ops later f hl
  simp only [nodeVotes, h1, hv, if_true]
  rw [← hb]

/-- A stopped node does nothing. -/
theorem C268_stopped (multi : List Nat → Nat → List Nat) (ops : List Op) (held : List Nat) (v : VSet) (b : Block) :
    asks (runs fresh (ops ++ [.stop])) = none ∧ nodeVotes multi (runs fresh (ops ++ [.stop])) held v b = [] := by
  rw [runs_append]
  exact ⟨rfl, rfl⟩

/-! ## The hypotheses are met -/

def f1 : Flags := ⟨some 8545, none, true, true, true⟩
def f2 : Flags := ⟨none, some 51234, true, true, true⟩

example : (∀ op ∈ [Op.block 1, .purge, .block 2], Keeps op) ∧ f1.eth = some 8545 ∧ f1.validator = true ∧ f1.ocw = true ∧
    asks (runs fresh [.start f2, .block 0, .stop, .purge, .start f1, .block 1, .purge, .block 2]) = some 8545 := by
  refine ⟨?_, rfl, rfl, rfl, by decide +kernel⟩
  intro op h
  simp only [List.mem_cons, List.not_mem_nil, or_false] at h
  rcases h with rfl | rfl | rfl <;> exact trivial

example : lastGiven false none [.start f1, .stop, .start f2] = some 8545 := by decide +kernel
example : lastGiven false none [.start f1, .stop, .purge, .start f2] = none := by decide +kernel

example : nodeVotes m0 (runs fresh [.start f1]) [11] ⟨0, [11]⟩ ⟨true, ⟨0, [11]⟩, true, some [11], [r0]⟩ =
    [⟨7, 0, 11, [1, 2, 11], (11, [1, 2, 11])⟩] := by decide +kernel

example : nodeVotes m0 (runs fresh [.start { f1 with validator := false }]) [11] ⟨0, [11]⟩
    ⟨true, ⟨0, [11]⟩, true, some [11], [r0]⟩ = [] := by decide +kernel

/-! ## What does not hold -/

/-- A validator that is started without an address for Ethereum asks the address of an earlier run. -/
theorem C268_off_refuted :
    ¬ ∀ (ops : List Op) (f : Flags), f.eth = none → asks (runs fresh (ops ++ [.start f])) = none := by
  intro h
  have := h [.start f1, .stop] f2 rfl
  exact absurd this (by decide +kernel)

/-- The address for the XRP Ledger is asked by nobody: without it the node does the same. -/
theorem C268_xrp_unused (multi : List Nat → Nat → List Nat) (n : Node) (f : Flags) (u : Option Nat) (held : List Nat) (v : VSet)
    (b : Block) :
    asks (step n (.start { f with xrp := u })) = asks (step n (.start f)) ∧
    nodeVotes multi (step n (.start { f with xrp := u })) held v b = nodeVotes multi (step n (.start f)) held v b := by
  refine ⟨?_, rfl⟩
  simp [asks, step, configure_eth]

/-- Removing the chain leaves its Ethereum index: the node goes on knowing Ethereum blocks of a chain that is gone. -/
theorem C268_purge_refuted :
    ¬ ∀ (ops : List Op), (runs fresh ops).run = none → (runs fresh (ops ++ [.purge])).disk = fresh.disk := by
  intro h
  have := h [.start f1, .block 5, .stop] rfl
  exact absurd this (by decide +kernel)

end Verif.NodeFlags
