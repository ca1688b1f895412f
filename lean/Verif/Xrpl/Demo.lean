import Verif.Xrpl.Credit
import Verif.Xrpl.Delayed
import Verif.Xrpl.Tickets

/-!
# Concrete histories: the hypotheses of the theorems are met, and what is not true of the code
-/

namespace Verif.Xrpl

def cfg0 : Cfg where
  xrp := 2
  native := 1
  pot := 99
  period := 2
  maxPruned := 5000
  maxDelayed := 10
  blockLimit := 10
  txLimit := 5
  ledgerLimit := 5
  codec := fun _ e => decide (-96 ≤ e ∧ e ≤ 80)

def mkL : Except Err Ledger := do
  let L ← Ledger.empty.mint 2 5 1000
  let L ← L.mint 3 5 1234567890123456789012
  let L ← L.mint 1 99 1000
  let L ← L.mint 2 6 18446744073709551716
  L.mint 4 5 1000

def L0 : Ledger := mkL.toOption.getD Ledger.empty

theorem L0_ok : mkL = .ok L0 := ok_getD (by decide +kernel)

theorem L0_sound : L0.Sound := by
  have h := L0_ok
  simp only [mkL, bind_ok] at h
  obtain ⟨_, h1, _, h2, _, h3, _, h4, h5⟩ := h
  exact Ledger.mint_sound h5 (Ledger.mint_sound h4 (Ledger.mint_sound h3 (Ledger.mint_sound h2
    (Ledger.mint_sound h1 Ledger.sound_empty))))

/-- Asset 3 has 6 decimals, asset 4 has 100 and its withdrawals are delayed by two blocks. -/
def g0 : St where
  ledger := L0
  dec := upd (upd (fun _ => 6) 4 100) 3 18
  relayer := fun w => decide (w = 8)
  toAsset := upd (upd (upd (fun _ => none) 70 (some 3)) 71 (some 4)) 72 (some 1)
  toXrpl := upd (upd (upd (fun _ => none) 3 (some 70)) 4 (some 71)) 1 (some 72)
  proc := fun _ => []
  details := fun _ => none
  settled := fun _ => []
  highest := 0
  pruned := 0
  window := 10
  challenged := fun _ => false
  delay := upd (fun _ => none) 4 (some (1, 2))
  payments := fun _ => none
  sched := fun _ => []
  ptr := 1
  nextId := 0
  seq := fun _ => 0
  params := fun _ => (0, 3)
  next := fun _ => (0, 0)
  fee := fun _ => 10
  door := fun d => match d with
    | .main => some 500
    | .nft => some 600
  now := 1
  outbox := []
  credited := []
  lost := []

theorem g0_genesis : Genesis g0 :=
  ⟨by simp only [g0]; exact L0_sound, fun _ => rfl, fun _ => rfl, fun _ => rfl, fun _ => rfl, fun _ => rfl,
    by decide +kernel, by decide +kernel, fun _ => rfl, rfl, rfl, rfl⟩

theorem along_any {c : Cfg} {s : St} : ∀ ops, Along c Any s ops
  | [] => trivial
  | _ :: ops => ⟨trivial, along_any ops⟩

theorem demo (ops : List Op) : Reach cfg0 Any g0 (exec cfg0 g0 ops) := exec_reach ops (.init g0_genesis) (along_any ops)

def yes : Hash → Bool := fun _ => true

/-! ## C39, C40, C88 -/

/-- Three deposits, one of the native asset, submitted in block 1, and one of them submitted twice. -/
def dep : St := exec cfg0 g0 [.submit 8 100 11 (.payment 50 7), .submit 8 100 12 (.currency 30 7 70),
  .submit 8 101 13 (.currency 40 7 72), .submit 8 100 11 (.payment 50 7), .block [5] [5] yes]

theorem dep_reach : Reach cfg0 Any g0 dep := demo _

/-- The state after they are credited in block 3. -/
def dep3 : St := exec cfg0 dep [.block [5] [5] yes]

example : dep.proc 3 = [11, 12, 13] ∧ dep3.credited = [(11, 100, .payment 50 7), (12, 100, .currency 30 7 70),
    (13, 101, .currency 40 7 72)] ∧ dep3.ledger.bal 2 7 = 50 ∧ dep3.ledger.bal 3 7 = 30 ∧ dep3.ledger.bal 1 7 = 40 ∧
    dep3.ledger.bal 1 99 = 960 ∧ errIs (submit cfg0 dep 8 100 11 (.payment 50 7)) "TxReplay" = true := by decide +kernel

-- C39: a history in which transactions are credited and others are refused
example : Reach cfg0 Any g0 (exec cfg0 g0 [.submit 8 100 11 (.payment 50 7), .block [] [] yes, .block [] [] yes,
    .submit 8 100 11 (.payment 50 7), .submit 8 120 21 (.payment 1 7), .block [] [] yes, .block [] [] yes, .block [] [9, 9] yes,
    .submit 8 100 11 (.payment 50 7)]) ∧
    (exec cfg0 g0 [.submit 8 100 11 (.payment 50 7), .block [] [] yes, .block [] [] yes,
    .submit 8 100 11 (.payment 50 7), .submit 8 120 21 (.payment 1 7), .block [] [] yes, .block [] [] yes, .prune 100,
    .submit 8 100 11 (.payment 50 7), .block [] [] yes, .block [] [] yes, .block [] [] yes]).credited =
      [(11, 100, .payment 50 7), (21, 120, .payment 1 7)] := ⟨demo _, by decide +kernel⟩

-- C39_replay and C40_submit: an accepted submission
example : (submit cfg0 g0 8 100 11 (.payment 50 7)).isOk = true := by decide +kernel

-- C40_unchallenged_partial, C88_block: the block that credits them
example : (block cfg0 dep [5] [5] yes).isOk = true ∧ 12 ∈ dep.proc (dep.now + 1) ∧
    dep.details 12 = some (100, .currency 30 7 70) ∧ dep.challenged 12 = false ∧
    pays cfg0 dep.toAsset (.currency 30 7 70) = some (3, 7, 30) ∧ (3 : AssetId) ≠ cfg0.native ∧
    dep3.ledger.iss 3 + 30 < U128 ∧ pays cfg0 dep.toAsset (.currency 40 7 72) = some (1, 7, 40) ∧ (1 : AssetId) = cfg0.native ∧
    40 ≤ dep3.ledger.bal 1 cfg0.pot := by decide +kernel

-- C40_pending: other operations while a deposit waits
example : 12 ∈ dep.proc 3 ∧ (exec cfg0 dep [.challenge 5 11, .submit 8 100 14 (.payment 5 5)]).now < 3 := by decide +kernel

/-- A deposit that a relayer submitted, and then anybody's challenge. -/
def pending : St := exec cfg0 g0 [.submit 8 100 11 (.payment 50 7)]
def disputed : St := exec cfg0 pending [.challenge 66 11]

theorem disputed_reach : Reach cfg0 Any g0 disputed :=
  exec_reach [.challenge 66 11] (demo [.submit 8 100 11 (.payment 50 7)]) (along_any _)

/-- C40, second half, is false: account 66, which is no relayer and pays nothing, challenges a valid deposit; whatever happens
afterwards, that deposit is never credited, and it cannot be submitted again while it is known. -/
theorem C40_refuted : Reach cfg0 Any g0 disputed ∧ pending.relayer 66 = false ∧ pending.details 11 = some (100, .payment 50 7) ∧
    disputed.ledger.bal 2 66 = 0 ∧ errIs (submit cfg0 disputed 8 100 11 (.payment 50 7)) "TxReplay" = true ∧
    ∀ ops s', Run cfg0 Any disputed ops s' → ∀ y ∈ s'.credited, y.1 ≠ 11 := by
  refine ⟨disputed_reach, by decide +kernel, by decide +kernel, by decide +kernel, by decide +kernel, ?_⟩
  intro ops s' hr y hy e
  have := C40_challenged hr (h := 11) (by decide +kernel) y hy e
  have he : disputed.credited = [] := by decide +kernel
  rw [he] at this
  cases this

-- C40_challenged
example : disputed.challenged 11 = true ∧ (exec cfg0 disputed [.block [] [] yes, .block [] [] yes, .block [] [] yes]).credited = [] := by
  decide +kernel

/-! ## C41, C89 -/

-- C41_rounding, C41_issued, C89_taken: 22 digits are asked for, 16 are taken
example : cfg0.xrp ≠ cfg0.native ∧ (3 : AssetId) ≠ cfg0.xrp ∧ g0.delay 3 = none ∧
    saturate cfg0 g0 1234567890123456789012 3 = .ok 1234567890123456000000 := by
  refine ⟨by decide +kernel, by decide +kernel, by decide +kernel, ?_⟩
  have : ((saturate cfg0 g0 1234567890123456789012 3).toOption.getD 0 = 1234567890123456000000 ∧
      (saturate cfg0 g0 1234567890123456789012 3).isOk = true) := by decide +kernel
  revert this
  cases saturate cfg0 g0 1234567890123456789012 3 with
  | error e => intro h; cases h.2
  | ok v => intro h; exact congrArg _ h.1

example : (exec cfg0 g0 [.withdraw 5 3 1234567890123456789012 800 none]).outbox =
    [⟨.main, 0, 500, 800, none, 10, .issued 1234567890123456 (-12) 70⟩] ∧
    (exec cfg0 g0 [.withdraw 5 3 1234567890123456789012 800 none]).ledger.bal 3 5 = 789012 ∧
    (exec cfg0 g0 [.withdraw 5 3 1234567890123456789012 800 none]).ledger.bal 2 5 = 990 := by decide +kernel

-- C41_xrp_partial
example : (exec cfg0 g0 [.withdraw 5 2 900 800 (some 4)]).outbox = [⟨.main, 0, 500, 800, some 4, 10, .xrp 900⟩] ∧
    g0.delay cfg0.xrp = none ∧ (900 : Nat) < U64 := by decide +kernel

/-- The withdrawal of more drops than fit 64 bits. -/
def huge : St := exec cfg0 g0 [.withdraw 6 2 18446744073709551700 800 none]

/-- C41 is false for XRP amounts of 2^64 drops and more: the whole amount is taken, and 2^64 - 1 drops are sent. -/
theorem C41_xrp_refuted : Reach cfg0 Any g0 huge ∧
    huge.ledger.bal 2 6 + 18446744073709551700 + 10 = g0.ledger.bal 2 6 ∧
    huge.outbox = [⟨.main, 0, 500, 800, none, 10, .xrp 18446744073709551615⟩] := ⟨demo _, by decide +kernel, by decide +kernel⟩

/-! ## C42 -/

/-- The allocation rule is respected: the bucket 0..2 is used up and 3..6 follows. -/
def fresh : St := exec cfg0 g0 [.nextAlloc 8 .nft 3 4, .nftTx 1, .nftTx 1, .nftTx 1, .nftTx 1, .withdraw 5 2 1 800 none,
  .signers, .withdraw 5 4 7 800 none]

theorem fresh_reach : Reach cfg0 Fresh g0 fresh := by
  refine exec_reach _ (.init g0_genesis) ?_
  refine ⟨?_, ?_, ?_, ?_, ?_, ?_, ?_, ?_, trivial⟩ <;> decide +kernel

example : fresh.outbox.map (fun m => (m.door, m.ticket)) = [(.nft, 0), (.nft, 1), (.nft, 2), (.nft, 3), (.main, 0), (.main, 1),
    (.nft, 4)] ∧ (fresh.payments 0).map (fun w => w.ticket) = some 2 := by decide +kernel

/-- The relayer allocates 1..5 while 0..2 is in use: the call accepts it. -/
def overlap : St := exec cfg0 g0 [.nextAlloc 8 .nft 1 5, .nftTx 1, .nftTx 1, .nftTx 1, .nftTx 1]

/-- C42 is false in general: an allocation that overlaps the current one is accepted, and then a ticket is used twice. -/
theorem C42_refuted : Reach cfg0 Any g0 overlap ∧
    overlap.outbox.map (fun m => (m.door, m.ticket)) = [(.nft, 0), (.nft, 1), (.nft, 2), (.nft, 1)] :=
  ⟨demo _, by decide +kernel⟩

/-! ## C43 -/

/-- A delayed withdrawal of 40 of the asset with 6 decimals, in block 1 for block 3. -/
def late : St := exec cfg0 g0 [.setDelay 3 (some (10, 2)), .withdraw 5 3 40 800 none, .withdraw 5 3 41 801 none]
def due : St := exec cfg0 late [.block [] [] yes, .block [1] [] yes]

theorem due_reach : Reach cfg0 (fun s _ => s.door .main ≠ none) g0 due := by
  have h : Reach cfg0 (fun s _ => s.door .main ≠ none) g0 late := by
    refine exec_reach _ (.init g0_genesis) ?_
    refine ⟨?_, ?_, ?_, trivial⟩ <;> decide +kernel
  refine exec_reach _ h ?_
  refine ⟨?_, ?_, trivial⟩ <;> decide +kernel

-- C43_scheduled, C41_delayed
example : late.sched 3 = [0, 1] ∧ late.outbox = [] ∧ (late.payments 1).map (fun w => (w.sender, w.amount, w.dest)) =
    some (5, 41, 801) ∧ (exec cfg0 g0 [.setDelay 3 (some (10, 2))]).delay 3 = some (10, 2) ∧
    ((late.payments 1).bind (msgOf cfg0 late.dec 500)).isSome = true := by decide +kernel

-- C43_live, C43_block: three units of work before the second one; four blocks suffice
example : 1 ∈ due.sched 3 ∧ 3 ≤ due.now ∧ due.ptr = 2 ∧ turn due 3 1 = 2 ∧
    (exec cfg0 due [.block [1] [] yes, .block [1] [] yes, .block [1] [] yes]).outbox.map (fun m => m.dest) = [800, 801] ∧
    [Op.block [1] [] yes, .block [1] [] yes, .block [1] [] yes].countP good = 3 := by decide +kernel

/-- A withdrawal of the asset with 100 decimals: immediate withdrawals of it are refused, delayed ones are accepted. -/
def lostSt : St := exec cfg0 g0 [.withdraw 5 4 25 800 none, .block [9] [] yes, .block [9, 9] [] yes, .block [9, 9] [] yes]

/-- C43, "submitted exactly once", is false: a delayed withdrawal is accepted and the tokens are destroyed although the
transaction cannot be built; when its turn comes the error is ignored, nothing is sent and nothing is given back. The same
withdrawal without a delay is refused. -/
theorem C43_lost_refuted : Reach cfg0 Any g0 lostSt ∧ lostSt.ledger.bal 4 5 + 25 = g0.ledger.bal 4 5 ∧
    lostSt.ledger.iss 4 + 25 = g0.ledger.iss 4 ∧ lostSt.outbox = [] ∧ lostSt.payments 0 = none ∧ lostSt.sched 3 = [] ∧
    lostSt.ptr = 4 ∧ lostSt.lost.map (fun w => (w.sender, w.amount, w.asset)) = [(5, 25, 4)] ∧
    errIs (withdraw cfg0 (exec cfg0 g0 [.setDelay 4 none]) 5 4 25 800 none) "InvalidMantissaExponentConversion" = true :=
  ⟨demo _, by decide +kernel, by decide +kernel, by decide +kernel, by decide +kernel, by decide +kernel, by decide +kernel,
    by decide +kernel, by decide +kernel⟩

end Verif.Xrpl
