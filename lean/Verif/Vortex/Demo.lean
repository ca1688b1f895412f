import Verif.Vortex.Props

/-!
# Concrete histories and counterexamples for the vortex distribution
-/

namespace Verif.Vortex

/-- Vault 100, fee pot 101, root pot 102; vortex is asset 3, the native asset is 1; batches of one. -/
def cd : Cfg where
  vault := 100
  feeVault := 101
  rootVault := 102
  vtx := 3
  native := 1
  batch := 1
  interval := 5
  rank := fun w => w
  rank_inj := fun _ _ h => h
  native_ne := by decide

def g0 : St where
  ledger := Ledger.empty
  admin := none
  next := 0
  status := fun _ => .disabled
  eras := fun _ => (0, 0)
  keys := fun _ => []
  book := fun _ _ => (0, false)
  priced := fun _ => []
  price := fun _ _ => 0
  total := fun _ => 0
  pivot := fun _ => none
  unsignedAt := 0
  now := 0
  events := []

theorem g0_genesis : Genesis g0 where
  sound := Ledger.sound_empty
  next := rfl
  status := fun _ => rfl
  keys := fun _ => rfl
  book := fun _ _ => rfl
  priced := fun _ => rfl
  total := fun _ => rfl
  pivot := fun _ => rfl
  events := rfl

theorem demo (ops : List Op) : Reach cd Any g0 (exec cd g0 ops) :=
  exec_reach ops (.init g0_genesis) (along_any ops g0)

/-- Root appoints account 9, who creates, prices, fills and triggers a distribution over a fee pot of 900
of asset 2 and 50 native, then starts it. -/
def fill : List Op :=
  [.mint 2 101 900, .mint 1 102 50, .setAdmin none 9, .create (some 9), .setPrices (some 9) [(2, 7)] 0,
   .register (some 9) 0 [(11, 30), (10, 20), (12, 40)], .trigger (some 9) 0]

def s1 : St := exec cd g0 fill
def s2 : St := exec cd g0 (fill ++ [.start (some 9) 0])
/-- The first call pays accounts 10 and 11, the second 12, the third finishes. -/
def s3 : St := exec cd g0 (fill ++ [.start (some 9) 0, .pay 0 0])
def s4 : St := exec cd g0 (fill ++ [.start (some 9) 0, .pay 0 0, .pay 0 0, .pay 0 0])

theorem fill_calm : Along cd (Calm cd) g0 (fill ++ [.start (some 9) 0, .pay 0 0, .pay 0 0, .pay 0 0]) := by
  refine ⟨?_, ?_, ?_, ?_, ?_, ?_, ?_, ?_, ?_, ?_, ?_, trivial⟩ <;> decide +kernel

theorem s4_calm : Reach cd (Calm cd) g0 s4 := by
  exact exec_reach _ (.init g0_genesis) fill_calm

theorem s2_calm : Reach cd (Calm cd) g0 s2 := by
  refine exec_reach _ (.init g0_genesis) ?_
  refine ⟨?_, ?_, ?_, ?_, ?_, ?_, ?_, ?_, trivial⟩ <;> decide +kernel

/-- C44: the hypotheses are met half way and at the end. -/
example : s2.status 0 = .paying ∧ s2.ledger.bal 3 100 = 90 ∧ s2.ledger.bal 2 100 = 900 ∧ s2.ledger.bal 1 100 = 50 := by
  decide +kernel
example : s3.status 0 = .paying ∧ payouts 0 10 s3.events = [20] ∧ payouts 0 11 s3.events = [30] ∧
    payouts 0 12 s3.events = [] ∧ s3.ledger.bal 3 100 = 40 := by decide +kernel
example : s4.status 0 = .done ∧ s4.ledger.bal 3 100 = 0 ∧ s4.ledger.bal 3 12 = 40 := by decide +kernel
example : payouts 0 12 s4.events = [40] :=
  (C44_paid_partial s4_calm 0 12).1 (by decide +kernel) (by decide +kernel)

/-- C44: two registrations of which one makes the sum wrap. -/
def wrapped : St := exec cd g0 [.create none, .register none 0 [(10, 340282366920938463463374607431768211455), (11, 1)],
  .trigger none 0, .start none 0, .pay 0 0, .pay 0 0, .pay 0 0]

/-- C44 fails in full: when the sum of the rewards wraps, the distribution completes although nobody was
paid. -/
theorem C44_paid_refuted :
    ∃ s, Reach cd Any g0 s ∧ s.status 0 = .done ∧ Registered s 0 11 ∧ reward s 0 11 = 1 ∧
      payouts 0 11 s.events = [] ∧ payouts 0 10 s.events = [] := by
  refine ⟨wrapped, demo _, ?_⟩
  decide +kernel

/-- C45: the hypotheses are met. -/
theorem s1_fresh : Reach cd (Fresh cd) g0 s1 := by
  refine exec_reach _ (.init g0_genesis) ?_
  refine ⟨?_, ?_, ?_, ?_, ?_, ?_, ?_, trivial⟩ <;> decide +kernel

example : (step cd s1 (.start (some 9) 0)).isOk = true ∧ owed s1 0 = 90 := by decide +kernel

/-- C45: account 10 is registered twice. -/
def twice : St := exec cd g0 [.create none, .register none 0 [(10, 20)], .register none 0 [(10, 30)], .trigger none 0]

/-- C45 fails in full: an account registered twice is owed its last reward only, but both are minted. -/
theorem C45_minted_refuted :
    ∃ s s', Reach cd Any g0 s ∧ step cd s (.start none 0) = .ok s' ∧ owed s 0 = 30 ∧
      s'.ledger.iss cd.vtx = s.ledger.iss cd.vtx + 50 := by
  refine ⟨twice, exec cd twice [.start none 0], demo _, ?_, ?_⟩
  · exact ok_getD (d := twice) (by decide +kernel)
  · decide +kernel

/-- C46: account 11 redeems 30 of 90 vortex and receives a third of the vault's asset 2. -/
example : (step cd s4 (.redeem 11 0 30)).isOk = true ∧ (exec cd s4 [.redeem 11 0 30]).ledger.bal 2 11 = 300 ∧
    (exec cd s4 [.redeem 11 0 30, .redeem 10 0 7]).ledger.bal 2 10 = 70 ∧
    (exec cd s4 [.redeem 11 0 30]).ledger.iss 3 = 60 := by decide +kernel

/-- C90: a vault with a billion tokens of an 18-decimals asset. -/
def rich : St := exec cd g0 [.mint 2 101 1000000000000000000000000000, .create none, .setPrices none [(2, 1)] 0,
  .register none 0 [(10, 1000000000000)], .trigger none 0, .start none 0, .pay 0 0, .pay 0 0]

/-- C90 fails in full: the holder of all the vortex, a million tokens, redeems it and receives only a third of
the billion tokens in the vault. -/
theorem C90_share_refuted :
    ∃ s s', Reach cd Any g0 s ∧ step cd s (.redeem 10 0 1000000000000) = .ok s' ∧
      s.ledger.iss cd.vtx = 1000000000000 ∧ s.ledger.bal 2 cd.vault = 1000000000000000000000000000 ∧
      s'.ledger.bal 2 10 = 340282366920938463463374607 ∧ s'.ledger.iss cd.vtx = 0 := by
  refine ⟨rich, exec cd rich [.redeem 10 0 1000000000000], demo _, ?_, ?_⟩
  · exact ok_getD (d := rich) (by decide +kernel)
  · decide +kernel

/-- C47: the stages. -/
example : s1.status 0 = .triggered ∧ s1.next = 1 ∧ mints 0 s1.events = [] ∧ mints 0 s4.events = [90] := by
  decide +kernel

/-- C91: after the start, five payout calls complete the distribution with other calls in between. -/
example : s2.status 0 = .paying ∧ (s2.keys 0).length = 3 ∧
    (exec cd s2 [.pay 0 0, .nextBlock, .pay 0 0, .create none, .pay 0 0, .pay 0 0, .pay 0 0]).status 0 = .done := by
  decide +kernel

/-- C92: an outsider cannot do any of it. -/
example : errIs (step cd s1 (.start (some 8) 0)) "RequireAdmin" = true := by decide +kernel

/-- C93 fails in full: one call makes two payments with a batch size of one. -/
theorem C93_batch_refuted :
    ∃ s s', Reach cd Any g0 s ∧ step cd s (.pay 0 0) = .ok s' ∧ cd.batch = 1 ∧
      payCount s'.events = payCount s.events + 2 := by
  refine ⟨s2, exec cd s2 [.pay 0 0], ?_, ?_, rfl, ?_⟩
  · exact demo _
  · exact ok_getD (d := s2) (by decide +kernel)
  · decide +kernel

end Verif.Vortex
