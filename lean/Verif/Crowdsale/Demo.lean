import Verif.Crowdsale.Props

/-!
# Concrete histories and counterexamples for crowdsales
-/

namespace Verif.Crowdsale

/-- Vaults are the accounts from 1000 on; two payments per call. -/
def cd : Cfg where
  vault := fun n => 1000 + n
  rank := fun w => w
  maxPerBlock := 5
  maxQueue := 10
  maxPay := 2
  maxDuration := 1000
  mintLimit := 1000
  maxTokens := 10000
  vault_inj := fun _ _ h => Nat.add_left_cancel h

theorem cd_limits : Limits cd := by unfold Limits; decide

def g0 : St where
  ledger := Ledger.empty
  issuer := fun _ => none
  colls := fun _ => none
  next := 0
  sale := fun _ => none
  keys := fun _ => []
  contrib := fun _ _ => 0
  ending := fun _ => []
  queue := []
  now := 100
  events := []

theorem g0_genesis : Genesis g0 where
  sound := Ledger.sound_empty
  fresh := fun _ _ => rfl
  next := rfl
  sale := fun _ => rfl
  keys := fun _ => rfl
  contrib := fun _ _ => rfl
  ending := fun _ => rfl
  queue := rfl
  events := rfl

/-- Signed by an ordinary account, burning from ordinary accounts. -/
def calmB (op : Op) : Bool := ((signer op).all (· < 1000)) && ((seized op).all (· < 1000))

theorem calm_of {s : St} {op : Op} (h : calmB op = true) : Calm cd s op := by
  unfold calmB at h
  simp only [Bool.and_eq_true] at h
  refine ⟨fun w hw id => ?_, fun w hw id => ?_⟩
  · rw [hw] at h
    have := h.1
    simp only [Option.all_some, decide_eq_true_eq] at this
    intro e
    subst e
    exact absurd this (Nat.not_lt.mpr (Nat.le_add_right 1000 id))
  · rw [hw] at h
    have := h.2
    simp only [Option.all_some, decide_eq_true_eq] at this
    intro e
    subst e
    exact absurd this (Nat.not_lt.mpr (Nat.le_add_right 1000 id))

def timedB (s : St) (op : Op) : Bool :=
  calmB op && (match op with | .launch _ _ _ _ d _ => decide (d ≠ 0) | _ => true) && decide (s.now + 2 < U32)

theorem timed_of {s : St} {op : Op} (h : timedB s op = true) : Timed cd s op := by
  unfold timedB at h
  simp only [Bool.and_eq_true, decide_eq_true_eq] at h
  refine ⟨calm_of h.1.1, ?_, h.2⟩
  rintro who pay coll price v rfl
  simp at h

def freshB (s : St) (op : Op) : Bool :=
  calmB op && (match op with
    | .launch _ _ coll _ _ _ => (s.colls coll).all (fun k => decide (k.next = 0) && k.mintable &&
        k.max.all (fun m => decide (m < cd.maxTokens) && decide (m < U32)))
    | _ => true)

theorem fresh_of {s : St} {op : Op} (h : freshB s op = true) : Fresh cd s op := by
  unfold freshB at h
  simp only [Bool.and_eq_true] at h
  refine ⟨calm_of h.1, ?_⟩
  rintro who pay coll price dur v rfl k hk
  have h2 := h.2
  simp only [hk, Option.all_some, Bool.and_eq_true, decide_eq_true_eq] at h2
  refine ⟨h2.1.1, h2.1.2, fun m hm => ?_⟩
  have h3 := h2.2
  simp only [hm, Option.all_some, Bool.and_eq_true, decide_eq_true_eq] at h3
  exact h3

def alongB (B : St → Op → Bool) (s : St) : List Op → Bool
  | [] => true
  | op :: ops => B s op && alongB B (after cd s op) ops

theorem along_of {G : St → Op → Prop} {B : St → Op → Bool} (h : ∀ s op, B s op = true → G s op) :
    ∀ (ops : List Op) (s : St), alongB B s ops = true → Along cd G s ops
  | [], _, _ => trivial
  | op :: ops, s, hb => by
    unfold alongB at hb
    simp only [Bool.and_eq_true] at hb
    exact ⟨h _ _ hb.1, along_of h ops _ hb.2⟩

theorem calm_demo {ops : List Op} (h : alongB (fun _ => calmB) g0 ops = true) :
    Reach cd (Calm cd) g0 (exec cd g0 ops) :=
  exec_reach _ (.init g0_genesis) (along_of (fun _ _ => calm_of) _ _ h)

theorem timed_demo {ops : List Op} (h : alongB timedB g0 ops = true) :
    Reach cd (Timed cd) g0 (exec cd g0 ops) :=
  exec_reach _ (.init g0_genesis) (along_of (fun _ _ => timed_of) _ _ h)

theorem fresh_demo {ops : List Op} (h : alongB freshB g0 ops = true) :
    Reach cd (Fresh cd) g0 (exec cd g0 ops) :=
  exec_reach _ (.init g0_genesis) (along_of (fun _ _ => fresh_of) _ _ h)

/-- Account 1 issues asset 5; account 20 sells collection 7 (ten NFTs) for it at a price of 10. -/
def setup (x y max price dur : Nat) : List Op :=
  [.act 1 (.createAsset 5), .act 1 (.mintAsset 5 30 x), .act 1 (.mintAsset 5 31 y), .act 20 (.createColl 7 (some max)),
    .launch 20 5 7 price dur 6, .enable 20 0]

/-- The open sale: 30 and 31 put in 25 and 40, 31 in two parts. -/
def sOpen : St := exec cd g0 (setup 500 400 10 10 3 ++ [.participate 30 0 25, .participate 31 0 10, .block,
  .participate 31 0 30])

/-- The sale has closed below its cap. -/
def sPay : St := exec cd g0 (setup 500 400 10 10 3 ++ [.participate 30 0 25, .participate 31 0 10, .block,
  .participate 31 0 30, .block, .block])

/-- Everybody was paid by one call. -/
def sOver : St := exec cd g0 (setup 500 400 10 10 3 ++ [.participate 30 0 25, .participate 31 0 10, .block,
  .participate 31 0 30, .block, .block, .distribute])

/-- An oversubscribed sale: 300 and 200 for ten NFTs at 10. -/
def sFull : St := exec cd g0 (setup 500 400 10 10 3 ++ [.participate 30 0 300, .participate 31 0 200, .block,
  .block, .block])

theorem sOpen_reach : Reach cd (Calm cd) g0 sOpen := calm_demo (by decide +kernel)
theorem sPay_reach : Reach cd (Calm cd) g0 sPay := calm_demo (by decide +kernel)
theorem sOver_reach : Reach cd (Calm cd) g0 sOver := calm_demo (by decide +kernel)
theorem sFull_reach : Reach cd (Calm cd) g0 sFull := calm_demo (by decide +kernel)

/-- C48: who was paid what, and that the record of it is on the ledger too. -/
example : ((sOver.sale 0).map (fun i => (i.status, i.raised, i.price))) = some (.ended 103, 65, 10) ∧
    put 0 30 sOver.events = 25 ∧ put 0 31 sOver.events = 40 ∧ got 0 30 sOver.events = [2500000] ∧
    got 0 31 sOver.events = [4000000] ∧ share 10 65 10 25 = 2500000 ∧
    sOver.ledger.bal 6 30 = 2500000 ∧ sOver.ledger.bal 6 31 = 4000000 ∧ sOver.ledger.bal 6 20 = 3500000 := by
  decide +kernel

/-- C48: oversubscribed sales share out all vouchers; 31 claims before the payout call. -/
example : sFull.ledger.bal 6 1000 = 10000000 ∧ share 10 500 10 300 = 6000000 ∧ sFull.contrib 0 31 = 200 ∧
    ((step cd sFull (.claim 31 0)).toOption.map (fun s => (s.ledger.bal 6 31, s.ledger.bal 6 1000))) =
      some (4000000, 6000000) := by decide +kernel

/-- C48: the hypotheses of the payout theorems. -/
example : (∃ i, sPay.sale 0 = some i ∧ i.paying ∧ Sells sPay i 10 ∧ i.raised * 1000000 < U128) ∧
    sPay.queue = [0] ∧ sPay.keys 0 = [30, 31] ∧ sPay.contrib 0 30 = 25 ∧ sPay.ledger.bal 6 1000 = 6500000 := by
  refine ⟨⟨_, rfl, ⟨103, 0, by decide +kernel⟩, ⟨_, rfl, by decide +kernel⟩, by decide +kernel⟩, ?_⟩
  decide +kernel

/-- A sale at a price of 2^126 in which two accounts each pay for one NFT. -/
def sHuge : St := exec cd g0 (setup (2 ^ 126) (2 ^ 126) 10 (2 ^ 126) 3 ++ [.participate 30 0 (2 ^ 126),
  .participate 31 0 (2 ^ 126), .block, .block, .block])

/-- C48 is false when the funds raised times 10^6 exceed 128 bits: the vouchers kept back are computed with a
saturating product. Here both contributors paid for one NFT each, a million vouchers; the vault keeps three vouchers,
the first claim gets those and the second nothing. -/
theorem C48_refuted : ∃ s s1 s2 i, Reach cd (Calm cd) g0 s ∧ s.sale 0 = some i ∧ i.paying ∧ Sells s i 10 ∧
    share i.price i.raised 10 (s.contrib 0 30) = 1000000 ∧ share i.price i.raised 10 (s.contrib 0 31) = 1000000 ∧
    s.ledger.bal i.voucher i.vault = 3 ∧ step cd s (.claim 30 0) = .ok s1 ∧ step cd s1 (.claim 31 0) = .ok s2 ∧
    s2.ledger.bal i.voucher 30 = 3 ∧ s2.ledger.bal i.voucher 31 = 0 := by
  refine ⟨sHuge, exec cd sHuge [.claim 30 0], exec cd sHuge [.claim 30 0, .claim 31 0], _,
    calm_demo (by decide +kernel), rfl, ⟨103, 0, by decide +kernel⟩, ⟨_, rfl, by decide +kernel⟩, ?_, ?_, ?_, ?_, ?_, ?_⟩
  · decide +kernel
  · decide +kernel
  · decide +kernel
  · exact ok_getD (d := sHuge) (by decide +kernel)
  · exact ok_getD (d := exec cd sHuge [.claim 30 0]) (by decide +kernel)
  · decide +kernel

/-- C49. -/
example : (∃ i, sOpen.sale 0 = some i ∧ i.isOpen ∧ i.raised = 65) ∧ sOpen.ledger.bal 5 1000 = 65 ∧
    sOpen.ledger.bal 5 20 = 0 ∧ sPay.ledger.bal 5 20 = 65 ∧ sPay.ledger.bal 5 1000 = 0 ∧
    (sOpen.ending 103 = [0]) ∧ (exec cd sOpen [.block]).now = 102 := by
  refine ⟨⟨_, rfl, by decide +kernel, by decide +kernel⟩, ?_⟩
  decide +kernel

/-- C49: a contribution. -/
example : ((step cd sOpen (.participate 32 0 1)).isOk = false) ∧
    ((step cd sOpen (.participate 30 0 5)).toOption.map (fun s => (s.contrib 0 30, s.ledger.bal 5 30))) =
      some (30, 470) := by decide +kernel

/-- C49: the closing block. -/
example : ∃ i, (exec cd sOpen [.block]).sale 0 = some i ∧ i.isOpen ∧
    (exec cd sOpen [.block]).ending ((exec cd sOpen [.block]).now + 1) = [] ++ 0 :: [] := by
  refine ⟨_, rfl, by decide +kernel, by decide +kernel⟩

/-- C50: two NFTs are redeemed; a third is not covered by what is left. -/
example : ((step cd sOver (.redeem 30 0 2)).toOption.map (fun s =>
      (s.ledger.bal 6 30, s.ledger.iss 6, (s.colls 7).map Coll.issued, redeemed 0 s.events))) =
      some (500000, 8000000, some 2, 2) ∧
    (step cd sOver (.redeem 30 0 3)).isOk = false := by decide +kernel

/-- C50: the former owner and the administrator cannot mint or make the collection public. -/
example : (step cd sOpen (.act 20 (.mintNft 7 1))).isOk = false ∧
    (step cd sOpen (.act 20 (.setPublic 7 true))).isOk = false ∧
    (step cd sOpen (.proxy 20 0 (.setPublic 7 true))).isOk = false ∧
    (step cd sOpen (.proxy 20 0 (.setName 7))).isOk = true := by decide +kernel

/-- C51: an open sale in a history with durations of at least one block. -/
example : Reach cd (Timed cd) g0 sOpen ∧ (sOpen.sale 0).map Sale.status = some (.enabled 100) ∧
    (sOpen.sale 0).map Sale.duration = some 3 ∧ sOpen.now = 101 :=
  ⟨timed_demo (by decide +kernel), by decide +kernel, by decide +kernel, by decide +kernel⟩

/-- A sale that was launched with a duration of zero, opened, and paid into. -/
def sStuck : St := exec cd g0 (setup 500 400 10 10 0 ++ [.participate 30 0 25, .block, .block])

/-- C51 is false: the sale's end block has passed and it is open, and it will stay so. -/
theorem C51_refuted : ∃ s i b, Reach cd (Calm cd) g0 s ∧ s.sale 0 = some i ∧ i.status = .enabled b ∧
    b + i.duration < s.now ∧ i.raised = 25 ∧ ∀ s', Run cd (Calm cd) s s' → ∃ j, s'.sale 0 = some j ∧ j.isOpen := by
  have hr : Reach cd (Calm cd) g0 sStuck := calm_demo (by decide +kernel)
  refine ⟨sStuck, _, 100, hr, rfl, by decide +kernel, by decide +kernel, by decide +kernel, ?_⟩
  intro s' hrun
  have T : Stuck sStuck 0 := by
    refine ⟨⟨_, rfl, by decide +kernel⟩, fun b hb hm => ?_⟩
    have hnow : sStuck.now = 102 := by decide +kernel
    rw [hnow] at hb
    obtain ⟨s0, h0⟩ : ∃ s0, s0 = exec cd g0 (setup 500 400 10 10 0 ++ [.participate 30 0 25]) := ⟨_, rfl⟩
    have e : sStuck = block cd (block cd s0) := by rw [h0]; rfl
    rw [e, (block_now _ _).2, upd_ne _ _ (by rw [(block_now _ _).1, h0]; intro eb; subst eb; revert hb; decide +kernel),
      (block_now _ _).2, upd_ne _ _ (by rw [h0]; intro eb; subst eb; revert hb; decide +kernel)] at hm
    have e2 : s0.ending = upd (fun _ => []) 100 [0] := by rw [h0]; rfl
    rw [e2, upd_ne _ _ (by omega)] at hm
    cases hm
  suffices Stuck s' 0 from this.sale
  induction hrun with
  | nil => exact T
  | step hrun2 _ hst ih =>
    have hre := hr.run hrun2
    refine ih.step ?_ hst
    by_contra hne
    exact absurd ((reach_ids hre _).mp hne) (lt_irrefl _)

/-- C51: the hypotheses of `C51_stuck`. -/
example : ∃ i, (exec cd g0 ((setup 500 400 10 10 0).take 5)).sale 0 = some i ∧ i.duration = 0 ∧
    (step cd (exec cd g0 ((setup 500 400 10 10 0).take 5)) (.enable 20 0)).isOk = true :=
  ⟨_, rfl, by decide +kernel, by decide +kernel⟩

/-- C94: three contributors need two calls. -/
example : let s := exec cd g0 (setup 500 400 10 10 3 ++ [.act 30 (.transfer 5 32 50), .participate 30 0 25,
      .participate 31 0 40, .participate 32 0 50, .block, .block, .block])
    s.queue = [0] ∧ s.keys 0 = [30, 31, 32] ∧ (exec cd s [.distribute]).keys 0 = [32] ∧
    (exec cd s [.distribute]).queue = [0] ∧ (exec cd s [.distribute, .distribute]).queue = [] := by decide +kernel

/-- C95: the hypotheses. -/
example : Reach cd (Fresh cd) g0 sOver ∧ (∃ i, sOver.sale 0 = some i ∧ i.isOver ∧
    2 * 1000000 ≤ sOver.ledger.bal i.voucher 30) :=
  ⟨fresh_demo (by decide +kernel), _, rfl, ⟨103, by decide +kernel⟩, by decide +kernel⟩

/-- A collection that minted and burned one NFT before the sale, and a sale in which 30 pays for all ten NFTs. -/
def sBurned : St := exec cd g0 [.act 1 (.createAsset 5), .act 1 (.mintAsset 5 30 100), .act 20 (.createColl 7 (some 10)),
  .act 20 (.mintNft 7 1), .act 20 (.burnNft 7), .launch 20 5 7 10 3 6, .enable 20 0, .participate 30 0 100,
  .block, .block, .block, .distribute]

/-- The administrator switched off minting before the sale. -/
def sLocked : St := exec cd g0 [.act 1 (.createAsset 5), .act 1 (.mintAsset 5 30 100), .act 20 (.createColl 7 (some 10)),
  .act 20 (.setMintable 7 false), .launch 20 5 7 10 3 6, .enable 20 0, .participate 30 0 100,
  .block, .block, .block, .distribute]

/-- C95 is false for collections that minted before: the serial of the burned NFT is used up, so the last voucher
cannot be redeemed. -/
theorem C95_burned_refuted : ∃ s i, Reach cd (Calm cd) g0 s ∧ s.sale 0 = some i ∧ i.isOver ∧
    s.ledger.bal i.voucher 30 = 10 * 1000000 ∧ errIs (step cd s (.redeem 30 0 10)) "MaxIssuanceReached" = true :=
  ⟨sBurned, _, calm_demo (by decide +kernel), rfl, ⟨103, by decide +kernel⟩, by decide +kernel, by decide +kernel⟩

/-- C95 is false for collections whose owner switched off minting before the sale: no voucher can be redeemed. -/
theorem C95_locked_refuted : ∃ s i, Reach cd (Calm cd) g0 s ∧ s.sale 0 = some i ∧ i.isOver ∧
    s.ledger.bal i.voucher 30 = 10 * 1000000 ∧ ∀ q s', step cd s (.redeem 30 0 q) ≠ .ok s' := by
  refine ⟨sLocked, _, calm_demo (by decide +kernel), rfl, ⟨103, by decide +kernel⟩, by decide +kernel, ?_⟩
  intro q s' h
  obtain ⟨i, k, h1, h2, h3, _⟩ := redeem_needs h
  have hc : (sLocked.colls 7).map Coll.mintable = some false := by decide +kernel
  have hi : (sLocked.sale 0).map Sale.coll = some 7 := by decide +kernel
  rw [h1] at hi
  have e : i.coll = 7 := Option.some.inj hi
  rw [← e, h2] at hc
  simp [h3] at hc

/-- A collection of as many NFTs as a collection can have, sold out to account 30. -/
def sBig : St := exec cd g0 [.act 1 (.createAsset 5), .act 1 (.mintAsset 5 30 100000),
  .act 20 (.createColl 7 (some 10000)), .launch 20 5 7 10 3 6, .enable 20 0, .participate 30 0 100000,
  .block, .block, .block, .distribute, .redeem 30 0 1000, .redeem 30 0 1000, .redeem 30 0 1000, .redeem 30 0 1000,
  .redeem 30 0 1000, .redeem 30 0 1000, .redeem 30 0 1000, .redeem 30 0 1000, .redeem 30 0 1000, .redeem 30 0 999]

/-- C95 is false for collections of the maximal size: minting requires the number of tokens to stay strictly below the
limit, so the last voucher cannot be redeemed. -/
theorem C95_size_refuted : ∃ s i, Reach cd (Calm cd) g0 s ∧ s.sale 0 = some i ∧ i.isOver ∧
    s.ledger.bal i.voucher 30 = 1000000 ∧ errIs (step cd s (.redeem 30 0 1)) "TokenLimitExceeded" = true :=
  ⟨sBig, _, calm_demo (by decide +kernel), rfl, ⟨103, by decide +kernel⟩, by decide +kernel, by decide +kernel⟩

/-- C96: the vault after a proxied call and a transfer to it. -/
example : sOpen.ledger.bal 6 1000 = 10000000 ∧
    (exec cd sOpen [.proxy 20 0 (.transfer 6 20 1)]).ledger.bal 6 1000 = 10000000 ∧
    (exec cd sOpen [.act 30 (.transfer 5 1000 3)]).ledger.bal 5 1000 = 68 := by decide +kernel

/-- C97. -/
example : ((exec cd g0 (setup 500 400 10 10 3)).sale 0).map Sale.status = some (.enabled 100) ∧
    ((exec cd g0 ((setup 500 400 10 10 3).take 5)).sale 0).map Sale.status = some (.pending 100) ∧
    (step cd (exec cd g0 ((setup 500 400 10 10 3).take 5)) (.enable 30 0)).isOk = false := by decide +kernel

end Verif.Crowdsale
