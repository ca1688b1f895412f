import Verif.Erc20Peg.Props

/-! The exact effect of single deposits and withdrawals (C86). -/

namespace Verif.Erc20Peg

/-- `who` receives exactly `x` of asset `a`: new money, or for the native token money of the bridge account. Nothing else
changes. -/
def Credited (c : Cfg) (L L' : Ledger) (a : AssetId) (who : Acct) (x : Nat) : Prop :=
  (∀ b, b ≠ a → L'.bal b = L.bal b ∧ L'.iss b = L.iss b) ∧
  if a = c.native then L'.iss a = L.iss a ∧ x ≤ L.bal a c.peg ∧
    ∀ y, L'.bal a y + (if y = c.peg then x else 0) = L.bal a y + (if y = who then x else 0)
  else L'.iss a = L.iss a + x ∧ ∀ y, L'.bal a y = L.bal a y + (if y = who then x else 0)

/-- Exactly `x` of asset `a` is taken from `who`: destroyed, or for the native token moved to the bridge account. Nothing
else changes. -/
def Debited (c : Cfg) (L L' : Ledger) (a : AssetId) (who : Acct) (x : Nat) : Prop :=
  x ≤ L.bal a who ∧ (∀ b, b ≠ a → L'.bal b = L.bal b ∧ L'.iss b = L.iss b) ∧
  if a = c.native then L'.iss a = L.iss a ∧
    ∀ y, L'.bal a y + (if y = who then x else 0) = L.bal a y + (if y = c.peg then x else 0)
  else L'.iss a = L.iss a - x ∧ ∀ y, L'.bal a y + (if y = who then x else 0) = L.bal a y

theorem credited {c : Cfg} {L L' : Ledger} {a : AssetId} {who : Acct} {x : Nat} (h : mintOrTransfer c L a who x = .ok L') :
    Credited c L L' a who x := by
  unfold mintOrTransfer at h
  unfold Credited
  split at h
  · rename_i hn
    obtain ⟨h1, h2, h3, h4⟩ := Ledger.transfer_ok h
    rw [if_pos hn]
    exact ⟨fun b hb => ⟨h3 b hb, by rw [h2]⟩, by rw [h2], h1, h4⟩
  · rename_i hn
    obtain ⟨h1, h2, h3, h4, h5⟩ := Ledger.mint_ok h
    rw [if_neg hn]
    exact ⟨fun b hb => ⟨h4 b hb, h3 b hb⟩, h2, h5⟩

theorem debited {c : Cfg} {L L' : Ledger} {a : AssetId} {who : Acct} {x : Nat} (h : burnOrTransfer c L a who x = .ok L') :
    Debited c L L' a who x := by
  unfold burnOrTransfer at h
  unfold Debited
  split at h
  · rename_i hn
    obtain ⟨h1, h2, h3, h4⟩ := Ledger.transfer_ok h
    rw [if_pos hn]
    exact ⟨h1, fun b hb => ⟨h3 b hb, by rw [h2]⟩, by rw [h2], h4⟩
  · rename_i hn
    obtain ⟨h1, h2, h3, h4, h5⟩ := Ledger.burn_ok h
    rw [if_neg hn]
    exact ⟨h1, fun b hb => ⟨h4 b hb, h3 b hb⟩, h2, h5⟩

/-- The peg contract responsible for an asset. -/
def contractFor (c : Cfg) (s : St) (a : AssetId) : Addr := if a = c.native then s.rootContract else s.contract

/-- A delay of `d` applies to a payment of `x`. -/
def Delays (s : St) (on : Bool) (a : AssetId) (x d : Nat) : Prop := on = true ∧ ∃ m, s.delay a = some (m, d) ∧ m ≤ x

theorem delayFor_iff {s : St} {on : Bool} {a : AssetId} {x d : Nat} : delayFor s on a x = some d ↔ Delays s on a x d := by
  unfold delayFor Delays
  cases on with
  | false => simp
  | true =>
    cases hd : s.delay a with
    | none => simp
    | some p =>
      obtain ⟨m, d'⟩ := p
      by_cases hm : m ≤ x
      · simp [hm]
      · simp [hm]

/-- C86: an accepted withdrawal takes exactly the amount, in the token mapped to the asset, and sends exactly one message
to the peg contract of the asset, at once or, if a delay applies, by a new waiting payment. -/
theorem C86_withdrawal {c : Cfg} {s s' : St} {who : Acct} {a : AssetId} {x : Nat} {ben : Addr} {e : Bool}
    (hs : step c s (.withdraw who a x ben e) = .ok s') (hU : s.nextId + 1 < U64) :
    s.wdActive = true ∧ Debited c s.ledger s'.ledger a who x ∧ ∃ t, s.toErc a = some t ∧
      (((∀ d, ¬ Delays s s.wdDelay a x d) ∧ s'.outbox = s.outbox ++ [(contractFor c s a, ⟨t, x, ben⟩)] ∧
          s'.payments = s.payments) ∨
        ((∃ d, Delays s s.wdDelay a x d) ∧ e = false ∧ s'.outbox = s.outbox ∧
          s'.payments = upd s.payments s.nextId (some (.withdrawal who ⟨t, x, ben⟩)))) := by
  have hs' := hs
  simp only [step, withdraw, bind_ok, ensure_ok, okOr_ok] at hs
  obtain ⟨_, _, _, hw, t0, ht0, hm⟩ := hs
  refine ⟨hw, ?_⟩
  rcases withdraw_sched hs' with ⟨L, d, t, ht, hd, hL, rfl⟩ | ⟨L, t, ht, hd, hL, rfl⟩
  · rw [hd] at hm
    simp only [bind_ok, ensure_ok] at hm
    obtain ⟨_, he, _⟩ := hm
    have e0 : delayPayment { s with ledger := L } d (.withdrawal who ⟨t, x, ben⟩) =
        { s with
          ledger := L
          payments := upd s.payments s.nextId (some (.withdrawal who ⟨t, x, ben⟩))
          nextId := s.nextId + 1
          sched := upd s.sched (min (s.now + d) (U32 - 1))
            (some ((s.sched (min (s.now + d) (U32 - 1))).getD [] ++ [s.nextId])) } := by
      unfold delayPayment; rw [if_pos hU]
    rw [e0]
    exact ⟨debited hL, t, ht, Or.inr ⟨⟨d, delayFor_iff.mp hd⟩, he, rfl, rfl⟩⟩
  · refine ⟨debited hL, t, ht, Or.inl ⟨fun d h => ?_, rfl, rfl⟩⟩
    rw [delayFor_iff.mpr h] at hd; cases hd

/-- Non-vacuity: a small withdrawal is sent at once, a large one waits; paused withdrawals are refused. -/
example : (step cfg0 demo (.withdraw 5 7268 3 78 false)).isOk = true ∧
    (step cfg0 demo (.withdraw 5 7268 20 78 false)).isOk = true ∧
    errIs (step cfg0 (after cfg0 demo (.setActive true false true true)) (.withdraw 5 7268 3 78 false)) "WithdrawalsPaused" = true := by
  decide +kernel

/-- C86: an accepted deposit comes from the peg contract responsible for the asset (or, for a token never seen before,
from either contract), its amount fits a `u128` (so that its conversion when credited never panics), and it credits exactly the
amount to the beneficiary, at once or, if a delay applies, by a new waiting payment. No message is sent. -/
theorem C86_deposit {c : Cfg} {s s' : St} {src : Addr} {d : Dep} (hs : step c s (.deposit src d) = .ok s')
    (hU : s.nextId + 1 < U64) :
    s.depActive = true ∧ (src = s.contract ∨ src = s.rootContract) ∧ d.amount < U128 ∧ s'.outbox = s.outbox ∧
      s'.accepted = s.accepted ++ [d] ∧
      (∀ a, s.toAsset d.token = some a → src = contractFor c s a ∧ s'.toAsset d.token = some a) ∧
      ∃ a, s'.toAsset d.token = some a ∧
        ((s'.payments = s.payments ∧ Credited c s.ledger s'.ledger a d.ben d.amount ∧
            (s.toAsset d.token = some a → ∀ n, ¬ Delays s s.depDelay a d.amount n)) ∨
          (s.toAsset d.token = some a ∧ (∃ n, Delays s s.depDelay a d.amount n) ∧ s'.ledger = s.ledger ∧
            s'.payments = upd s.payments s.nextId (some (.deposit d)))) := by
  have hs' := hs
  simp only [step, deposit, bind_ok, ensure_ok] at hs
  obtain ⟨_, h1, _, h2, _, h3, r, hr, hm⟩ := hs
  refine ⟨h2, h1, Nat.lt_of_lt_of_le h3 (Nat.sub_le _ _), ?_⟩
  have hsrc : ∀ a, s.toAsset d.token = some a → src = contractFor c s a := by
    intro a ha
    unfold checkKnown at hr
    rw [ha] at hr
    simp only [bind_ok, ensure_ok] at hr
    obtain ⟨_, h, _⟩ := hr
    exact h
  rcases deposit_sched hs' with ⟨n, a, ha, hd, rfl⟩ | ⟨s1, h, rfl, hn⟩
  · have e0 : delayPayment s n (.deposit d) =
        { s with
          payments := upd s.payments s.nextId (some (.deposit d))
          nextId := s.nextId + 1
          sched := upd s.sched (min (s.now + n) (U32 - 1))
            (some ((s.sched (min (s.now + n) (U32 - 1))).getD [] ++ [s.nextId])) } := by
      unfold delayPayment; rw [if_pos hU]
    rw [e0]
    exact ⟨rfl, rfl, fun b hb => ⟨hsrc b hb, hb⟩, a, ha, Or.inr ⟨ha, ⟨n, delayFor_iff.mp hd⟩, rfl, rfl⟩⟩
  · simp only [processDeposit, bind_ok, pure_ok] at h
    obtain ⟨q, hq, L, hL, rfl⟩ := h
    have key : q.1.outbox = s.outbox ∧ q.1.accepted = s.accepted ∧ q.1.payments = s.payments ∧ q.1.ledger = s.ledger ∧
        q.1.toAsset d.token = some q.2 ∧ ∀ b, s.toAsset d.token = some b → b = q.2 := by
      unfold assetFor at hq
      cases ha : s.toAsset d.token with
      | some b =>
        rw [ha] at hq; cases hq
        exact ⟨rfl, rfl, rfl, rfl, ha, fun b hb => (Option.some.inj hb).symm⟩
      | none =>
        rw [ha] at hq
        simp only [bind_ok, okOr_ok, pure_ok] at hq
        obtain ⟨a, _, rfl⟩ := hq
        exact ⟨rfl, rfl, rfl, rfl, upd_same _ _ _, fun b hb => nomatch hb⟩
    obtain ⟨k1, k2, k3, k4, k5, k6⟩ := key
    refine ⟨k1, by simp only [accept, k2], fun b hb => ⟨hsrc b hb, ?_⟩, q.2, k5, Or.inl ⟨k3, ?_, fun ha n hd => ?_⟩⟩
    · rw [k6 b hb]; exact k5
    · rw [← k4]; exact credited hL
    · have := hn q.2 ha
      rw [delayFor_iff.mpr hd] at this
      cases this

/-- Non-vacuity: known tokens from the right contract only, new tokens from either. -/
example : (step cfg0 demo (.deposit 10 ⟨600, 3, 5⟩)).isOk = true ∧ (step cfg0 demo (.deposit 11 ⟨600, 3, 5⟩)).isOk = false ∧
    (step cfg0 demo (.deposit 10 ⟨777, 3, 5⟩)).isOk = true ∧ (step cfg0 demo (.deposit 12 ⟨777, 3, 5⟩)).isOk = false := by
  decide +kernel

/-- C86: what a waiting payment does when it is executed, in terms of balances: a withdrawal sends its message; a deposit
credits its beneficiary, or is recorded as failed and changes no balance. -/
theorem C86_executed {c : Cfg} {s s' : St} {p : Payment} (h : Executed c s s' p) :
    ∃ a, s.toAsset p.token = some a ∧ match p with
      | .withdrawal _ w => s'.ledger = s.ledger ∧ s'.outbox = s.outbox ++ [(contractFor c s a, w)]
      | .deposit d => s'.outbox = s.outbox ∧
          ((Credited c s.ledger s'.ledger a d.ben d.amount ∧ s'.failed = s.failed) ∨
            (s'.ledger = s.ledger ∧ s'.failed = s.failed ++ [d])) := by
  cases p with
  | withdrawal src w =>
    obtain ⟨h1, _, a, ha, h2⟩ := h
    exact ⟨a, ha, h1, h2⟩
  | deposit d =>
    obtain ⟨h1, a, ha, ⟨h2, h3⟩ | ⟨_, h2, h3⟩⟩ := h
    · exact ⟨a, ha, h1, Or.inl ⟨credited h2, h3⟩⟩
    · exact ⟨a, ha, h1, Or.inr ⟨h2, h3⟩⟩

end Verif.Erc20Peg
