import Verif.Entry.Props

/-!
# Block lists and switched-off calls (C116, C117, C118, C119)

The log records everything that ran. A sender who cannot act as the sudo key, directly or through a chain of
futurepasses, is an ordinary user.
-/

namespace Verif.Entry

/-! ## Specification -/

/-- The pallet, or this call of it, has been put on the operators' block lists. -/
def OnList (s : St) (p f : Name) : Prop :=
  s.blockedPallet (bounded (lower p)) = true ∨ s.blockedCall (bounded (lower p), bounded (lower f)) = true

/-- The log entry is of a pallet function on the block lists. -/
def HitsList (s : St) (e : Ran) : Prop :=
  match e.act with
  | .call x => OnList s (callName x).1 (callName x).2
  | .pre p f _ => OnList s p f
  | .evm _ => False

/-- The calls the runtime never lets users make. -/
def switchedOff : List (Name × Name) :=
  [(nm "Assets", nm "create"), (nm "EthBridge", nm "submit_challenge"),
   (nm "XRPLBridge", nm "submit_challenge"), (nm "Staking", nm "payout_stakers"),
   (nm "Proxy", nm "add_proxy")]

/-- An ordinary user's transaction. -/
structure ByUser (c : Cfg) (s : St) (op : Op) (w : Acct) : Prop where
  sender : sender c op = some w
  ordinary : ¬ Acts s.delegate w s.sudoKey

/-! ## Helpers -/

theorem settle_user {c : Cfg} {w : Acct} {v : Via} {r : Except Err St} {s : St}
    (h : ∀ s1, r = .ok s1 → UserEff c w v s s1) : UserEff c w v s (settle r s) := by
  rcases settle_cases r s with h1 | h1
  · exact h _ h1
  · rw [h1]; exact UserEff.refl _ _ _ _

/-- How a transaction comes in. -/
def viaOf : Op → Via
  | .ethereum .. => .ethereum
  | .xrpl .. => .xrpl
  | .doughnut .. => .doughnut
  | _ => .signed

theorem UserEff.start {c : Cfg} {w : Acct} {v : Via} {s s0 s1 : St} (h : UserEff c w v s0 s1)
    (hd : s0.delegate = s.delegate) (ht : Tables s s0) (hl : s0.log = s.log) :
    Tables s s1 ∧ Since s s1 (Proper s w v) := by
  refine ⟨ht.trans h.tables, ?_⟩
  obtain ⟨l, e, p⟩ := h.since
  exact ⟨l, by rw [e, hl], fun x hx => (p x hx).back hd ht⟩

/-- What an ordinary user's transaction can do. -/
theorem user_step {c : Cfg} {s s1 : St} {op : Op} {w : Acct} (hw : ByUser c s op w)
    (h : step c s op = .ok s1) : Tables s s1 ∧ Since s s1 (Proper s w (viaOf op)) := by
  obtain ⟨hw, hn⟩ := hw
  cases op with
  | signed who n tip x =>
    cases hw
    obtain ⟨_, _, _, _, rfl⟩ := signedTx_ok h
    refine (settle_user (c := c) (w := w) (v := .signed) fun s2 h2 => ?_).start rfl
      ⟨rfl, rfl, rfl, rfl, rfl, rfl⟩ rfl
    exact dispatch_user h2 .self hn
  | ethereum src n t i l =>
    obtain ⟨_, _, rfl⟩ := ethereumTx_ok h
    refine (settle_user (c := c) (w := w) (v := .ethereum) fun s2 h2 => ?_).start rfl
      ⟨rfl, rfl, rfl, rfl, rfl, rfl⟩ rfl
    exact userEff_evm h2
  | xrpl m sig x =>
    obtain ⟨a, _, _, _, ha, _, _, _, _, _, _, rfl⟩ := xrplTx_ok h
    refine (settle_user (c := c) (w := w) (v := .xrpl) fun s2 h2 => ?_).start rfl
      ⟨rfl, rfl, rfl, rfl, rfl, rfl⟩ rfl
    obtain ⟨_, _, a', ha', h2⟩ := xTransact_ok h2
    rw [sender, ha'] at hw
    cases hw
    exact dispatch_user h2 .self hn
  | doughnut p n g tip sig x =>
    obtain ⟨_, _, _, _, _, _, _, _, _, _, _, rfl⟩ := doughnutTx_ok h
    refine (settle_user (c := c) (w := w) (v := .doughnut) fun s2 h2 => ?_).start rfl
      ⟨rfl, rfl, rfl, rfl, rfl, rfl⟩ rfl
    obtain ⟨_, _, iss, _, _, hi, _, _, _, _, _, _, _, rfl⟩ := dTransact_ok h2
    rw [sender, hi] at hw
    cases hw
    exact settle_user fun s3 h3 => dispatch_user h3 .self hn
  | nextBlock => cases hw
  | setFunds a x => cases hw
  | reap a => cases hw
  | fpNew a fp => cases hw
  | fpMove fp b => cases hw
  | setDelegate fp d b => cases hw

theorem not_onList {c : Cfg} {k : Acct} {s : St} (hr : Reach c k s) {p f : Name}
    (h : pausedName s p f = false) : ¬ OnList s p f := by
  rintro (h1 | h1)
  · have hb := (hr.listed.pallet h1).2.2.2
    by_cases hp : blockable (lower p) = false
    · rw [protected_bounded (blockable_iff.mp hp), hp] at hb; cases hb
    · unfold pausedName at h
      rw [if_neg hp, h1] at h
      simp at h
  · have hb := (hr.listed.call h1).2.2.2.1
    by_cases hp : blockable (lower p) = false
    · rw [protected_bounded (blockable_iff.mp hp), hp] at hb; cases hb
    · unfold pausedName at h
      rw [if_neg hp, h1] at h
      simp at h

/-! ## C116: the block lists hold through every wrapping -/

/-- Whatever way an ordinary user's transaction comes in (signed extrinsic, Ethereum transaction, XRPL
message, doughnut) and however its calls are nested, nothing on the block lists runs, except what a precompile
of the direct kind runs. (Partial because of that exception; see `C116_refuted`.) -/
theorem C116_blocked_never_runs_partial {c : Cfg} {k : Acct} {s s1 : St} {op : Op} {w : Acct}
    (hr : Reach c k s) (hw : ByUser c s op w) (h : step c s op = .ok s1) :
    Since s s1 (fun e => HitsList s e → ∃ p f, e.act = .pre p f true) := by
  apply (user_step hw h).2.mono
  rintro e ⟨_, _, ⟨x, a, h1, _, _, h2, _⟩ | ⟨t, h1⟩ | ⟨p, f, d, h1, h2⟩⟩ hh
  · unfold HitsList at hh
    rw [h1] at hh
    exact absurd hh (not_onList hr h2)
  · unfold HitsList at hh
    rw [h1] at hh
    exact hh.elim
  · rcases h2 with rfl | ⟨h2, _⟩
    · exact ⟨p, f, h1⟩
    · unfold HitsList at hh
      rw [h1] at hh
      exact absurd hh (not_onList hr h2)

/-- No transaction of an ordinary user changes the operators' switches. -/
theorem C116_lists_safe {c : Cfg} {s s1 : St} {op : Op} {w : Acct} (hw : ByUser c s op w)
    (h : step c s op = .ok s1) :
    s1.active = s.active ∧ s1.blockedAcct = s.blockedAcct ∧ s1.blockedEvm = s.blockedEvm ∧
      s1.blockedCall = s.blockedCall ∧ s1.blockedPallet = s.blockedPallet ∧ s1.white = s.white := by
  have t := (user_step hw h).1
  exact ⟨t.active, t.blockedAcct, t.blockedEvm, t.blockedCall, t.blockedPallet, t.white⟩

/-- The Dex pallet is blocked, and a user swaps all the same through the Dex precompile. -/
def dexSub : Sub where
  caller := 13
  target := 56797
  precompile := some (nm "Dex", nm "swap_with_exact_supply")
  direct := true

theorem acts_none {dl : Acct → Acct → Bool} (h : ∀ a b, dl a b = false) {w a : Acct} (hw : w ≠ a) :
    ¬ Acts dl w a := by
  intro ha
  cases ha with
  | self => exact hw rfl
  | via _ hd => rw [h] at hd; cases hd

theorem C116_refuted : ∃ (c : Cfg) (k : Acct) (s s1 : St) (op : Op) (w : Acct) (e : Ran),
    Reach c k s ∧ ByUser c s op w ∧ step c s op = .ok s1 ∧ s1.log.head? = some e ∧
    e.act = .pre (nm "Dex") (nm "swap_with_exact_supply") true ∧ HitsList s e := by
  refine ⟨Demo.cfg, 1, Demo.sDex, _, .ethereum 13 0 56797 0 [dexSub], 13,
    { via := .ethereum, origin := .signed 13, act := .pre (nm "Dex") (nm "swap_with_exact_supply") true,
      paused := true, maint := false },
    Demo.reach_sDex, ⟨rfl, acts_none (fun _ _ => rfl) ?_⟩, ok_getD (d := Demo.sDex) ?_, ?_, rfl, .inl ?_⟩
  · decide +kernel
  · decide +kernel
  · decide +kernel
  · decide +kernel

/-- An ordinary user in a state with a block list; the transaction is accepted and the blocked call inside
the batch is the one thing that does not run. -/
example : Reach Demo.cfg 1 Demo.sDex ∧
    ByUser Demo.cfg Demo.sDex
      (.signed 13 0 0 (.batch false (.remark [5]) (.other (nm "Dex") (nm "add_liquidity") true))) 13 ∧
    OnList Demo.sDex (nm "Dex") (nm "add_liquidity") ∧
    (exec Demo.cfg Demo.sDex
      [.signed 13 0 0 (.batch false (.remark [5]) (.other (nm "Dex") (nm "add_liquidity") true))]).log.map Ran.act
      = .call (.remark [5]) :: Demo.sDex.log.map Ran.act ∧
    (exec Demo.cfg Demo.s0
      [.signed 13 0 0 (.batch false (.remark [5]) (.other (nm "Dex") (nm "add_liquidity") true))]).log.map Ran.act
      = .call (.other (nm "Dex") (nm "add_liquidity") true) :: .call (.remark [5]) ::
        Demo.s0.log.map Ran.act := by
  refine ⟨Demo.reach_sDex, ⟨rfl, acts_none (fun _ _ => rfl) ?_⟩, .inl ?_, ?_, ?_⟩ <;> decide +kernel

/-! ## C117: blocked accounts -/

/-- A blocked account's signed extrinsics outside the protected pallets and its Ethereum transactions are
rejected, and the runner refuses it as the source of an `EVM::call`, however deep that is nested.
(Partial: XRPL messages, and futurepasses of the account, see the refutations.) -/
theorem C117_blocked_account_partial {c : Cfg} {s : St} {a : Acct} (hb : s.blockedAcct a = true) :
    (∀ n tip x s1, ¬ IsProtected (callName x).1 → step c s (.signed a n tip x) ≠ .ok s1) ∧
    (∀ n t i l s1, step c s (.ethereum a n t i l) ≠ .ok s1) ∧
    (∀ v o t i l s1, run c v (.evmCall a t i l) o s ≠ .ok s1) := by
  refine ⟨?_, ?_, ?_⟩
  · intro n tip x s1 hp h
    obtain ⟨_, _, hc, _⟩ := signedTx_ok h
    unfold checkMaintenance at hc
    rw [if_neg fun e => hp (blockable_iff.mp e)] at hc
    simp only [bind_ok, ensure_ok] at hc
    obtain ⟨_, _, h1⟩ := hc
    rw [hb] at h1
    cases h1
  · intro n t i l s1 h
    obtain ⟨_, ha, _⟩ := ethereumTx_ok h
    rw [(evmAllowed_spec ha).2.1] at hb
    cases hb
  · intro v o t i l s1 h
    simp only [run, bind_ok] at h
    obtain ⟨_, _, _, _, h⟩ := h
    rw [(evmAllowed_spec (evmRun_ok h).1).2.1] at hb
    cases hb

/-- Account 13 is blocked. -/
def sBlocked13 : St := exec Demo.cfg Demo.s0 [Demo.sudoOp 0 (.account 13 true)]

/-- Account 13 owns futurepass 500, which is blocked; user 30 is a delegate of it. -/
def sBlockedFp : St :=
  exec Demo.cfg Demo.s0 [.fpNew 13 500, .setDelegate 500 30 true, .setFunds 500 10,
    Demo.sudoOp 0 (.account 500 true)]

/-- A blocked account's XRPL message runs. -/
theorem C117_refuted_xrpl : ∃ (c : Cfg) (k : Acct) (s s1 : St) (op : Op) (a : Acct) (b : List Nat),
    Reach c k s ∧ s.blockedAcct a = true ∧ sender c op = some a ∧ step c s op = .ok s1 ∧
    s1.log = { via := .xrpl, origin := .signed a, act := .call (.remark b), paused := false, maint := false }
      :: s.log := by
  refine ⟨Demo.cfg, 1, sBlocked13, _, .xrpl (Demo.msg 3 0 50 0 102) 42 (.remark [1, 2]), 13, [1, 2],
    Demo.reach_exec Demo.reach_s0, ?_, ?_, ok_getD (d := Demo.s0) ?_, ?_⟩ <;> decide +kernel

/-- A blocked account acts through a delegate. -/
theorem C117_refuted_delegate : ∃ (c : Cfg) (k : Acct) (s s1 : St) (op : Op) (w a : Acct) (b : List Nat),
    Reach c k s ∧ s.blockedAcct a = true ∧ ByUser c s op w ∧ w ≠ a ∧ step c s op = .ok s1 ∧
    s1.log = { via := .signed, origin := .signed a, act := .call (.remark b), paused := false, maint := false }
      :: s.log := by
  refine ⟨Demo.cfg, 1, sBlockedFp, _, .signed 30 0 0 (.proxy 500 (.remark [1, 2])), 30, 500, [1, 2],
    Demo.reach_exec Demo.reach_s0, ?_, ⟨rfl, ?_⟩, ?_, ok_getD (d := Demo.s0) ?_, ?_⟩
  · decide +kernel
  · intro ha
    have hk : sBlockedFp.sudoKey = 1 := by decide +kernel
    rw [hk] at ha
    cases ha with
    | via _ hd =>
      rename_i y _
      have hne : (1 : Acct) ≠ 500 := by decide
      have e : sBlockedFp.delegate 1 = fun _ => false := by
        have : sBlockedFp.delegate =
          upd (upd (fun _ _ => false) 500 (upd (fun _ => false) 13 true)) 500
            (upd (upd (fun _ => false) 13 true) 30 true) := rfl
        rw [this, upd_ne _ _ hne, upd_ne _ _ hne]
      rw [e] at hd
      cases hd
  · decide
  · decide +kernel
  · decide +kernel

/-- Blocked account 13: a remark is rejected, before and after the block. -/
example : sBlocked13.blockedAcct 13 = true ∧
    (step Demo.cfg Demo.s0 (.signed 13 0 0 (.remark [1]))).isOk = true ∧
    errIs (step Demo.cfg sBlocked13 (.signed 13 0 0 (.remark [1]))) "Custom2" = true := by
  decide +kernel

/-! ## C118: blocked EVM addresses -/

/-- No transaction whose target is a blocked EVM address is accepted, and the runner refuses an `EVM::call`
to it however deep that is nested. (Partial: calls made by EVM code and calls through the fee-proxy
precompile, see the refutations.) -/
theorem C118_blocked_target_partial {c : Cfg} {s : St} {t : Acct} (hb : s.blockedEvm t = true) :
    (∀ a n i l s1, step c s (.ethereum a n t i l) ≠ .ok s1) ∧
    (∀ v a o i l s1, run c v (.evmCall a t i l) o s ≠ .ok s1) := by
  refine ⟨?_, ?_⟩
  · intro a n i l s1 h
    obtain ⟨_, ha, _⟩ := ethereumTx_ok h
    rw [(evmAllowed_spec ha).2.2] at hb
    cases hb
  · intro v a o i l s1 h
    simp only [run, bind_ok] at h
    obtain ⟨_, _, _, _, h⟩ := h
    rw [(evmAllowed_spec (evmRun_ok h).1).2.2] at hb
    cases hb

/-- EVM address 777 is blocked. -/
def sBlocked777 : St := exec Demo.cfg Demo.s0 [Demo.sudoOp 0 (.evm 777 true)]

/-- A blocked address is entered through the fee-proxy precompile. -/
theorem C118_refuted_fee_proxy : ∃ (c : Cfg) (k : Acct) (s s1 : St) (op : Op) (w t : Acct) (e : Ran),
    Reach c k s ∧ s.blockedEvm t = true ∧ ByUser c s op w ∧ step c s op = .ok s1 ∧
    s1.log = e :: s.log ∧ e.act = .evm t := by
  refine ⟨Demo.cfg, 1, sBlocked777, _, .ethereum 13 0 1211 777 [], 13, 777,
    { via := .ethereum, origin := .signed 13, act := .evm 777, paused := false, maint := false },
    Demo.reach_exec Demo.reach_s0, ?_, ⟨rfl, acts_none (fun _ _ => rfl) ?_⟩, ok_getD (d := Demo.s0) ?_, ?_, rfl⟩
    <;> decide +kernel

/-- A blocked address is entered by a contract that is not blocked. -/
theorem C118_refuted_nested : ∃ (c : Cfg) (k : Acct) (s s1 : St) (op : Op) (w t : Acct) (e1 e2 : Ran),
    Reach c k s ∧ s.blockedEvm t = true ∧ ByUser c s op w ∧ step c s op = .ok s1 ∧
    s1.log = e1 :: e2 :: s.log ∧ e1.act = .evm t := by
  refine ⟨Demo.cfg, 1, sBlocked777, _,
    .ethereum 13 0 888 0 [{ caller := 888, target := 777, precompile := none, direct := false }], 13, 777,
    { via := .ethereum, origin := .signed 888, act := .evm 777, paused := false, maint := false },
    { via := .ethereum, origin := .signed 13, act := .evm 888, paused := false, maint := false },
    Demo.reach_exec Demo.reach_s0, ?_, ⟨rfl, acts_none (fun _ _ => rfl) ?_⟩, ok_getD (d := Demo.s0) ?_, ?_, rfl⟩
    <;> decide +kernel

example : sBlocked777.blockedEvm 777 = true ∧
    (step Demo.cfg Demo.s0 (.ethereum 13 0 777 0 [])).isOk = true ∧
    errIs (step Demo.cfg sBlocked777 (.ethereum 13 0 777 0 [])) "WithdrawFailed" = true := by
  decide +kernel

/-! ## C119: calls switched off in the runtime -/

theorem disabledName_iff {p f : Name} : disabledName p f = true ↔ (p, f) ∈ switchedOff := by
  have key : ∀ x a b c d e : Name × Name,
      (decide (x = a) || decide (x = b) || decide (x = c) || decide (x = d) || decide (x = e)) = true ↔
        x ∈ [a, b, c, d, e] := by
    intro x a b c d e
    simp only [Bool.or_eq_true, decide_eq_true_eq, List.mem_cons, List.not_mem_nil, or_false, or_assoc]
  exact key _ _ _ _ _ _

/-- The calls the runtime switches off for users never run, whatever way the transaction comes in and however
the call is nested: not as a call, and not by a precompile that dispatches calls. The same for bonding with
the reward destination "staked". -/
theorem C119_switched_off {c : Cfg} {s s1 : St} {op : Op} {w : Acct}
    (hw : ByUser c s op w) (h : step c s op = .ok s1) :
    Since s s1 (fun e =>
      (∀ x, e.act = .call x → callName x ∉ switchedOff ∧ ∀ ok, x ≠ .bond true ok) ∧
      ∀ p f, e.act = .pre p f false → (p, f) ∉ switchedOff) := by
  have bn : (nm "Staking", nm "bond") ∉ switchedOff := by decide +kernel
  have key : ∀ x : Call, disabled x = false → callName x ∉ switchedOff ∧ ∀ ok, x ≠ .bond true ok := by
    intro x hx
    by_cases hb : ∃ k ok, x = .bond k ok
    · obtain ⟨k, ok, rfl⟩ := hb
      refine ⟨bn, ?_⟩
      intro ok' e
      cases e
      cases hx
    · refine ⟨?_, fun ok e => hb ⟨_, _, e⟩⟩
      intro hm
      have : disabledName (callName x).1 (callName x).2 = true := disabledName_iff.mpr hm
      have e : disabled x = disabledName (callName x).1 (callName x).2 := by
        cases x with
        | bond k ok => exact absurd ⟨k, ok, rfl⟩ hb
        | _ => rfl
      rw [e, this] at hx
      cases hx
  apply (user_step hw h).2.mono
  rintro e ⟨_, _, h2⟩
  constructor
  · intro x hx
    rcases h2 with ⟨y, a, h1, _, _, _, h2⟩ | ⟨t, h1⟩ | ⟨p, f, d, h1, _⟩
    · rw [hx] at h1; cases h1; exact key _ h2
    · rw [hx] at h1; cases h1
    · rw [hx] at h1; cases h1
  · intro p f hx hm
    rcases h2 with ⟨y, a, h1, _⟩ | ⟨t, h1⟩ | ⟨p', f', d, h1, h2⟩
    · rw [hx] at h1; cases h1
    · rw [hx] at h1; cases h1
    · rw [hx] at h1
      cases h1
      rcases h2 with h2 | ⟨_, h2⟩
      · cases h2
      · rw [disabledName_iff.mpr hm] at h2; cases h2

/-- The sudo key's owner is not bound by that, and an ordinary user is. -/
example :
    (exec Demo.cfg Demo.s0 [.signed 1 0 0 (.sudoCall (.other (nm "Assets") (nm "create") true))]).log.length = 1 ∧
    (exec Demo.cfg Demo.s0 [.signed 13 0 0 (.other (nm "Assets") (nm "create") true)]).log = [] ∧
    (exec Demo.cfg Demo.s0 [.signed 13 0 0 (.other (nm "Assets") (nm "mint") true)]).log.length = 1 ∧
    ByUser Demo.cfg Demo.s0 (.signed 13 0 0 (.other (nm "Assets") (nm "mint") true)) 13 := by
  refine ⟨by decide +kernel, by decide +kernel, by decide +kernel, rfl, acts_none (fun _ _ => rfl) ?_⟩
  decide +kernel

end Verif.Entry
