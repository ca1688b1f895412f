import Verif.Entry.Inv
import Verif.Entry.Demo

/-!
# Maintenance mode and block lists (C57, C116, C117, C118)
-/

namespace Verif.Entry

/-! ## Specification -/

/-- The pallets that must stay usable, in lower case. -/
def protectedNames : List Name :=
  [nm "maintenancemode", nm "sudo", nm "timestamp", nm "imonline", nm "ethbridge"]

/-- A pallet of the protected list, in any spelling. -/
def IsProtected (p : Name) : Prop := lower p ∈ protectedNames

/-- The account behind a transaction: the signer, the account of the XRPL key, the issuer of the doughnut. -/
def sender (c : Cfg) : Op → Option Acct
  | .signed who _ _ _ => some who
  | .ethereum src _ _ _ _ => some src
  | .xrpl m _ _ => (xAccount c m).toOption
  | .doughnut p _ _ _ _ _ => c.dAcct p.dn.issuer
  | _ => none

/-! ## Helpers -/

theorem not_one_of {p a b c d e : Name} :
    (decide (p ≠ a) && decide (p ≠ b) && decide (p ≠ c) && decide (p ≠ d) && decide (p ≠ e)) = false ↔
      p ∈ [a, b, c, d, e] := by
  by_cases h1 : p = a <;> by_cases h2 : p = b <;> by_cases h3 : p = c <;> by_cases h4 : p = d <;>
    by_cases h5 : p = e <;> simp [h1, h2, h3, h4, h5]

theorem blockable_iff {p : Name} : blockable p = false ↔ p ∈ protectedNames := by
  have e : protectedNames = [lower (nm "MaintenanceMode"), lower (nm "Sudo"), lower (nm "Timestamp"),
    lower (nm "ImOnline"), lower (nm "EthBridge")] := by decide +kernel
  rw [e]
  exact not_one_of

theorem lowerByte_idem (b : Nat) : lowerByte (lowerByte b) = lowerByte b := by
  unfold lowerByte
  split
  · split <;> omega
  · rfl

theorem lower_idem (p : Name) : lower (lower p) = lower p := by
  simp [lower, lowerByte_idem]

theorem lower_bounded (p : Name) : lower (bounded p) = bounded (lower p) := by
  simp [lower, bounded, List.map_take]

theorem bounded_idem (p : Name) : bounded (bounded p) = bounded p := by
  simp [bounded, List.take_take]

theorem protected_bounded {p : Name} (h : IsProtected p) : bounded (lower p) = lower p := by
  have : (lower p).length ≤ 50 := by
    have hall : ∀ q ∈ protectedNames, q.length ≤ 50 := by decide +kernel
    exact hall _ h
  exact List.take_of_length_le this

theorem paused_protected {s : St} {x : Call} (h : IsProtected (callName x).1) : paused s x = false := by
  unfold paused pausedName
  rw [if_pos (blockable_iff.mpr h)]

/-! ## C57: maintenance mode -/

/-- While maintenance mode is on, no signed extrinsic for a pallet outside the protected list is accepted.
(Partial: this covers signed extrinsics only; see `C57_refuted` for the other kind of signed call.) -/
theorem C57_rejected_partial {c : Cfg} {s : St} (hm : s.active = true) {x : Call}
    (hp : ¬ IsProtected (callName x).1) (who : Acct) (n tip : Nat) (s1 : St) :
    step c s (.signed who n tip x) ≠ .ok s1 := by
  intro h
  obtain ⟨_, _, hc, _⟩ := signedTx_ok h
  unfold checkMaintenance at hc
  have hb : blockable (lower (callName x).1) ≠ false := fun e => hp (blockable_iff.mp e)
  rw [if_neg hb] at hc
  simp only [bind_ok, ensure_ok] at hc
  obtain ⟨_, h1, _⟩ := hc
  rw [hm] at h1
  cases h1

/-- While maintenance mode is on, no Ethereum transaction is accepted. -/
theorem C57_ethereum {c : Cfg} {s : St} (hm : s.active = true) (src : Acct) (n : Nat) (t i : Acct)
    (l : List Sub) (s1 : St) : step c s (.ethereum src n t i l) ≠ .ok s1 := by
  intro h
  obtain ⟨_, ha, _⟩ := ethereumTx_ok h
  rw [(evmAllowed_spec ha).1] at hm
  cases hm

/-- Whatever way a transaction comes in and however its calls are nested, EVM code and precompiles run only
while maintenance mode is off. -/
theorem C57_no_evm {c : Cfg} {s s1 : St} {op : Op} (h : step c s op = .ok s1) :
    Since s s1 (fun e => (∃ y, e.act = .call y) ∨ e.maint = false) := by
  cases op with
  | signed who n tip x => exact (signedTx_tx h).2.mono fun e he => he.2
  | ethereum src n t i l => exact (ethereumTx_tx h).2.mono fun e he => he.2
  | xrpl m sig x =>
    obtain ⟨_, _, _, _, _, this⟩ := xrplTx_tx h
    exact this.mono fun e he => he.2
  | doughnut p n g tip sig x =>
    obtain ⟨_, _, _, this⟩ := doughnutTx_tx h
    exact this.mono fun e he => he.2
  | nextBlock => simp only [step, Except.ok.injEq] at h; subst h; exact Since.of_log rfl
  | setFunds a x => simp only [step, Except.ok.injEq] at h; subst h; exact Since.of_log rfl
  | reap a =>
    simp only [step, bind_ok, pure_ok] at h
    obtain ⟨_, _, rfl⟩ := h
    exact Since.of_log rfl
  | fpNew a fp =>
    simp only [step, bind_ok, pure_ok] at h
    obtain ⟨_, _, _, _, rfl⟩ := h
    exact Since.of_log rfl
  | fpMove fp b =>
    simp only [step, bind_ok, pure_ok] at h
    obtain ⟨_, _, _, _, rfl⟩ := h
    exact Since.of_log rfl
  | setDelegate fp d b =>
    simp only [step, bind_ok, pure_ok] at h
    obtain ⟨_, _, rfl⟩ := h
    exact Since.of_log rfl

/-- While maintenance mode is on, an extrinsic signed by somebody other than the sudo key runs nothing but
a call of a protected pallet, however the call is wrapped. -/
theorem C57_quiet {c : Cfg} {s s1 : St} {who : Acct} {n tip : Nat} {x : Call} (hm : s.active = true)
    (hw : who ≠ s.sudoKey) (h : step c s (.signed who n tip x) = .ok s1) :
    Since s s1 (fun e => ∃ p f ok, e.act = .call (.other p f ok) ∧ IsProtected p) := by
  have hp : IsProtected (callName x).1 := by
    by_contra hp
    exact C57_rejected_partial hm hp who n tip s1 h
  obtain ⟨_, _, _, _, rfl⟩ := signedTx_ok h
  generalize hb : begun s who n (feePayer s who x) (c.feeOf x + tip) = b
  have hk : who ≠ b.sudoKey := by rw [← hb]; exact hw
  have hl : b.log = s.log := by rw [← hb]; rfl
  rcases settle_cases (dispatch c .signed x (.signed who) b) b with h1 | h1
  · generalize settle (dispatch c .signed x (.signed who) b) b = s2 at h1
    simp only [dispatch, bind_ok] at h1
    obtain ⟨_, _, h1⟩ := h1
    have no : ∀ y : Name, y ∈ [nm "Staking", nm "Balances", nm "AssetsExt", nm "Futurepass", nm "System",
        nm "Doughnut", nm "EVM", nm "Xrpl", nm "FeeProxy", nm "Utility"] → ¬ IsProtected y := by
      unfold IsProtected
      decide +kernel
    cases x with
    | other p f ok =>
      rw [leaf_ok h1]
      exact Since.one hl ⟨p, f, ok, rfl, hp⟩
    | maint m =>
      simp only [run, bind_ok, ensureRoot_ok] at h1
      obtain ⟨_, h1, _⟩ := h1
      cases h1
    | sudoCall y =>
      simp only [run, bind_ok, signer_ok, ensure_ok, Origin.signed.injEq] at h1
      obtain ⟨_, rfl, _, h1, _⟩ := h1
      exact absurd h1 hk
    | sudoAs a y =>
      simp only [run, bind_ok, signer_ok, ensure_ok, Origin.signed.injEq] at h1
      obtain ⟨_, rfl, _, h1, _⟩ := h1
      exact absurd h1 hk
    | bond _ _ => exact absurd hp (no _ (by simp [callName]))
    | transfer _ _ _ _ => exact absurd hp (no _ (by simp [callName]))
    | assetTransfer _ _ _ _ _ => exact absurd hp (no _ (by simp [callName]))
    | fpCreate _ _ => exact absurd hp (no _ (by simp [callName]))
    | remark _ => exact absurd hp (no _ (by simp [callName]))
    | revokeDoughnut _ _ => exact absurd hp (no _ (by simp [callName]))
    | revokeHolder _ _ => exact absurd hp (no _ (by simp [callName]))
    | whitelist _ _ => exact absurd hp (no _ (by simp [callName]))
    | evmCall _ _ _ _ => exact absurd hp (no _ (by simp [callName]))
    | xrplTransact => exact absurd hp (no _ (by simp [callName]))
    | doughnutTransact => exact absurd hp (no _ (by simp [callName]))
    | proxy _ _ => exact absurd hp (no _ (by simp [callName]))
    | feeProxy _ _ => exact absurd hp (no _ (by simp [callName]))
    | batch _ _ _ => exact absurd hp (no _ (by simp [callName]))
  · rw [h1]
    exact Since.of_log hl

/-- No history of blocking operations can make a call to a protected pallet be rejected: in every state,
with the right nonce and the fee in hand, the extrinsic is accepted and has the effect of its call. (The
calls disabled in the runtime's code, such as `EthBridge::submit_challenge`, are apart.) -/
theorem C57_no_lockout {c : Cfg} {k : Acct} {s : St} (_ : Reach c k s) {who : Acct} {tip : Nat} {x : Call}
    (hp : IsProtected (callName x).1) (hd : disabled x = false) (hw : who ≠ 0)
    (hf : c.feeOf x + tip ≤ s.funds who) :
    step c s (.signed who (s.nonce who) tip x) =
      .ok (settle (run c .signed x (.signed who) (begun s who (s.nonce who) who (c.feeOf x + tip)))
        (begun s who (s.nonce who) who (c.feeOf x + tip))) := by
  have hpay : ∀ t : St, feePayer t who x = who := by
    intro t
    have no : ¬ IsProtected (nm "Futurepass") ∧ ¬ IsProtected (nm "FeeProxy") := by
      unfold IsProtected; decide +kernel
    cases x <;> first | rfl | (exfalso; exact no.1 hp) | (exfalso; exact no.2 hp)
  have hadm : ∀ t : St, admitted t (.signed who) x = true := by
    intro t
    simp [admitted, hd, paused_protected (s := t) hp]
  simp only [step, signedTx, useNonce, charge, checkMaintenance, hpay, dispatch]
  rw [ensure_pos hw, ensure_pos trivial]
  simp only [if_pos (blockable_iff.mpr hp)]
  simp only [bind, Except.bind, pure, Except.pure]
  rw [ensure_pos hf]
  simp only [ensure_pos (hadm _)]
  rfl

/-- The maintenance pallet refuses to put a protected pallet, in any spelling, on its lists. -/
theorem C57_protected_refused {c : Cfg} {s : St} {p f : Name} (hp : IsProtected p) (b : Bool) (s1 : St) :
    maintOp c s (.pallet p b) ≠ .ok s1 ∧ maintOp c s (.call p f b) ≠ .ok s1 := by
  have hb : blockable (bounded (lower p)) = false := by
    rw [protected_bounded hp]; exact blockable_iff.mpr hp
  constructor
  · intro h
    simp only [maintOp, bind_ok, ensure_ok] at h
    obtain ⟨_, _, _, _, _, h, _⟩ := h
    rw [hb] at h; cases h
  · intro h
    simp only [maintOp, bind_ok, ensure_ok] at h
    obtain ⟨_, _, _, _, _, h, _⟩ := h
    rw [hb] at h; cases h

/-- Blocking works by name whatever the spelling: once a pallet has been blocked under one spelling, a user
call to a pallet whose name differs only in case is refused wherever it is dispatched; unblocking under a
third spelling lifts it. -/
theorem C57_case {c : Cfg} {s s1 : St} {p : Name} (h : maintOp c s (.pallet p true) = .ok s1) {x : Call}
    (hx : lower (callName x).1 = lower p) :
    (∀ (v : Via) (a : Acct) (s2 : St), dispatch c v x (.signed a) s1 ≠ .ok s2) ∧
      ∀ {q : Name} {s2 : St}, lower q = lower p → maintOp c s1 (.pallet q false) = .ok s2 →
        s2.blockedPallet = upd s.blockedPallet (bounded (lower p)) false := by
  simp only [maintOp, bind_ok, ensure_ok, pure_ok] at h
  obtain ⟨_, h0, _, h1, _, h2, rfl⟩ := h
  constructor
  · intro v a s2 h
    simp only [dispatch, bind_ok, ensure_ok] at h
    obtain ⟨_, ha, _⟩ := h
    have := (admitted_signed ha).1
    unfold paused pausedName at this
    rw [hx] at this
    split at this
    · rename_i hb
      have hp : bounded (lower p) = lower p := protected_bounded (blockable_iff.mp hb)
      rw [hp, hb] at h2
      cases h2
    · simp at this
  · intro q s2 hq h
    simp only [maintOp, bind_ok, ensure_ok, pure_ok] at h
    obtain ⟨_, _, _, _, _, _, rfl⟩ := h
    funext y
    show upd (upd s.blockedPallet (bounded (lower p)) true) (bounded (lower q)) false y = _
    rw [hq]
    simp only [upd]
    split <;> rfl

/-- The same for single calls. -/
theorem C57_case_call {c : Cfg} {s s1 : St} {p f : Name} (h : maintOp c s (.call p f true) = .ok s1) {x : Call}
    (hx : lower (callName x).1 = lower p) (hf : lower (callName x).2 = lower f) :
    ∀ (v : Via) (a : Acct) (s2 : St), dispatch c v x (.signed a) s1 ≠ .ok s2 := by
  simp only [maintOp, bind_ok, ensure_ok, pure_ok] at h
  obtain ⟨_, h0, _, h1, _, h2, _, _, _, _, rfl⟩ := h
  intro v a s2 h
  simp only [dispatch, bind_ok, ensure_ok] at h
  obtain ⟨_, ha, _⟩ := h
  have := (admitted_signed ha).1
  unfold paused pausedName at this
  rw [hx, hf] at this
  split at this
  · rename_i hb
    have hp : bounded (lower p) = lower p := protected_bounded (blockable_iff.mp hb)
    rw [hp, hb] at h2
    cases h2
  · simp at this

/-- What can be on the block lists. -/
structure Listed (c : Cfg) (s : St) : Prop where
  pallet : ∀ {p : Name}, s.blockedPallet p = true →
    p ≠ [] ∧ bounded (lower p) = p ∧ c.utf8 p = true ∧ blockable p = true
  call : ∀ {p f : Name}, s.blockedCall (p, f) = true →
    p ≠ [] ∧ bounded (lower p) = p ∧ c.utf8 p = true ∧ blockable p = true ∧
    f ≠ [] ∧ bounded (lower f) = f ∧ c.utf8 f = true

theorem bounded_ne {p : Name} (h : p ≠ []) : bounded (lower p) ≠ [] := by
  cases p with
  | nil => exact absurd rfl h
  | cons a l => simp [bounded, lower]

theorem bl_idem (p : Name) : bounded (lower (bounded (lower p))) = bounded (lower p) := by
  rw [lower_bounded, lower_idem, bounded_idem]

theorem listed_maint {c : Cfg} {s s1 : St} {m : MOp} (hs : Listed c s) (h : maintOp c s m = .ok s1) :
    Listed c s1 := by
  cases m with
  | enable on => simp only [maintOp, Except.ok.injEq] at h; subst h; exact ⟨hs.pallet, hs.call⟩
  | account a b => simp only [maintOp, Except.ok.injEq] at h; subst h; exact ⟨hs.pallet, hs.call⟩
  | evm a b => simp only [maintOp, Except.ok.injEq] at h; subst h; exact ⟨hs.pallet, hs.call⟩
  | pallet p b =>
    simp only [maintOp, bind_ok, ensure_ok, pure_ok] at h
    obtain ⟨_, h0, _, h1, _, h2, rfl⟩ := h
    refine ⟨?_, hs.call⟩
    intro q hq
    change upd s.blockedPallet (bounded (lower p)) b q = true at hq
    by_cases e : q = bounded (lower p)
    · subst e
      exact ⟨bounded_ne h0, bl_idem p, h1, h2⟩
    · rw [upd_ne _ _ e] at hq
      exact hs.pallet hq
  | call p f b =>
    simp only [maintOp, bind_ok, ensure_ok, pure_ok] at h
    obtain ⟨_, h0, _, h1, _, h2, _, h3, _, h4, rfl⟩ := h
    refine ⟨hs.pallet, ?_⟩
    intro q g hq
    change upd s.blockedCall (bounded (lower p), bounded (lower f)) b (q, g) = true at hq
    by_cases e : (q, g) = (bounded (lower p), bounded (lower f))
    · obtain ⟨rfl, rfl⟩ := Prod.mk.inj e
      exact ⟨bounded_ne h0, bl_idem p, h1, h2, bounded_ne h3, bl_idem f, h4⟩
    · rw [upd_ne _ _ e] at hq
      exact hs.call hq

/-- A predicate kept by the maintenance calls and independent of everything else is kept by every call. -/
theorem run_keeps {c : Cfg} {v : Via} {P : St → Prop}
    (hm : ∀ {s s1 : St} {m : MOp}, P s → maintOp c s m = .ok s1 → P s1)
    (ht : ∀ {s s1 : St}, s1.blockedPallet = s.blockedPallet → s1.blockedCall = s.blockedCall → P s → P s1)
    {x : Call} : ∀ {o : Origin} {s s1 : St}, run c v x o s = .ok s1 → P s → P s1 := by
  have lf : ∀ {o : Origin} {s s1 : St} {y : Call} {ok : Bool}, leaf s v o y ok = .ok s1 → P s → P s1 := by
    intro o s s1 y ok h hs
    rw [leaf_ok h]
    exact ht (s := s) rfl rfl hs
  have gate : ∀ {o : Origin} {s s1 : St} {y : Call},
      (∀ {o : Origin} {s s1 : St}, run c v y o s = .ok s1 → P s → P s1) →
      (if admitted s o y = true then run c v y o s else .error "CallFiltered") = .ok s1 → P s → P s1 := by
    intro o s s1 y hy h hs
    by_cases ha : admitted s o y = true
    · rw [if_pos ha] at h; exact hy h hs
    · rw [if_neg ha] at h; exact absurd h (by simp)
  have cat : ∀ {s s1 : St} {r : Except Err St}, (∀ s2, r = .ok s2 → P s → P s2) →
      (match r with | .ok s2 => (.ok s2 : Except Err St) | .error _ => .ok s) = .ok s1 → P s → P s1 := by
    intro s s1 r hr h hs
    cases r with
    | ok s2 => simp only [Except.ok.injEq] at h; subst h; exact hr _ rfl hs
    | error e => simp only [Except.ok.injEq] at h; subst h; exact hs
  induction x with
  | other p f ok => intro o s s1 h; exact lf h
  | bond k ok => intro o s s1 h; exact lf h
  | transfer k d x ok =>
    intro o s s1 h
    simp only [run, bind_ok] at h
    obtain ⟨_, _, h⟩ := h
    exact lf h
  | assetTransfer i d x k ok =>
    intro o s s1 h
    simp only [run, bind_ok] at h
    obtain ⟨_, _, h⟩ := h
    exact lf h
  | fpCreate a ok =>
    intro o s s1 h
    simp only [run, bind_ok] at h
    obtain ⟨_, _, h⟩ := h
    exact lf h
  | remark b => intro o s s1 h; exact lf h
  | maint m =>
    intro o s s1 h hs
    simp only [run, bind_ok, pure_ok] at h
    obtain ⟨_, _, s2, h2, rfl⟩ := h
    exact ht (s := s2) rfl rfl (hm hs h2)
  | revokeDoughnut p r =>
    intro o s s1 h hs
    simp only [run, revokeDoughnut, bind_ok, pure_ok] at h
    obtain ⟨_, _, s2, ⟨_, _, _, _, h2⟩, rfl⟩ := h
    subst h2
    exact ht (s := s) rfl rfl hs
  | revokeHolder a r =>
    intro o s s1 h hs
    simp only [run, bind_ok, pure_ok] at h
    obtain ⟨_, _, rfl⟩ := h
    exact ht (s := s) rfl rfl hs
  | whitelist a r =>
    intro o s s1 h hs
    simp only [run, bind_ok, pure_ok] at h
    obtain ⟨_, _, rfl⟩ := h
    exact ht (s := s) rfl rfl hs
  | evmCall src t i subs =>
    intro o s s1 h hs
    simp only [run, bind_ok] at h
    obtain ⟨_, _, _, _, h⟩ := h
    have := (userEff_evm (w := src) h).tables
    exact ht this.blockedPallet this.blockedCall hs
  | xrplTransact => intro o s s1 h; simp [run] at h
  | doughnutTransact => intro o s s1 h; simp [run] at h
  | sudoCall y ih =>
    intro o s s1 h
    simp only [run, bind_ok] at h
    obtain ⟨_, _, _, _, h⟩ := h
    exact cat (fun s2 h2 => ih h2) h
  | sudoAs a y ih =>
    intro o s s1 h
    simp only [run, bind_ok] at h
    obtain ⟨_, _, _, _, h⟩ := h
    exact cat (fun s2 h2 => ih h2) h
  | proxy fp y ih =>
    intro o s s1 h
    simp only [run, bind_ok] at h
    obtain ⟨_, _, _, _, _, _, _, _, h⟩ := h
    exact cat (fun s2 h2 => gate ih h2) h
  | feeProxy xrp y ih =>
    intro o s s1 h
    simp only [run, bind_ok] at h
    obtain ⟨_, _, _, _, _, _, _, _, h⟩ := h
    exact ih h
  | batch all y z ihy ihz =>
    intro o s s1 h hs
    simp only [run] at h
    split at h
    · split at h
      · simp at h
      · simp only [Except.ok.injEq] at h; subst h; exact hs
    · rename_i s2 h2
      have f2 := gate ihy h2 hs
      split at h
      · split at h
        · simp at h
        · simp only [Except.ok.injEq] at h; subst h; exact f2
      · rename_i s3 h3
        simp only [Except.ok.injEq] at h
        subst h
        exact gate ihz h3 f2

theorem settle_keeps {P : St → Prop} {r : Except Err St} {s : St} (h : ∀ s1, r = .ok s1 → P s → P s1)
    (hs : P s) : P (settle r s) := by
  rcases settle_cases r s with h1 | h1
  · exact h _ h1 hs
  · rw [h1]; exact hs

theorem listed_step {c : Cfg} {s s1 : St} {op : Op} (hs : Listed c s) (h : step c s op = .ok s1) :
    Listed c s1 := by
  have eq : ∀ {s s1 : St}, s1.blockedPallet = s.blockedPallet → s1.blockedCall = s.blockedCall →
      Listed c s → Listed c s1 := by
    intro s s1 h1 h2 hs
    exact ⟨fun e => hs.pallet (by rw [← h1]; exact e), fun e => hs.call (by rw [← h2]; exact e)⟩
  have disp : ∀ {v : Via} {x : Call} {o : Origin} {s s1 : St}, dispatch c v x o s = .ok s1 →
      Listed c s → Listed c s1 := by
    intro v x o s s1 h
    simp only [dispatch, bind_ok] at h
    obtain ⟨_, _, h⟩ := h
    exact run_keeps listed_maint eq h
  cases op with
  | signed who n tip x =>
    obtain ⟨_, _, _, _, rfl⟩ := signedTx_ok h
    exact settle_keeps (fun s2 h2 => disp h2) (eq (s := s) rfl rfl hs)
  | ethereum src n t i l =>
    obtain ⟨_, _, rfl⟩ := ethereumTx_ok h
    refine settle_keeps (fun s2 h2 h3 => ?_) (eq (s := s) rfl rfl hs)
    have := (userEff_evm (w := src) h2).tables
    exact eq this.blockedPallet this.blockedCall h3
  | xrpl m sig x =>
    obtain ⟨_, _, _, _, _, _, _, _, _, _, _, rfl⟩ := xrplTx_ok h
    refine settle_keeps (fun s2 h2 h3 => ?_) (eq (s := s) rfl rfl hs)
    obtain ⟨_, _, _, _, h2⟩ := xTransact_ok h2
    exact disp h2 h3
  | doughnut p n g tip sig x =>
    obtain ⟨_, _, _, _, _, _, _, _, _, _, _, rfl⟩ := doughnutTx_ok h
    refine settle_keeps (fun s2 h2 h3 => ?_) (eq (s := s) rfl rfl hs)
    obtain ⟨_, _, _, _, _, _, _, _, _, _, _, _, _, rfl⟩ := dTransact_ok h2
    exact settle_keeps (fun s3 h4 => disp h4) h3
  | nextBlock => simp only [step, Except.ok.injEq] at h; subst h; exact eq (s := s) rfl rfl hs
  | setFunds a x => simp only [step, Except.ok.injEq] at h; subst h; exact eq (s := s) rfl rfl hs
  | reap a =>
    simp only [step, bind_ok, pure_ok] at h
    obtain ⟨_, _, rfl⟩ := h
    exact eq (s := s) rfl rfl hs
  | fpNew a fp =>
    simp only [step, bind_ok, pure_ok] at h
    obtain ⟨_, _, _, _, rfl⟩ := h
    exact eq (s := s) rfl rfl hs
  | fpMove fp b =>
    simp only [step, bind_ok, pure_ok] at h
    obtain ⟨_, _, _, _, rfl⟩ := h
    exact eq (s := s) rfl rfl hs
  | setDelegate fp d b =>
    simp only [step, bind_ok, pure_ok] at h
    obtain ⟨_, _, rfl⟩ := h
    exact eq (s := s) rfl rfl hs

theorem Reach.listed {c : Cfg} {k : Acct} {s : St} (h : Reach c k s) : Listed c s := by
  induction h with
  | init => exact ⟨fun e => by simp [Entry.init] at e, fun e => by simp [Entry.init] at e⟩
  | step _ h ih => exact listed_step ih h

/-- No protected pallet is ever on a block list. -/
theorem C57_never_listed {c : Cfg} {k : Acct} {s : St} (h : Reach c k s) {p : Name} (hp : IsProtected p) :
    s.blockedPallet (lower p) = false ∧ ∀ f, s.blockedCall (lower p, f) = false := by
  have hb : blockable (lower p) = false := blockable_iff.mpr hp
  constructor
  · cases e : s.blockedPallet (lower p) with
    | false => rfl
    | true => have := (h.listed.pallet e).2.2.2; rw [hb] at this; cases this
  · intro f
    cases e : s.blockedCall (lower p, f) with
    | false => rfl
    | true => have := (h.listed.call e).2.2.2.1; rw [hb] at this; cases this

/-- What the operators want undone. -/
def Undoes (s : St) : MOp → Prop
  | .enable on => on = false
  | .account _ b => b = false
  | .evm _ b => b = false
  | .call p f b => b = false ∧ s.blockedCall (p, f) = true
  | .pallet p b => b = false ∧ s.blockedPallet p = true

/-- The corresponding switch is off. -/
def IsOff (s : St) : MOp → Prop
  | .enable _ => s.active = false
  | .account a _ => s.blockedAcct a = false
  | .evm a _ => s.blockedEvm a = false
  | .call p f _ => s.blockedCall (p, f) = false
  | .pallet p _ => s.blockedPallet p = false

/-- In every state the holder of the sudo key, with the fee in hand, can undo every single block and switch
maintenance mode off, whatever has been blocked (the sudo key's own account included). -/
theorem C57_recover {c : Cfg} {k : Acct} {s : St} (h : Reach c k s) {m : MOp} (hu : Undoes s m)
    (hk : s.sudoKey ≠ 0) (hf : c.feeOf (.sudoCall (.maint m)) ≤ s.funds s.sudoKey) :
    ∃ s1, step c s (.signed s.sudoKey (s.nonce s.sudoKey) 0 (.sudoCall (.maint m))) = .ok s1 ∧ IsOff s1 m := by
  have hp : IsProtected (callName (.sudoCall (.maint m))).1 := by
    show IsProtected (nm "Sudo"); unfold IsProtected; decide +kernel
  have hd : disabled (.sudoCall (.maint m)) = false := by
    show disabledName (nm "Sudo") (nm "sudo") = false; decide +kernel
  refine ⟨_, C57_no_lockout h hp hd hk (by simpa using hf), ?_⟩
  generalize hb : begun s s.sudoKey (s.nonce s.sudoKey) s.sudoKey (c.feeOf (.sudoCall (.maint m)) + 0) = b
  have b0 : b.sudoKey = s.sudoKey := by rw [← hb]; rfl
  have b1 : b.blockedPallet = s.blockedPallet := by rw [← hb]; rfl
  have b2 : b.blockedCall = s.blockedCall := by rw [← hb]; rfl
  obtain ⟨s2, h2, h3⟩ : ∃ s2, maintOp c b m = .ok s2 ∧ IsOff s2 m := by
    cases m with
    | enable on => cases hu; exact ⟨_, rfl, rfl⟩
    | account a b => cases hu; exact ⟨_, rfl, upd_same _ _ _⟩
    | evm a b => cases hu; exact ⟨_, rfl, upd_same _ _ _⟩
    | call p f x =>
      obtain ⟨rfl, hu⟩ := hu
      obtain ⟨h1, h2, h3, h4, h5, h6, h7⟩ := h.listed.call hu
      refine ⟨{ b with blockedCall := upd b.blockedCall (p, f) false }, ?_, upd_same _ _ _⟩
      simp only [maintOp, h2, h6, bind_ok, ensure_ok, pure_ok]
      exact ⟨⟨⟩, h1, ⟨⟩, h3, ⟨⟩, h4, ⟨⟩, h5, ⟨⟩, h7, trivial⟩
    | pallet p x =>
      obtain ⟨rfl, hu⟩ := hu
      obtain ⟨h1, h2, h3, h4⟩ := h.listed.pallet hu
      refine ⟨{ b with blockedPallet := upd b.blockedPallet p false }, ?_, upd_same _ _ _⟩
      simp only [maintOp, h2, bind_ok, ensure_ok, pure_ok]
      exact ⟨⟨⟩, h1, ⟨⟩, h3, ⟨⟩, h4, trivial⟩
  have hr : run c .signed (.sudoCall (.maint m)) (.signed s.sudoKey) b =
      .ok (ran s2 .signed .root (.call (.maint m)) (paused b (.maint m))) := by
    have e1 : run c .signed (.maint m) .root b =
        .ok (ran s2 .signed .root (.call (.maint m)) (paused b (.maint m))) := by
      simp only [run, bind_ok, pure_ok, ensureRoot_ok]
      exact ⟨⟨⟩, trivial, s2, h2, rfl⟩
    show (do
      let who ← signer (.signed s.sudoKey)
      ensure (who = b.sudoKey) "RequireSudo"
      match run c .signed (.maint m) .root b with
      | .ok s1 => (.ok s1 : Except Err St)
      | .error _ => .ok b) = _
    rw [e1]
    simp only [bind_ok, signer_ok, ensure_ok]
    exact ⟨_, rfl, ⟨⟩, b0.symm, trivial⟩
  rw [hr]
  cases m <;> exact h3

/-- Maintenance mode does not stop XRPL-signed messages: here it is on, and a call signed by an ordinary
user's XRPL key runs all the same. -/
theorem C57_refuted : ∃ (c : Cfg) (k : Acct) (s s1 : St) (op : Op) (a : Acct) (b : List Nat),
    Reach c k s ∧ s.active = true ∧ sender c op = some a ∧ a ≠ s.sudoKey ∧ step c s op = .ok s1 ∧
    s1.log = { via := .xrpl, origin := .signed a, act := .call (.remark b), paused := false, maint := true }
      :: s.log := by
  refine ⟨Demo.cfg, 1, Demo.sMaint, _,
    .xrpl (Demo.msg 3 0 50 0 102) 42 (.remark [1, 2]), 13, [1, 2], Demo.reach_sMaint, ?_,
    ?_, ?_, ok_getD (d := Demo.s0) ?_, ?_⟩ <;> decide +kernel

/-! ### Concrete cases -/

/-- Maintenance mode is on: an ordinary call and an Ethereum transaction are refused, a call of a protected
pallet is accepted, and the sudo key switches the mode off. -/
example : Reach Demo.cfg 1 Demo.sMaint ∧ Demo.sMaint.active = true ∧
    ¬ IsProtected (callName (.remark [1])).1 ∧ IsProtected (nm "ETHBRIDGE") ∧
    errIs (step Demo.cfg Demo.sMaint (.signed 13 0 0 (.remark [1]))) "Custom1" = true ∧
    errIs (step Demo.cfg Demo.sMaint (.ethereum 13 0 777 0 [])) "WithdrawFailed" = true ∧
    (exec Demo.cfg Demo.sMaint
      [.signed 13 0 0 (.other (nm "EthBridge") (nm "deposit_relayer_bond") true)]).log.length = 2 ∧
    Undoes Demo.sMaint (.enable false) ∧
    (exec Demo.cfg Demo.sMaint [Demo.sudoOp 1 (.enable false)]).active = false := by
  refine ⟨Demo.reach_sMaint, ?_, ?_, ?_, ?_, ?_, ?_, rfl, ?_⟩ <;>
    first | decide +kernel | (unfold IsProtected; decide +kernel)

/-- The Dex pallet was blocked as "DEX"; calls to "Dex" are refused and unblocking "dEx" lifts that. Blocking
"SUDO" or "ethBRIDGE" is refused. -/
example : (maintOp Demo.cfg Demo.s0 (.pallet (nm "DEX") true)).isOk = true ∧
    lower (callName (.other (nm "Dex") (nm "add_liquidity") true)).1 = lower (nm "DEX") ∧
    Undoes Demo.sDex (.pallet (nm "dex") false) ∧
    (exec Demo.cfg Demo.sDex [.signed 13 0 0 (.other (nm "Dex") (nm "add_liquidity") true)]).log =
      Demo.sDex.log ∧
    (exec Demo.cfg Demo.sDex [Demo.sudoOp 1 (.pallet (nm "dEx") false),
      .signed 13 0 0 (.other (nm "Dex") (nm "add_liquidity") true)]).log.length = 3 ∧
    errIs (maintOp Demo.cfg Demo.s0 (.pallet (nm "SUDO") true)) "CannotBlock" = true ∧
    errIs (maintOp Demo.cfg Demo.s0 (.call (nm "ethBRIDGE") (nm "x") true)) "CannotBlock" = true := by
  refine ⟨?_, ?_, ⟨rfl, ?_⟩, ?_, ?_, ?_, ?_⟩ <;> decide +kernel

/-- One call blocked; the neighbouring call of the same pallet is not. -/
example : (maintOp Demo.cfg Demo.s0 (.call (nm "NFT") (nm "Mint") true)).isOk = true ∧
    (exec Demo.cfg Demo.s0 [Demo.sudoOp 0 (.call (nm "NFT") (nm "Mint") true),
      .signed 13 0 0 (.other (nm "Nft") (nm "mint") true)]).log.length = 1 ∧
    (exec Demo.cfg Demo.s0 [Demo.sudoOp 0 (.call (nm "NFT") (nm "Mint") true),
      .signed 13 0 0 (.other (nm "Nft") (nm "transfer") true)]).log.length = 2 := by
  decide +kernel

end Verif.Entry
