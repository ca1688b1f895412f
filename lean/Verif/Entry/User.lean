import Verif.Entry.Lemmas

/-!
# What a call sent by somebody who cannot act as the sudo key can do
-/

namespace Verif.Entry

/-- Neither on the operators' block lists nor switched off for good. -/
def Clear (s : St) (x : Call) : Prop := paused s x = false ∧ disabled x = false

/-- An entry that sender `w` may cause in state `s`: a call ran under an account `w` can act as and was
neither on the operators' block lists nor switched off; or EVM code ran; or a precompile ran a pallet
function that was neither on the block lists nor switched off, unless the precompile is a direct one. -/
def Proper (s : St) (w : Acct) (v : Via) (e : Ran) : Prop :=
  e.via = v ∧ e.maint = s.active ∧
    ((∃ x a, e.act = .call x ∧ e.origin = .signed a ∧ Acts s.delegate w a ∧ Clear s x) ∨
     (∃ t, e.act = .evm t) ∨
     (∃ p f d, e.act = .pre p f d ∧
       (d = true ∨ (pausedName s p f = false ∧ disabledName p f = false))))

/-- Everything a user's call can change: the log, and revocations by accounts the user can act as. -/
structure UserEff (c : Cfg) (w : Acct) (v : Via) (s s1 : St) : Prop where
  frame : Frame s s1
  tables : Tables s s1
  since : Since s s1 (Proper s w v)
  revokedHolder : ∀ i h, s1.revokedHolder i h ≠ s.revokedHolder i h → Acts s.delegate w i
  revoked : ∀ k, s1.revoked k ≠ s.revoked k →
    ∃ p i, c.keccak p = k ∧ c.dAcct p.dn.issuer = some i ∧ Acts s.delegate w i

theorem pausedName_tables {s s1 : St} (h : Tables s s1) (p f : Name) :
    pausedName s1 p f = pausedName s p f := by
  simp only [pausedName, h.blockedCall, h.blockedPallet]

theorem paused_tables {s s1 : St} (h : Tables s s1) (x : Call) : paused s1 x = paused s x :=
  pausedName_tables h _ _

theorem Proper.back {s s1 : St} {w : Acct} {v : Via} {e : Ran} (hd : s1.delegate = s.delegate)
    (ht : Tables s s1) (h : Proper s1 w v e) : Proper s w v e := by
  simpa only [Proper, Clear, hd, ht.active, paused_tables ht, pausedName_tables ht] using h

theorem UserEff.refl (c : Cfg) (w : Acct) (v : Via) (s : St) : UserEff c w v s s :=
  ⟨Frame.refl _, Tables.refl _, Since.refl _ _, fun _ _ h => absurd rfl h, fun _ h => absurd rfl h⟩

theorem UserEff.trans {c : Cfg} {w : Acct} {v : Via} {s s1 s2 : St} (h : UserEff c w v s s1)
    (k : UserEff c w v s1 s2) : UserEff c w v s s2 := by
  refine ⟨h.frame.trans k.frame, h.tables.trans k.tables, ?_, ?_, ?_⟩
  · exact h.since.trans (k.since.mono fun e he => he.back h.frame.delegate h.tables)
  · intro i a hne
    by_cases h1 : s1.revokedHolder i a = s.revokedHolder i a
    · have := k.revokedHolder i a (by rw [h1]; exact hne)
      rwa [h.frame.delegate] at this
    · exact h.revokedHolder i a h1
  · intro i hne
    by_cases h1 : s1.revoked i = s.revoked i
    · have := k.revoked i (by rw [h1]; exact hne)
      rwa [h.frame.delegate] at this
    · exact h.revoked i h1

theorem admitted_signed {s : St} {a : Acct} {x : Call} (h : admitted s (.signed a) x = true) :
    Clear s x := by
  simpa only [Clear, admitted, reduceCtorEq, decide_false, Bool.false_or, Bool.and_eq_true,
    Bool.not_eq_true'] using h

/-- One call running under an account the sender can act as. -/
theorem userEff_leaf {c : Cfg} {w a : Acct} {v : Via} {s s1 : St} {x : Call}
    (hf : Frame s s1) (ht : Tables s s1) (hl : s1.log = s.log)
    (hr : ∀ i h, s1.revokedHolder i h ≠ s.revokedHolder i h → Acts s.delegate w i)
    (hk : ∀ k, s1.revoked k ≠ s.revoked k →
      ∃ p i, c.keccak p = k ∧ c.dAcct p.dn.issuer = some i ∧ Acts s.delegate w i)
    (ha : Acts s.delegate w a) (hp : Clear s x) :
    UserEff c w v s (ran s1 v (.signed a) (.call x) (paused s x)) := by
  refine ⟨hf.trans (ran_frame _ _ _ _ _), ht.trans (ran_tables _ _ _ _ _), ?_, hr, hk⟩
  apply Since.one hl
  exact ⟨rfl, ht.active, .inl ⟨x, a, rfl, rfl, ha, hp⟩⟩

/-- An EVM call that was let in. -/
theorem userEff_evm {c : Cfg} {w src t i : Acct} {v : Via} {subs : List Sub} {s s1 : St}
    (h : evmRun c s v src t i subs = .ok s1) : UserEff c w v s s1 := by
  obtain ⟨_, h⟩ := evmRun_ok h
  obtain ⟨hf, ht, r1, r2, hi⟩ := runSubs_ok h
  refine ⟨(ran_frame s v _ _ _).trans hf, (ran_tables s v _ _ _).trans ht, ?_, ?_, ?_⟩
  · refine Since.trans (Since.one rfl ⟨rfl, rfl, .inr (.inl ⟨_, rfl⟩)⟩) (hi.mono ?_)
    rintro e ⟨h1, h2, x, _, _, h3⟩
    refine ⟨h1, h2, .inr ?_⟩
    rcases h3 with ⟨h3, h4⟩ | ⟨p, f, _, h4, h5⟩
    · exact .inl ⟨_, h3⟩
    · exact .inr ⟨p, f, _, h4, h5⟩
  · intro a b hne
    exact absurd (by rw [r2]; rfl) hne
  · intro a hne
    exact absurd (by rw [r1]; rfl) hne

/-- The effect of a call sent by somebody who cannot act as the sudo key. -/
theorem run_user {c : Cfg} {v : Via} {w : Acct} {x : Call} :
    ∀ {b : Acct} {s s1 : St}, run c v x (.signed b) s = .ok s1 → Acts s.delegate w b →
      ¬ Acts s.delegate w s.sudoKey → Clear s x → UserEff c w v s s1 := by
  have lf : ∀ {b : Acct} {s s1 : St} {y : Call} {ok : Bool}, leaf s v (.signed b) y ok = .ok s1 →
      Acts s.delegate w b → Clear s y → UserEff c w v s s1 := by
    intro b s s1 y ok h hb hp
    rw [leaf_ok h]
    exact userEff_leaf (Frame.refl _) (Tables.refl _) rfl (fun _ _ h => absurd rfl h)
      (fun _ h => absurd rfl h) hb hp
  have gate : ∀ {b : Acct} {s s1 : St} {y : Call},
      (∀ {b : Acct} {s s1 : St}, run c v y (.signed b) s = .ok s1 → Acts s.delegate w b →
        ¬ Acts s.delegate w s.sudoKey → Clear s y → UserEff c w v s s1) →
      (if admitted s (.signed b) y = true then run c v y (.signed b) s else .error "CallFiltered") = .ok s1 →
      Acts s.delegate w b → ¬ Acts s.delegate w s.sudoKey → UserEff c w v s s1 := by
    intro b s s1 y hy h hb hn
    by_cases ha : admitted s (.signed b) y = true
    · rw [if_pos ha] at h; exact hy h hb hn (admitted_signed ha)
    · rw [if_neg ha] at h; exact absurd h (by simp)
  induction x with
  | other p f ok => intro b s s1 h hb _ hp; exact lf h hb hp
  | bond k ok => intro b s s1 h hb _ hp; exact lf h hb hp
  | transfer k d x ok =>
    intro b s s1 h hb _ hp
    simp only [run, bind_ok] at h
    obtain ⟨_, _, h⟩ := h
    exact lf h hb hp
  | assetTransfer i d x k ok =>
    intro b s s1 h hb _ hp
    simp only [run, bind_ok] at h
    obtain ⟨_, _, h⟩ := h
    exact lf h hb hp
  | fpCreate a ok =>
    intro b s s1 h hb _ hp
    simp only [run, bind_ok] at h
    obtain ⟨_, _, h⟩ := h
    exact lf h hb hp
  | remark l => intro b s s1 h hb _ hp; exact lf h hb hp
  | maint m =>
    intro b s s1 h
    simp only [run, bind_ok, ensureRoot_ok] at h
    obtain ⟨_, h1, _⟩ := h
    exact absurd h1 (by simp)
  | revokeDoughnut p r =>
    intro b s s1 h hb _ hp
    simp only [run, revokeDoughnut, bind_ok, pure_ok, signer_ok, ensure_ok, okOr_ok, Origin.signed.injEq] at h
    obtain ⟨_, rfl, s2, ⟨i, hi, _, he, h2⟩, h⟩ := h
    subst h
    refine userEff_leaf (s1 := s2) ?_ ?_ ?_ ?_ ?_ hb hp
    · subst h2; exact ⟨rfl, rfl, rfl, rfl, rfl, rfl, rfl⟩
    · subst h2; exact ⟨rfl, rfl, rfl, rfl, rfl, rfl⟩
    · subst h2; rfl
    · intro _ _ hne; subst h2; exact absurd rfl hne
    · intro k hne
      subst h2
      by_cases hk : k = c.keccak p
      · subst he
        exact ⟨p, b, hk.symm, hi, hb⟩
      · exact absurd (upd_ne _ _ hk) hne
  | revokeHolder a r =>
    intro b s s1 h hb _ hp
    simp only [run, bind_ok, pure_ok, signer_ok, Origin.signed.injEq] at h
    obtain ⟨_, rfl, h⟩ := h
    subst h
    refine userEff_leaf (s1 := { s with revokedHolder := upd s.revokedHolder b (upd (s.revokedHolder b) a r) })
      ⟨rfl, rfl, rfl, rfl, rfl, rfl, rfl⟩ ⟨rfl, rfl, rfl, rfl, rfl, rfl⟩ rfl ?_ (fun _ h => absurd rfl h) hb hp
    intro i h hne
    by_cases hi : i = b
    · subst hi; exact hb
    · refine absurd ?_ hne
      show upd s.revokedHolder b _ i h = _
      rw [upd_ne _ _ hi]
  | whitelist a r =>
    intro b s s1 h
    simp only [run, bind_ok, ensureRoot_ok] at h
    obtain ⟨_, h1, _⟩ := h
    exact absurd h1 (by simp)
  | evmCall src t i subs =>
    intro b s s1 h hb _ hp
    simp only [run, bind_ok] at h
    obtain ⟨_, _, _, _, h⟩ := h
    exact userEff_evm h
  | xrplTransact => intro b s s1 h; simp [run] at h
  | doughnutTransact => intro b s s1 h; simp [run] at h
  | sudoCall y ih =>
    intro b s s1 h hb hn
    simp only [run, bind_ok, signer_ok, ensure_ok, Origin.signed.injEq] at h
    obtain ⟨_, rfl, _, rfl, _⟩ := h
    exact absurd hb hn
  | sudoAs a y ih =>
    intro b s s1 h hb hn
    simp only [run, bind_ok, signer_ok, ensure_ok, Origin.signed.injEq] at h
    obtain ⟨_, rfl, _, rfl, _⟩ := h
    exact absurd hb hn
  | proxy fp y ih =>
    intro b s s1 h hb hn _
    simp only [run, bind_ok, signer_ok, ensure_ok, Origin.signed.injEq] at h
    obtain ⟨_, rfl, _, _, _, _, _, hd, h⟩ := h
    have hfp : Acts s.delegate w fp := .via hb hd
    split at h
    · rename_i s2 h2
      simp only [Except.ok.injEq] at h
      subst h
      exact gate ih h2 hfp hn
    · simp only [Except.ok.injEq] at h
      subst h
      exact UserEff.refl _ _ _ _
  | feeProxy xrp y ih =>
    intro b s s1 h hb hn _
    simp only [run, bind_ok, ensure_ok] at h
    obtain ⟨_, _, _, _, _, _, _, ha, h⟩ := h
    exact ih h hb hn (admitted_signed ha)
  | batch all y z ihy ihz =>
    intro b s s1 h hb hn _
    simp only [run] at h
    split at h
    · split at h
      · simp at h
      · simp only [Except.ok.injEq] at h; subst h; exact UserEff.refl _ _ _ _
    · rename_i s2 h2
      have e2 := gate ihy h2 hb hn
      split at h
      · split at h
        · simp at h
        · simp only [Except.ok.injEq] at h; subst h; exact e2
      · rename_i s3 h3
        simp only [Except.ok.injEq] at h
        subst h
        refine e2.trans (gate ihz h3 ?_ ?_)
        · rw [e2.frame.delegate]; exact hb
        · rw [e2.frame.delegate, e2.frame.sudoKey]; exact hn

/-- The same for a filtered dispatch. -/
theorem dispatch_user {c : Cfg} {v : Via} {w b : Acct} {x : Call} {s s1 : St}
    (h : dispatch c v x (.signed b) s = .ok s1) (hb : Acts s.delegate w b)
    (hn : ¬ Acts s.delegate w s.sudoKey) : UserEff c w v s s1 := by
  simp only [dispatch, bind_ok, ensure_ok] at h
  obtain ⟨_, ha, h⟩ := h
  exact run_user h hb hn (admitted_signed ha)

/-- A settled dispatch is the state before or the result of a success. -/
theorem settle_cases (r : Except Err St) (s : St) : r = .ok (settle r s) ∨ settle r s = s := by
  cases r with
  | ok s1 => exact .inl rfl
  | error e => exact .inr rfl

theorem dispatch_frame {c : Cfg} {v : Via} {o : Origin} {x : Call} {s s1 : St}
    (h : dispatch c v x o s = .ok s1) : Frame s s1 ∧ Since s s1 (Kind v) := by
  simp only [dispatch, bind_ok] at h
  obtain ⟨_, _, h⟩ := h
  exact run_frame h

/-! ## The entry points, inverted -/

theorem useNonce_ok {s s1 : St} {a : Acct} {n : Nat} (h : useNonce s a n = .ok s1) :
    s.nonce a = n ∧ s1 = { s with nonce := upd s.nonce a (n + 1) } := by
  simp only [useNonce, bind_ok, ensure_ok, pure_ok] at h
  obtain ⟨_, h1, h2⟩ := h
  refine ⟨h1, ?_⟩
  rw [← h2, h1]

theorem charge_ok {s s1 : St} {a : Acct} {x : Nat} (h : charge s a x = .ok s1) :
    x ≤ s.funds a ∧ s1 = { s with funds := upd s.funds a (s.funds a - x) } := by
  simp only [charge, bind_ok, ensure_ok, pure_ok] at h
  obtain ⟨_, h1, h2⟩ := h
  exact ⟨h1, h2.symm⟩

/-- The state in which the call of a transaction starts: nonce used and fee paid. -/
def begun (s : St) (who : Acct) (n : Nat) (payer : Acct) (fee : Nat) : St :=
  { s with nonce := upd s.nonce who (n + 1)
           funds := upd s.funds payer (s.funds payer - fee) }

theorem feePayer_nonce (s : St) (f : Acct → Nat) (w : Acct) (x : Call) :
    feePayer { s with nonce := f } w x = feePayer s w x := by
  unfold feePayer
  split <;> rfl

theorem signedTx_ok {c : Cfg} {s s1 : St} {who : Acct} {n tip : Nat} {x : Call}
    (h : signedTx c s who n tip x = .ok s1) :
    who ≠ 0 ∧ s.nonce who = n ∧ checkMaintenance s who x = .ok () ∧
      c.feeOf x + tip ≤ s.funds (feePayer s who x) ∧
      s1 = settle (dispatch c .signed x (.signed who) (begun s who n (feePayer s who x) (c.feeOf x + tip)))
        (begun s who n (feePayer s who x) (c.feeOf x + tip)) := by
  simp only [signedTx, bind_ok, ensure_ok, pure_ok] at h
  obtain ⟨_, h0, s2, h2, _, h3, s4, h4, h⟩ := h
  obtain ⟨hn, rfl⟩ := useNonce_ok h2
  obtain ⟨hf, rfl⟩ := charge_ok h4
  rw [feePayer_nonce] at hf h
  refine ⟨h0, hn, ?_, hf, h.symm⟩
  simpa only [checkMaintenance] using h3

theorem ethereumTx_ok {c : Cfg} {s s1 : St} {src : Acct} {n : Nat} {t i : Acct} {l : List Sub}
    (h : ethereumTx c s src n t i l = .ok s1) :
    s.nonce src = n ∧ evmAllowed s src t = true ∧
      s1 = settle (evmRun c { s with nonce := upd s.nonce src (n + 1) } .ethereum src t i l)
        { s with nonce := upd s.nonce src (n + 1) } := by
  simp only [ethereumTx, bind_ok, ensure_ok, pure_ok] at h
  obtain ⟨_, _, _, hn, _, ha, s2, h2, h⟩ := h
  obtain ⟨_, rfl⟩ := useNonce_ok h2
  exact ⟨hn, ha, h.symm⟩

theorem xParams_ok {c : Cfg} {s : St} {m : Blob} {sig : Nat} {x : Call} {d : MemoData}
    (h : xParams c s m sig x = .ok d) :
    extrinsicData m.part.memos = .ok d ∧ d.genesis = c.genesis ∧ c.callHash x = d.callHash ∧
      x ≠ .xrplTransact ∧ s.block ≤ d.maxBlock ∧
      ∃ k, publicKey m.part.keyHex = .ok k ∧ c.xVerify k m.part sig = true := by
  simp only [xParams, bind_ok, ensure_ok, pure_ok] at h
  obtain ⟨d', h1, _, h2, _, h3, _, h4, _, h5, k, h6, _, h7, rfl⟩ := h
  exact ⟨h1, h2, h3, h4, h5, k, h6, h7⟩

theorem xTransact_ok {c : Cfg} {s s1 : St} {m : Blob} {x : Call} (h : xTransact c s m x = .ok s1) :
    pausedName s (nm "Xrpl") (nm "transact") = false ∧ paused s x = false ∧
      ∃ a, xAccount c m = .ok a ∧ dispatch c .xrpl x (.signed a) s = .ok s1 := by
  simp only [xTransact, bind_ok, ensure_ok] at h
  obtain ⟨_, h1, _, h2, a, h3, h4⟩ := h
  exact ⟨h1, h2, a, h3, h4⟩

/-- An XRPL message that is included: the account of its key is `a`, the transaction is on behalf of
`origin`, the nonce of `eoa` is used and the fee is charged. -/
theorem xrplTx_ok {c : Cfg} {s s1 : St} {m : Blob} {sig : Nat} {x : Call}
    (h : xrplTx c s m sig x = .ok s1) :
    ∃ a origin eoa d, xAccount c m = .ok a ∧ xParams c s m sig x = .ok d ∧ origin ≠ 0 ∧ eoa ≠ 0 ∧
      ((fpCall x = true ∧ s.holder a = some origin ∧ s.owner origin = some eoa) ∨
        (fpCall x = false ∧ origin = a ∧ eoa = a)) ∧
      s.nonce eoa = d.nonce ∧ c.feeOf x + d.tip ≤ s.funds (feePayer s origin x) ∧
      s1 = settle (xTransact c (begun s eoa d.nonce (feePayer s origin x) (c.feeOf x + d.tip)) m x)
        (begun s eoa d.nonce (feePayer s origin x) (c.feeOf x + d.tip)) := by
  simp only [xrplTx, bind_ok, ensure_ok, pure_ok] at h
  obtain ⟨a, ha, origin, ho, d, hd, _, h0, s2, h2, eoa, he, _, h0', s3, h3, h⟩ := h
  obtain ⟨hf, rfl⟩ := charge_ok h2
  obtain ⟨hn, rfl⟩ := useNonce_ok h3
  refine ⟨a, origin, eoa, d, ha, hd, h0, h0', ?_, hn, hf, h.symm⟩
  by_cases hx : fpCall x = true
  · rw [if_pos hx] at ho he
    exact .inl ⟨hx, okOr_ok.mp ho, okOr_ok.mp he⟩
  · rw [if_neg hx] at ho he
    have e1 := pure_ok.mp ho
    have e2 := pure_ok.mp he
    exact .inr ⟨by simpa using hx, e1.symm, e2.symm.trans e1.symm⟩

theorem dTransact_ok {c : Cfg} {s s1 : St} {p : Payload} {x : Call} (h : dTransact c s p x = .ok s1) :
    pausedName s (nm "Doughnut") (nm "transact") = false ∧ c.dVerify p.dn = true ∧
      ∃ iss hol t, c.dAcct p.dn.issuer = some iss ∧ c.dAcct p.dn.holder = some hol ∧ s.white hol = true ∧
        s.revoked (c.keccak p) = false ∧ s.revokedHolder iss hol = false ∧ p.dn.topping = some t ∧
        c.toppingOk t = true ∧ checkTopping c s t x = .ok () ∧
        s1 = settle (dispatch c .doughnut x (.signed iss) s) s := by
  simp only [dTransact, bind_ok, ensure_ok, okOr_ok, pure_ok] at h
  obtain ⟨_, h1, _, h2, iss, h3, hol, h4, _, h5, _, h6, _, h7, t, h8, _, h9, _, h10, h11⟩ := h
  exact ⟨h1, h2, iss, hol, t, h3, h4, h5, h6, h7, h8, h9, h10, h11.symm⟩

theorem dPayer_ok {c : Cfg} {s : St} {p : Payload} {g : Nat} {x : Call} {b : Acct}
    (h : dPayer c s p g x = .ok b) :
    g = c.genesis ∧ ∃ a, c.dAcct (if p.dn.holderPays then p.dn.holder else p.dn.issuer) = some a ∧
      ((fpCall x = true ∧ s.holder a = some b) ∨ (fpCall x = false ∧ b = a)) := by
  simp only [dPayer, bind_ok, ensure_ok, okOr_ok] at h
  obtain ⟨_, h1, a, h2, h3⟩ := h
  refine ⟨h1, a, h2, ?_⟩
  by_cases hx : fpCall x = true
  · rw [if_pos hx] at h3
    exact .inl ⟨hx, okOr_ok.mp h3⟩
  · rw [if_neg hx] at h3
    exact .inr ⟨by simpa using hx, (pure_ok.mp h3).symm⟩

theorem doughnutTx_ok {c : Cfg} {s s1 : St} {p : Payload} {n g tip sig : Nat} {x : Call}
    (h : doughnutTx c s p n g tip sig x = .ok s1) :
    ∃ hol payer, p.dn.notBefore ≤ s.block ∧ s.block < p.dn.expiry ∧ c.dVerify p.dn = true ∧
      c.dAcct p.dn.holder = some hol ∧ hol ≠ 0 ∧ c.hVerify p.dn.holder x p n g tip sig = true ∧
      dPayer c s p g x = .ok payer ∧ s.nonce hol = n ∧
      c.feeOf x + tip ≤ s.funds (feePayer s payer x) ∧
      s1 = settle (dTransact c (begun s hol n (feePayer s payer x) (c.feeOf x + tip)) p x)
        (begun s hol n (feePayer s payer x) (c.feeOf x + tip)) := by
  simp only [doughnutTx, bind_ok, ensure_ok, okOr_ok, pure_ok] at h
  obtain ⟨_, h1, _, h2, _, h3, hol, h4, _, h5, payer, h6, _, h7, s2, h8, s3, h9, h⟩ := h
  obtain ⟨hn, rfl⟩ := useNonce_ok h8
  obtain ⟨hf, rfl⟩ := charge_ok h9
  rw [feePayer_nonce] at hf h
  exact ⟨hol, payer, h1, h2, h3, h4, h7, h5, h6, hn, hf, h.symm⟩

end Verif.Entry
