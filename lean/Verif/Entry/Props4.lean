import Verif.Entry.Props3

/-!
# Doughnuts (C59, C124, C125, C126)
-/

namespace Verif.Entry

/-! ## Specification -/

/-- The topping's permissions accept a call, amounts being read modulo 2^64; only these five calls can be
accepted. -/
inductive Permitted (c : Cfg) (t : Nat) : Call → Prop
  | pay {keep : Bool} {dest v : Nat} {ok : Bool} :
      c.permits t (nm "Balances") (if keep then nm "transfer_keep_alive" else nm "transfer")
        [.addr dest, .num (v % 2 ^ 64)] = true → Permitted c t (.transfer keep dest v ok)
  | asset {i dest v : Nat} {keep ok : Bool} :
      c.permits t (nm "AssetsExt") (nm "transfer")
        [.num i, .addr dest, .num (v % 2 ^ 64), .num (if keep then 1 else 0)] = true →
      Permitted c t (.assetTransfer i dest v keep ok)
  | pass {a : Acct} {ok : Bool} :
      c.permits t (nm "Futurepass") (nm "create") [.addr a] = true → Permitted c t (.fpCreate a ok)
  | note {b : List Nat} :
      c.permits t (nm "System") (nm "remark") [.bytes b] = true → Permitted c t (.remark b)

/-- The call of the transaction stands for `y`: it is `y`, or `y` inside a futurepass call, possibly with fee
preferences. -/
inductive StandsFor (y : Call) : Call → Option Acct → Prop
  | plain : StandsFor y y none
  | fee {xrp : Bool} : StandsFor y (.feeProxy xrp y) none
  | proxy {fp : Acct} : StandsFor y (.proxy fp y) (some fp)
  | feeProxy {xrp : Bool} {fp : Acct} : StandsFor y (.feeProxy xrp (.proxy fp y)) (some fp)

/-! ## Helpers -/

/-- The calls a topping can permit are leaves. -/
theorem run_permitted {c : Cfg} {v : Via} {t : Nat} {y : Call} (hy : Permitted c t y) {o : Origin} {s s1 : St}
    (h : run c v y o s = .ok s1) : s1 = ran s v o (.call y) (paused s y) := by
  cases hy with
  | pay _ =>
    simp only [run, bind_ok] at h
    obtain ⟨_, _, h⟩ := h
    exact leaf_ok h
  | asset _ =>
    simp only [run, bind_ok] at h
    obtain ⟨_, _, h⟩ := h
    exact leaf_ok h
  | pass _ =>
    simp only [run, bind_ok] at h
    obtain ⟨_, _, h⟩ := h
    exact leaf_ok h
  | note _ => exact leaf_ok h

theorem checkTopping_ok {c : Cfg} {s : St} {t : Nat} {x : Call} (h : checkTopping c s t x = .ok ()) :
    Permitted c t (actual x) := by
  simp only [checkTopping, bind_ok] at h
  obtain ⟨_, _, h⟩ := h
  have e64 : U64 = 2 ^ 64 := by decide
  generalize hy : actual x = y at h
  cases y with
  | transfer keep d v ok =>
    simp only [ensure_ok, e64] at h
    exact .pay h
  | fpCreate a ok => simp only [ensure_ok] at h; exact .pass h
  | remark b => simp only [ensure_ok] at h; exact .note h
  | assetTransfer i d v keep ok =>
    simp only [ensure_ok, e64] at h
    exact .asset h
  | _ => simp at h

theorem feeProxy_none {c : Cfg} {v : Via} {xrp : Bool} {z : Call} {a : Acct} {s s1 : St}
    (h : run c v (.feeProxy xrp z) (.signed a) s = .ok s1) : run c v z (.signed a) s = .ok s1 := by
  simp only [run, bind_ok] at h
  obtain ⟨_, _, _, _, _, _, _, _, h⟩ := h
  exact h

theorem proxy_ran {c : Cfg} {v : Via} {t fp : Nat} {y : Call} (hy : Permitted c t y) {a : Acct} {s s1 : St}
    (h : run c v (.proxy fp y) (.signed a) s = .ok s1) :
    s1 = s ∨ (s.delegate fp a = true ∧ s1 = ran s v (.signed fp) (.call y) (paused s y)) := by
  simp only [run, bind_ok, signer_ok, ensure_ok, Origin.signed.injEq] at h
  obtain ⟨_, rfl, _, _, _, _, _, hd, h⟩ := h
  split at h
  · rename_i s2 h2
    simp only [Except.ok.injEq] at h
    subst h
    split at h2
    · exact .inr ⟨hd, run_permitted hy h2⟩
    · exact absurd h2 (by simp)
  · simp only [Except.ok.injEq] at h
    exact .inl h.symm

/-- What a permitted transaction call does. -/
theorem run_stands {c : Cfg} {v : Via} {t : Nat} {x : Call} (hy : Permitted c t (actual x)) {a : Acct}
    {s s1 : St} (h : run c v x (.signed a) s = .ok s1) :
    s1 = s ∨ ∃ fp, StandsFor (actual x) x fp ∧ (∀ b, fp = some b → s.delegate b a = true) ∧
      s1 = ran s v (.signed (fp.getD a)) (.call (actual x)) (paused s (actual x)) := by
  have plain : actual x = x → s1 = s ∨ ∃ fp, StandsFor (actual x) x fp ∧
      (∀ b, fp = some b → s.delegate b a = true) ∧
      s1 = ran s v (.signed (fp.getD a)) (.call (actual x)) (paused s (actual x)) := by
    intro e
    rw [e] at hy ⊢
    exact .inr ⟨none, .plain, (fun _ e => nomatch e), run_permitted hy h⟩
  cases x with
  | proxy fp y =>
    rcases proxy_ran hy h with h | ⟨hd, h⟩
    · exact .inl h
    · exact .inr ⟨some fp, .proxy, fun _ e => by cases e; exact hd, h⟩
  | feeProxy xrp z =>
    have h := feeProxy_none h
    cases z with
    | proxy fp y =>
      rcases proxy_ran hy h with h | ⟨hd, h⟩
      · exact .inl h
      · exact .inr ⟨some fp, .feeProxy, fun _ e => by cases e; exact hd, h⟩
    | _ => exact .inr ⟨none, .fee, (fun _ e => nomatch e), run_permitted hy h⟩
  | _ => exact plain rfl

/-- The call of an accepted doughnut. -/
theorem doughnut_log {c : Cfg} {s s1 : St} {p : Payload} {n g tip sig : Nat} {x : Call}
    (h : step c s (.doughnut p n g tip sig x) = .ok s1) :
    s1.log = s.log ∨ ∃ iss hol t fp, c.dAcct p.dn.issuer = some iss ∧ c.dAcct p.dn.holder = some hol ∧
      s.white hol = true ∧ s.revoked (c.keccak p) = false ∧ s.revokedHolder iss hol = false ∧
      p.dn.topping = some t ∧ Permitted c t (actual x) ∧ StandsFor (actual x) x fp ∧
      (∀ b, fp = some b → s.delegate b iss = true) ∧
      s1.log = { via := .doughnut, origin := .signed (fp.getD iss), act := .call (actual x),
                 paused := paused s (actual x), maint := s.active } :: s.log := by
  obtain ⟨hol, payer, _, _, _, hh, _, _, _, _, _, h⟩ := doughnutTx_ok h
  generalize hb : begun s hol n (feePayer s payer x) (c.feeOf x + tip) = b at h
  have hl : b.log = s.log := by rw [← hb]; rfl
  rcases settle_cases (dTransact c b p x) b with h1 | h1
  · rw [← h] at h1
    obtain ⟨_, _, iss, hol', t, g1, g2, g3, g4, g5, g6, _, g8, g9⟩ := dTransact_ok h1
    rcases settle_cases (dispatch c .doughnut x (.signed iss) b) b with h2 | h2
    · rw [← g9] at h2
      simp only [dispatch, bind_ok] at h2
      obtain ⟨_, _, h2⟩ := h2
      rcases run_stands (checkTopping_ok g8) h2 with h3 | ⟨fp, h3, h4, h5⟩
      · left; rw [h3, hl]
      · right
        subst hb
        exact ⟨iss, hol', t, fp, g1, g2, g3, g4, g5, g6, checkTopping_ok g8, h3, h4, by rw [h5]; rfl⟩
    · left; rw [g9, h2, hl]
  · left; rw [h, h1, hl]

/-! ## C124: doughnuts are authentic -/

/-- A doughnut transaction is accepted only within the doughnut's time window, with a good signature of the
issuer on the doughnut and of the holder on the call, the payload, the nonce, the genesis hash and the tip,
for this chain, and with the holder's current nonce, which is used up. Something runs only if the holder is
whitelisted. -/
theorem C124_doughnut_authentic {c : Cfg} {s s1 : St} {p : Payload} {n g tip sig : Nat} {x : Call}
    (h : step c s (.doughnut p n g tip sig x) = .ok s1) :
    p.dn.notBefore ≤ s.block ∧ s.block < p.dn.expiry ∧ c.dVerify p.dn = true ∧
    c.hVerify p.dn.holder x p n g tip sig = true ∧ g = c.genesis ∧
    ∃ hol, c.dAcct p.dn.holder = some hol ∧ s.nonce hol = n ∧ s1.nonce = upd s.nonce hol (n + 1) ∧
      (s1.log ≠ s.log → s.white hol = true) := by
  obtain ⟨hol, payer, h1, h2, h3, h4, _, h5, h6, h7, _, h8⟩ := doughnutTx_ok h
  refine ⟨h1, h2, h3, h5, (dPayer_ok h6).1, hol, h4, h7, ?_, ?_⟩
  · have hf : Frame (begun s hol n (feePayer s payer x) (c.feeOf x + tip)) s1 := by
      rw [h8]; exact (settle_frame fun s2 h2 => dTransact_frame h2).1
    rw [hf.nonce]; rfl
  · intro hne
    rcases doughnut_log h with h | ⟨_, hol', _, _, _, g1, g2, _⟩
    · exact absurd h hne
    · rw [h4] at g1
      cases g1
      exact g2

/-- The doughnut of the examples, with nothing after it. -/
def nutP : Payload where
  dn := Demo.nut
  tail := []

/-- A doughnut's transfer runs; without the whitelist, with a bad signature, or too late it does not. -/
example : Reach Demo.cfg 1 Demo.sNut ∧
    (exec Demo.cfg Demo.sNut [.doughnut nutP 0 7 0 9 (.transfer true 30 500 true)]).log.length = 2 ∧
    (exec Demo.cfg Demo.s0 [.doughnut nutP 0 7 0 9 (.transfer true 30 500 true)]).log.length = 0 ∧
    errIs (step Demo.cfg Demo.sNut (.doughnut nutP 0 7 0 8 (.transfer true 30 500 true))) "BadProof" = true ∧
    errIs (step Demo.cfg { Demo.sNut with block := 100 } (.doughnut nutP 0 7 0 9 (.transfer true 30 500 true)))
      "Expired" = true := by
  refine ⟨Demo.reach_sNut, ?_, ?_, ?_, ?_⟩ <;> decide +kernel

/-! ## C125: revocation -/

/-- After the issuer has revoked a payload, or the holder, nothing runs under it.
(Partial: the payload must be the same byte for byte, see `C125_refuted_bytes`; and fees are still taken, see
`C125_refuted_fee`.) -/
theorem C125_revoked_stops_partial {c : Cfg} {s s1 : St} {p : Payload} {n g tip sig : Nat} {x : Call}
    (hrv : s.revoked (c.keccak p) = true ∨ ∃ iss hol, c.dAcct p.dn.issuer = some iss ∧
      c.dAcct p.dn.holder = some hol ∧ s.revokedHolder iss hol = true)
    (h : step c s (.doughnut p n g tip sig x) = .ok s1) : s1.log = s.log := by
  rcases doughnut_log h with h | ⟨iss, hol, _, _, g1, g2, _, g3, g4, _⟩
  · exact h
  · rcases hrv with hrv | ⟨iss', hol', g5, g6, hrv⟩
    · rw [hrv] at g3; cases g3
    · rw [g1] at g5; rw [g2] at g6
      cases g5; cases g6
      rw [hrv] at g4; cases g4

/-- Revoking works, for the issuer itself. -/
theorem C125_revoke {c : Cfg} {v : Via} {s s1 : St} {p : Payload} {r : Bool} {a : Acct}
    (h : run c v (.revokeDoughnut p r) (.signed a) s = .ok s1) :
    c.dAcct p.dn.issuer = some a ∧ s1.revoked = upd s.revoked (c.keccak p) r := by
  simp only [run, revokeDoughnut, bind_ok, pure_ok, signer_ok, ensure_ok, okOr_ok, Origin.signed.injEq] at h
  obtain ⟨_, rfl, s2, ⟨i, hi, _, rfl, rfl⟩, rfl⟩ := h
  exact ⟨hi, rfl⟩

/-- Nobody but an account that can act as the issuer changes the revocation of a holder. -/
theorem C125_only_issuer {c : Cfg} {s s1 : St} {op : Op} {w : Acct} (hw : ByUser c s op w)
    (h : step c s op = .ok s1) :
    (∀ i a, ¬ Acts s.delegate w i → s1.revokedHolder i a = s.revokedHolder i a) ∧
    (∀ k, (∀ p i, c.keccak p = k → c.dAcct p.dn.issuer = some i → ¬ Acts s.delegate w i) →
      s1.revoked k = s.revoked k) := by
  have key : ∀ {v : Via} {s0 : St}, UserEff c w v s0 s1 → s0.delegate = s.delegate →
      s0.revokedHolder = s.revokedHolder → s0.revoked = s.revoked →
      (∀ i a, ¬ Acts s.delegate w i → s1.revokedHolder i a = s.revokedHolder i a) ∧
      (∀ k, (∀ p i, c.keccak p = k → c.dAcct p.dn.issuer = some i → ¬ Acts s.delegate w i) →
        s1.revoked k = s.revoked k) := by
    intro v s0 hu hd h1 h2
    constructor
    · intro i a hn
      by_contra hne
      rw [← h1] at hne
      have := hu.revokedHolder i a hne
      rw [hd] at this
      exact hn this
    · intro k hk
      by_contra hne
      rw [← h2] at hne
      obtain ⟨p, i, e1, e2, e3⟩ := hu.revoked k hne
      rw [hd] at e3
      exact hk p i e1 e2 e3
  obtain ⟨hw, hn⟩ := hw
  cases op with
  | signed who n tip x =>
    cases hw
    obtain ⟨_, _, _, _, rfl⟩ := signedTx_ok h
    exact key (settle_user (v := .signed) fun s2 h2 => dispatch_user h2 .self hn) rfl rfl rfl
  | ethereum src n t i l =>
    obtain ⟨_, _, rfl⟩ := ethereumTx_ok h
    exact key (settle_user (v := .ethereum) fun s2 h2 => userEff_evm h2) rfl rfl rfl
  | xrpl m sig x =>
    obtain ⟨a, _, _, _, ha, _, _, _, _, _, _, rfl⟩ := xrplTx_ok h
    refine key (settle_user (v := .xrpl) fun s2 h2 => ?_) rfl rfl rfl
    obtain ⟨_, _, a', ha', h2⟩ := xTransact_ok h2
    rw [sender, ha'] at hw
    cases hw
    exact dispatch_user h2 .self hn
  | doughnut p n g tip sig x =>
    obtain ⟨_, _, _, _, _, _, _, _, _, _, _, rfl⟩ := doughnutTx_ok h
    refine key (settle_user (v := .doughnut) fun s2 h2 => ?_) rfl rfl rfl
    obtain ⟨_, _, iss, _, _, hi, _, _, _, _, _, _, _, rfl⟩ := dTransact_ok h2
    rw [sender, hi] at hw
    cases hw
    exact settle_user fun s3 h3 => dispatch_user h3 .self hn
  | nextBlock => cases hw
  | setFunds a x => cases hw
  | reap a => cases hw
  | fpNew a fp => cases hw
  | fpMove fp b => cases hw
  | setDelegate fp d b => cases hw

/-- Issuer 20 has revoked the doughnut. -/
def sRevoked : St := exec Demo.cfg Demo.sNut [.signed 20 0 0 (.revokeDoughnut nutP true)]

/-- The issuer has revoked a doughnut, and the holder uses the same signed doughnut with one byte added after
it: the transfer runs. -/
theorem C125_refuted_bytes : ∃ (c : Cfg) (k : Acct) (s s1 : St) (p : Payload) (n g tip sig : Nat) (y : Call),
    Reach c k s ∧ s.revoked (c.keccak p) = true ∧
    step c s (.doughnut { p with tail := [0] } n g tip sig y) = .ok s1 ∧
    s1.log.head?.map Ran.act = some (.call y) ∧ s1.log.length = s.log.length + 1 := by
  refine ⟨Demo.cfg, 1, sRevoked, _, nutP, 0, 7, 0, 9, .transfer true 30 500 true,
    Demo.reach_exec Demo.reach_sNut, ?_, ok_getD (d := Demo.s0) ?_, ?_, ?_⟩ <;> decide +kernel

/-- The issuer has revoked a doughnut, and still pays the fees, and any tip the holder chooses, of calls the
holder sends under it. -/
theorem C125_refuted_fee : ∃ (c : Cfg) (k : Acct) (s s1 : St) (p : Payload) (n g tip sig : Nat) (y : Call)
    (iss : Acct), Reach c k s ∧ s.revoked (c.keccak p) = true ∧ c.dAcct p.dn.issuer = some iss ∧
    step c s (.doughnut p n g tip sig y) = .ok s1 ∧ s.funds iss = 99 ∧ s1.funds iss = 48 := by
  refine ⟨Demo.cfg, 1, sRevoked, _, nutP, 0, 7, 50, 9, .transfer true 30 500 true, 20,
    Demo.reach_exec Demo.reach_sNut, ?_, rfl, ok_getD (d := Demo.s0) ?_, ?_, ?_⟩ <;> decide +kernel

/-- Revoked: accepted, and nothing runs. -/
example : sRevoked.revoked (Demo.cfg.keccak nutP) = true ∧
    (step Demo.cfg sRevoked (.doughnut nutP 0 7 0 9 (.transfer true 30 500 true))).isOk = true ∧
    (exec Demo.cfg sRevoked [.doughnut nutP 0 7 0 9 (.transfer true 30 500 true)]).log = sRevoked.log ∧
    (run Demo.cfg .signed (.revokeDoughnut nutP true) (.signed 20) Demo.sNut).isOk = true ∧
    (run Demo.cfg .signed (.revokeDoughnut nutP true) (.signed 21) Demo.sNut).isOk = false := by
  decide +kernel

/-! ## C126: only what the doughnut permits runs -/

/-- Under a doughnut at most one call runs: one its permissions accept, the transaction's own call taken out
of the futurepass and fee wrappers, as the issuer or as a futurepass the issuer may act for. -/
theorem C126_only_permitted {c : Cfg} {s s1 : St} {p : Payload} {n g tip sig : Nat} {x : Call}
    (h : step c s (.doughnut p n g tip sig x) = .ok s1) :
    s1.log = s.log ∨ ∃ e iss t y fp, s1.log = e :: s.log ∧ c.dAcct p.dn.issuer = some iss ∧
      p.dn.topping = some t ∧ Permitted c t y ∧ StandsFor y x fp ∧ e.act = .call y ∧
      e.origin = .signed (fp.getD iss) ∧ ∀ b, fp = some b → s.delegate b iss = true := by
  rcases doughnut_log h with h | ⟨iss, _, t, fp, g1, _, _, _, _, g5, g6, g7, g8, g9⟩
  · exact .inl h
  · exact .inr ⟨_, iss, t, _, fp, g9, g1, g5, g6, g7, rfl, rfl, g8⟩

/-- A transfer inside the limit runs, one above it does not, and a call of another kind does not. -/
example :
    (exec Demo.cfg Demo.sNut [.doughnut nutP 0 7 0 9 (.feeProxy false (.transfer true 30 1000 true))]).log.length
      = 2 ∧
    (exec Demo.cfg Demo.sNut [.doughnut nutP 0 7 0 9 (.transfer true 30 1001 true)]).log.length = 1 ∧
    (exec Demo.cfg Demo.sNut
      [.doughnut nutP 0 7 0 9 (.batch true (.remark []) (.transfer true 30 5000 true))]).log.length = 1 ∧
    (step Demo.cfg Demo.sNut (.doughnut nutP 0 7 0 9 (.transfer true 30 1000 true))).isOk = true := by
  decide +kernel

/-! ## C59: the amount limit -/

/-- The permissions accept no native transfer above the limit. -/
def Limited (c : Cfg) (t limit : Nat) : Prop :=
  ∀ (keep : Bool) (dest v : Nat), c.permits t (nm "Balances") (if keep then nm "transfer_keep_alive" else nm "transfer")
    [.addr dest, .num v] = true → v ≤ limit

/-- A transfer that runs under a doughnut whose permissions accept no amount above the limit is of at most
the limit, if it is of less than 2^64. (Partial because of that condition; see `C59_refuted`.) -/
theorem C59_limit_partial {c : Cfg} {s s1 : St} {p : Payload} {n g tip sig : Nat} {x : Call} {t limit : Nat}
    (ht : p.dn.topping = some t) (hl : Limited c t limit)
    (h : step c s (.doughnut p n g tip sig x) = .ok s1) :
    Since s s1 (fun e => ∀ keep dest v ok, e.act = .call (.transfer keep dest v ok) → v < 2 ^ 64 → v ≤ limit) := by
  rcases C126_only_permitted h with h | ⟨e, iss, t', y, fp, h1, _, h2, h3, _, h4, _⟩
  · exact Since.of_log h
  · refine ⟨[e], h1, ?_⟩
    intro e' he' keep dest v ok ha hv
    rw [List.mem_singleton] at he'
    subst he'
    rw [ht] at h2
    cases h2
    rw [h4] at ha
    cases ha
    cases h3 with
    | pay h3 =>
      rw [Nat.mod_eq_of_lt hv] at h3
      exact hl keep dest v h3

/-- The limit is 1000; a transfer of 2^64 + 1 runs. -/
theorem C59_refuted : ∃ (c : Cfg) (k : Acct) (s s1 : St) (p : Payload) (n g tip sig : Nat) (t dest v : Nat),
    Reach c k s ∧ p.dn.topping = some t ∧ Limited c t 1000 ∧ 1000 < v ∧
    step c s (.doughnut p n g tip sig (.transfer true dest v true)) = .ok s1 ∧
    s1.log.head?.map Ran.act = some (.call (.transfer true dest v true)) := by
  refine ⟨Demo.cfg, 1, Demo.sNut, _, nutP, 0, 7, 0, 9, 1000, 30, 18446744073709551617, Demo.reach_sNut, rfl, ?_,
    by decide, ok_getD (d := Demo.s0) ?_, ?_⟩
  · intro keep dest v h
    have h : Demo.within 1000 [.addr dest, .num v] = true := h
    simpa [Demo.within] using h
  · decide +kernel
  · decide +kernel

example : nutP.dn.topping = some 1000 ∧ Limited Demo.cfg 1000 1000 := by
  refine ⟨rfl, ?_⟩
  intro keep dest v h
  have h : Demo.within 1000 [.addr dest, .num v] = true := h
  simpa [Demo.within] using h

end Verif.Entry
