import Verif.EvmMoney.Lemmas

namespace Verif.EvmMoney
open Verif.Dex (sat128 sat128_le poolAddr mkPair burnAcct Keyed)
open Verif.Ledger (transfer_mono mint_mono burn_mono)

/-! ### exchange operations take assets only from their signer and from pools -/

theorem payAndSwap_mono {c : Dex.Cfg} {s s' : Dex.St} {who dst : Acct} {amts : List Nat}
    {path : List AssetId} (hl : amts.length = path.length)
    (hp : Dex.payAndSwap c s who dst amts path = .ok s') {x : Acct} (hx : x ≠ who)
    (hpool : ∀ p, x ≠ poolAddr p) (a : AssetId) : s.led.bal a x ≤ s'.led.bal a x := by
  obtain ⟨first, last, _, _, he⟩ := Dex.trade_effect hl hp
  obtain ⟨fee, h1, _⟩ := he a x hpool
  rw [if_neg (by tauto)] at h1
  omega

theorem dex_mono {c : Dex.Cfg} {s s' : Dex.St} {op : Dex.Op} (h : Dex.step c s op = .ok s')
    {x : Acct} (hx : op.signer ≠ some x) (hpool : ∀ p, x ≠ poolAddr p) (a : AssetId) :
    s.led.bal a x ≤ s'.led.bal a x := by
  cases op with
  | swapSupply who i m path dst dl =>
    obtain ⟨_, amts, h2, ha, _, hp⟩ := Dex.swapExactSupply_ok h
    have hsh := Dex.amountsOutLoop_shape path i amts (by rintro rfl; simp at h2) ha
    exact payAndSwap_mono hsh.1 hp (fun e => hx (by rw [e]; rfl)) hpool a
  | swapTarget who i m path dst dl =>
    obtain ⟨_, amts, h2, ha, _, hp⟩ := Dex.swapExactTarget_ok h
    have hsh := Dex.amountsInLoop_shape path i amts (by rintro rfl; simp at h2) ha
    exact payAndSwap_mono hsh.1 hp (fun e => hx (by rw [e]; rfl)) hpool a
  | add who p q da db ma mb dst dl =>
    obtain ⟨ev, ha⟩ := Dex.map_fst_ok h
    have hne : x ≠ who := fun e => hx (by rw [e]; rfl)
    obtain ⟨_, _, sl, d0, d1, m0, m1, hsl, _, _, _, hadd⟩ := Dex.addLiquidity_ok ha
    have e0 : sl.1.led = s.led := by
      rcases Dex.getOrCreateLp_cases hsl with ⟨_, e⟩ | ⟨_, hc⟩
      · rw [e]
      · obtain ⟨_, n, e⟩ := Dex.createLp_ok hc
        rw [e]
    obtain ⟨amts, led1, led2, ll, k, _, t1, t2, _, _, _, _, hq, _, hm, _⟩ := Dex.addOrdered_ok hadd
    rw [e0] at t1
    have h1 := transfer_mono t1 a x (fun _ => hne)
    have h2 := transfer_mono t2 a x (fun _ => hne)
    have h3 : led2.bal a x ≤ ll.bal a x := by
      rcases Dex.liquidityFor_led hq with ⟨_, hb, _⟩ | ⟨_, e, _⟩
      · exact mint_mono hb a x
      · rw [e]
    have h4 := mint_mono hm a x
    omega
  | remove who p q liq ma mb dst dl =>
    obtain ⟨ev, ha⟩ := Dex.map_fst_ok h
    have hne : x ≠ who := fun e => hx (by rw [e]; rfl)
    obtain ⟨_, _, l, led, m0, m1, hl, ht, hr⟩ := Dex.removeLiquidity_ok ha
    obtain ⟨led1, led2, k, _, _, _, _, _, _, _, _, hb, t1, t2, _⟩ := Dex.removeOrdered_ok hr
    have h1 := transfer_mono ht a x (fun _ => hne)
    have h2 := burn_mono hb a x (fun _ => hpool _)
    have h3 := transfer_mono t1 a x (fun _ => hpool _)
    have h4 := transfer_mono t2 a x (fun _ => hpool _)
    dsimp only at h2
    omega
  | setFeeTo f => cases h; exact Nat.le_refl _
  | reenable p q =>
    simp only [Dex.step, Dex.reenable, bind_ok, ensure_ok, pure_ok] at h
    obtain ⟨_, _, _, _, rfl⟩ := h
    exact Nat.le_refl _
  | disable p q =>
    simp only [Dex.step, Dex.disable, bind_ok, ensure_ok, pure_ok] at h
    obtain ⟨_, _, _, _, rfl⟩ := h
    exact Nat.le_refl _
  | transfer who b dst amt =>
    simp only [Dex.step, Dex.directTransfer, bind_ok, pure_ok] at h
    obtain ⟨led, ht, rfl⟩ := h
    exact transfer_mono ht a x (fun _ e => hx (by rw [e]; rfl))
  | createAsset who =>
    simp only [Dex.step, Dex.createAsset, bind_ok, ensure_ok, pure_ok] at h
    obtain ⟨_, _, _, _, rfl⟩ := h
    exact Nat.le_refl _
  | mintAsset who b dst amt =>
    simp only [Dex.step, Dex.mintAsset, bind_ok, ensure_ok, pure_ok] at h
    obtain ⟨_, _, led, ht, rfl⟩ := h
    exact mint_mono ht a x
  | nextBlock => cases h; exact Nat.le_refl _

/-- Once an asset has an owner it keeps it. -/
theorem dex_owner {c : Dex.Cfg} {s s' : Dex.St} {op : Dex.Op} (h : Dex.step c s op = .ok s')
    {a : AssetId} {o : Acct} (ho : s.owner a = some o) : s'.owner a = some o := by
  cases op with
  | swapSupply who i m path dst dl =>
    obtain ⟨_, amts, _, _, _, hp⟩ := Dex.swapExactSupply_ok h
    rw [(Dex.payAndSwap_frame hp).2.2.2.1]; exact ho
  | swapTarget who i m path dst dl =>
    obtain ⟨_, amts, _, _, _, hp⟩ := Dex.swapExactTarget_ok h
    rw [(Dex.payAndSwap_frame hp).2.2.2.1]; exact ho
  | add who p q da db ma mb dst dl =>
    obtain ⟨ev, ha⟩ := Dex.map_fst_ok h
    obtain ⟨_, _, sl, d0, d1, m0, m1, hsl, _, _, _, hadd⟩ := Dex.addLiquidity_ok ha
    have e0 : sl.1.owner a = some o := by
      rcases Dex.getOrCreateLp_cases hsl with ⟨_, e⟩ | ⟨_, hc⟩
      · rw [e]; exact ho
      · obtain ⟨h0, n, e⟩ := Dex.createLp_ok hc
        rw [e]
        have : a ≠ sl.2 := by rintro rfl; rw [ho] at h0; cases h0
        simp only [upd_ne _ _ this]; exact ho
    obtain ⟨amts, led1, led2, ll, k, _, _, _, _, _, _, _, _, _, _, e⟩ := Dex.addOrdered_ok hadd
    rw [e]; exact e0
  | remove who p q liq ma mb dst dl =>
    obtain ⟨ev, ha⟩ := Dex.map_fst_ok h
    obtain ⟨_, _, l, led, m0, m1, hl, ht, hr⟩ := Dex.removeLiquidity_ok ha
    obtain ⟨led1, led2, k, _, _, _, _, _, _, _, _, _, _, _, e⟩ := Dex.removeOrdered_ok hr
    rw [e]; exact ho
  | setFeeTo f => cases h; exact ho
  | reenable p q =>
    simp only [Dex.step, Dex.reenable, bind_ok, ensure_ok, pure_ok] at h
    obtain ⟨_, _, _, _, rfl⟩ := h
    exact ho
  | disable p q =>
    simp only [Dex.step, Dex.disable, bind_ok, ensure_ok, pure_ok] at h
    obtain ⟨_, _, _, _, rfl⟩ := h
    exact ho
  | transfer who b dst amt =>
    simp only [Dex.step, Dex.directTransfer, bind_ok, pure_ok] at h
    obtain ⟨led, ht, rfl⟩ := h
    exact ho
  | createAsset who =>
    simp only [Dex.step, Dex.createAsset, bind_ok, ensure_ok, pure_ok] at h
    obtain ⟨_, _, _, h0, rfl⟩ := h
    have : a ≠ Fin.ofNat 4294967296 (s.nextId * 1024 + c.para) := by rintro rfl; rw [ho] at h0; cases h0
    simp only [upd_ne _ _ this]; exact ho
  | mintAsset who b dst amt =>
    simp only [Dex.step, Dex.mintAsset, bind_ok, ensure_ok, pure_ok] at h
    obtain ⟨_, _, led, ht, rfl⟩ := h
    exact ho
  | nextBlock => cases h; exact ho

/-! ### ledgers in the middle of a transaction -/

/-- The accounts nobody holds a key for. -/
def Held (c : Cfg) (x : Acct) : Prop := x = burnAcct ∨ (∃ p, x = poolAddr p) ∨ x = c.pot

theorem not_held {c : Cfg} {w : Acct} (h : Keyed w ∧ w ≠ c.pot) : ¬ Held c w := by
  rintro (e | ⟨p, e⟩ | e)
  · exact h.1.1 e
  · exact h.1.2 p e
  · exact h.2 e

/-- Compared with an earlier state `s`, ledger `L` has `n` drops outstanding,
issued nothing and took nothing from keyless accounts. -/
structure Mid (c : Cfg) (s : Dex.St) (L : Ledger) (n : Nat) : Prop where
  owes : Owes L c.xrp n
  iss : ∀ a, L.iss a ≤ s.led.iss a
  keep : ∀ a x, Held c x → s.led.bal a x ≤ L.bal a x

theorem Mid.debit {c : Cfg} {s : Dex.St} {L L' : Ledger} {n v : Nat} {w : Acct} (h : Mid c s L n)
    (hw : ¬ Held c w) (hd : debit L c.xrp w v = .ok L') : Mid c s L' (n + v) := by
  obtain ⟨_, h1, h2, h3⟩ := debit_ok hd
  refine ⟨debit_owes hd h.owes, fun a => by rw [h1]; exact h.iss a, fun a x hx => ?_⟩
  by_cases ha : a = c.xrp
  · subst ha
    have := h3 x
    rw [if_neg (fun e => hw (by rwa [e] at hx))] at this
    have := h.keep c.xrp x hx
    omega
  · rw [h2 a ha]; exact h.keep a x hx

theorem Mid.transfer {c : Cfg} {s : Dex.St} {L L' : Ledger} {n v : Nat} {w y : Acct} (h : Mid c s L n)
    (hw : ¬ Held c w) (hd : L.transfer c.xrp w y v = .ok L') : Mid c s L' n := by
  refine ⟨transfer_owes hd h.owes, fun a => by rw [(Ledger.transfer_ok hd).2.1]; exact h.iss a, fun a x hx => ?_⟩
  exact Nat.le_trans (h.keep a x hx) (transfer_mono hd a x (fun _ e => hw (by rwa [e] at hx)))

theorem Mid.credit {c : Cfg} {s : Dex.St} {L : Ledger} {n v : Nat} {w : Acct} (h : Mid c s L n)
    (hn : (credit L c.xrp w v).2 ≤ n) :
    Mid c s (credit L c.xrp w v).1 (n - (EvmMoney.credit L c.xrp w v).2) := by
  obtain ⟨h1, h2, h3, _⟩ := credit_spec L c.xrp w v
  refine ⟨credit_owes h.owes hn, fun a => by rw [h1]; exact h.iss a, fun a x hx => ?_⟩
  have := h.keep a x hx
  by_cases ha : a = c.xrp
  · subst ha; rw [h3 x]; omega
  · rw [h2 a ha]; exact this

theorem sat_sub_le (x v w : Nat) (h : w ≤ v) : sat128 (x + w) - v ≤ x := by
  have := sat128_le (x + w)
  omega

/-- A deposit whose two imbalances are both dropped: what `on_nonzero_unbalanced` and
`pay_priority_fee` do. -/
theorem Mid.depositDrop {c : Cfg} {s : Dex.St} {L : Ledger} {n v : Nat} {w : Acct} (h : Mid c s L n)
    (hv : v ≤ n) :
    Mid c s (dropNeg (dropPos (EvmMoney.credit L c.xrp w v).1 c.xrp (EvmMoney.credit L c.xrp w v).2) c.xrp v)
      (n - v) := by
  obtain ⟨h1, h2, h3, h4, _⟩ := credit_spec L c.xrp w v
  refine ⟨dropNeg_owes (creditDrop_owes h.owes) hv, fun a => ?_, fun a x hx => ?_⟩
  · by_cases ha : a = c.xrp
    · subst ha
      simp only [dropNeg, dropPos, upd_same, h1]
      exact Nat.le_trans (sat_sub_le _ _ _ h4) (h.iss _)
    · simp only [dropNeg, dropPos, upd_ne _ _ ha, h1]; exact h.iss a
  · have := h.keep a x hx
    show _ ≤ (EvmMoney.credit L c.xrp w v).1.bal a x
    by_cases ha : a = c.xrp
    · subst ha; rw [h3 x]; omega
    · rw [h2 a ha]; exact this

theorem Mid.pot {c : Cfg} {s : Dex.St} {L : Ledger} {n v era : Nat} (h : Mid c s L n) (hv : v ≤ n) :
    Mid c s (potReceive c L era v).1 (n - v) := by
  unfold potReceive
  split
  · rename_i h0; subst h0; exact h
  · exact h.depositDrop hv

/-- When twice the XRP supply fits 128 bits, the pot receives exactly what it is given and the counter
grows by the same amount. -/
theorem pot_exact {c : Cfg} {s : Dex.St} {L : Ledger} {n v era : Nat} (h : Mid c s L n) (hv : v ≤ n)
    (hs : s.led.iss c.xrp * 2 < U128) :
    (∀ y, (potReceive c L era v).1.bal c.xrp y = L.bal c.xrp y + (if y = c.pot then v else 0)) ∧
    (potReceive c L era v).1.iss = L.iss ∧
    (era + v < U128 → (potReceive c L era v).2 = era + v) := by
  obtain ⟨h1, ⟨got, _, h3, h4⟩, h5, h6⟩ := potReceive_spec c L era v
  obtain ⟨⟨m, hm, e⟩, _, _⟩ := h.owes
  have hi := h.iss c.xrp
  have hb := hm.le c.pot
  obtain ⟨rfl, h7⟩ := h4 (by omega) (by omega)
  refine ⟨h3, h7, fun hlt => ?_⟩
  by_cases h0 : got = 0
  · rw [h5 h0, h0]; rfl
  · rw [h6 h0, Nat.mod_eq_of_lt hlt]

/-! ### inversion of whole transactions -/

theorem prefSwap_ok {c : Cfg} {s s' : St} {who : Acct} {p : Pref} {gas base : Nat} {mf pr : Option Nat}
    (h : prefSwap c s who p gas base mf pr = .ok s') :
    ∃ t m amts d, feeData gas base mf pr = .ok (t, m) ∧
      Dex.getAmountsIn c.dex s.dex m [p.asset, c.xrp] = .ok amts ∧
      Dex.swapExactSupply c.dex s.dex who (amts.headD 0) (if m - t = 1 then m else t) [p.asset, c.xrp] who none = .ok d ∧
      s' = { s with dex := d } := by
  unfold prefSwap at h
  simp only [bind_ok, pure_ok, Prod.exists] at h
  obtain ⟨t, m, h1, amts, h2, d, h3, e⟩ := h
  exact ⟨t, m, amts, d, h1, h2, h3, e.symm⟩

/-- The state in which the fee is withdrawn: after the swap, if one was asked for. -/
def Swapped (c : Cfg) (s : St) (t : EvmTx) (s1 : St) : Prop :=
  match t.pref with
  | none => s1 = s
  | some p => prefSwap c s t.who p t.gas t.base t.maxFee t.prio = .ok s1

theorem evmTx_ok {c : Cfg} {s s' : St} {t : EvmTx} (h : evmTx c s t = .ok s') :
    ∃ s1, Swapped c s t s1 ∧
      ((t.gas * t.rate = 0 ∧ ∃ L2, evmBody c s1.dex.led t.pays t.reverts = .ok L2 ∧ s' = s1.withLed L2) ∨
       ∃ v L1 L2 L3 era tip L4, 0 < t.gas * t.rate ∧ toDrops (sat128 (t.gas * t.rate)) = .ok v ∧
         debit s1.dex.led c.xrp t.who v = .ok L1 ∧ evmBody c L1 t.pays t.reverts = .ok L2 ∧
         correctFee c L2 s1.era t.who (t.used * t.rate) (t.used * t.base) v = .ok (L3, era, tip) ∧
         payTip c L3 t.author tip = .ok L4 ∧ s' = { s1.withLed L4 with era := era }) := by
  unfold evmTx at h
  simp only [bind_ok, Prod.exists] at h
  obtain ⟨s1, h1, L1, paid, h2, L2, h3, h⟩ := h
  refine ⟨s1, ?_, ?_⟩
  · unfold Swapped
    split at h1
    · rename_i e; rw [e]; cases h1; rfl
    · rename_i p e; rw [e]; exact h1
  · rcases withdrawFee_ok h2 with ⟨h0, e⟩ | ⟨v, L1', h0, e, hv, hd⟩
    · cases e
      simp only [pure_ok] at h
      exact .inl ⟨h0, L2, h3, h.symm⟩
    · cases e
      simp only [bind_ok, pure_ok, Prod.exists] at h
      obtain ⟨L3, era, tip, h4, L4, h5, e⟩ := h
      exact .inr ⟨v, L1, L2, L3, era, tip, L4, h0, hv, hd, h3, h4, h5, e.symm⟩

/-- The states in which a signed transaction's fee is withdrawn. -/
def SwappedS (c : Cfg) (s : St) (t : Signed) (s1 : St) : Prop :=
  match t.pref with
  | none => s1 = s
  | some p => ∃ extra d, evmExtra t.body = .ok extra ∧
      Dex.swapExactTarget c.dex s.dex (payer s t)
        (if s.xrp c (payer s t) < 1 then sat128 (sat128 (t.fee + extra) + 1) else sat128 (t.fee + extra))
        p.maxPayment [p.asset, c.xrp] (payer s t) none = .ok d ∧ s1 = { s with dex := d }

theorem chargeSigned_ok {c : Cfg} {s : St} {t : Signed} {r : St × Option Nat}
    (h : chargeSigned c s t = .ok r) :
    ∃ s1, SwappedS c s t s1 ∧
      ((t.fee = 0 ∧ r = (s1, none)) ∨
       ∃ L, 0 < t.fee ∧ t.fee + 1 ≤ s1.dex.led.bal c.xrp (payer s t) ∧
         debit s1.dex.led c.xrp (payer s t) t.fee = .ok L ∧ r = (s1.withLed L, some t.fee)) := by
  unfold chargeSigned at h
  simp only [bind_ok] at h
  obtain ⟨s1, h1, h⟩ := h
  refine ⟨s1, ?_, ?_⟩
  · unfold SwappedS
    split at h1
    · rename_i e; rw [e]; cases h1; rfl
    · rename_i p e
      rw [e]
      simp only [bind_ok, pure_ok] at h1
      obtain ⟨extra, h2, d, h3, e⟩ := h1
      exact ⟨extra, d, h2, h3, e.symm⟩
  · split at h
    · simp only [pure_ok] at h; exact .inl ⟨by assumption, h.symm⟩
    · simp only [bind_ok, pure_ok] at h
      obtain ⟨L, h2, e⟩ := h
      obtain ⟨h3, h4⟩ := debitKeep_ok h2
      exact .inr ⟨L, by omega, h3, h4, e.symm⟩

/-- What the dispatched call does. -/
theorem dispatchBody_ok {c : Cfg} {s s' : St} {b : Body} (h : dispatchBody c s b = .ok s') :
    s' = s ∨ (∃ l L, b = .pays l ∧ dropTransfers c s.dex.led l = .ok L ∧ s' = s.withLed L) ∨
    ∃ t, b = .evm t ∧ evmTx c s t = .ok s' := by
  cases b with
  | pays l =>
    simp only [dispatchBody] at h
    split at h
    · rename_i L hL; cases h; exact .inr (.inl ⟨l, L, rfl, hL, rfl⟩)
    · cases h; exact .inl rfl
  | evm t =>
    simp only [dispatchBody] at h
    split at h
    · rename_i s1 hs; cases h; exact .inr (.inr ⟨t, rfl, hs⟩)
    · split at h
      · cases h
      · cases h; exact .inl rfl

theorem signed_ok {c : Cfg} {s s' : St} {t : Signed} (h : signed c s t = .ok s') :
    ∃ s1, SwappedS c s t s1 ∧
      ((t.fee = 0 ∧ dispatchBody c s1 t.body = .ok s') ∨
       ∃ L s2, 0 < t.fee ∧ t.fee + 1 ≤ s1.dex.led.bal c.xrp (payer s t) ∧
         debit s1.dex.led c.xrp (payer s t) t.fee = .ok L ∧
         dispatchBody c (s1.withLed L) t.body = .ok s2 ∧ s' = settleSigned c s2 t.who t.corrected t.fee) := by
  unfold signed at h
  simp only [bind_ok, Prod.exists] at h
  obtain ⟨sm, paid, h1, s2, h2, h⟩ := h
  obtain ⟨s1, hs, h3⟩ := chargeSigned_ok h1
  refine ⟨s1, hs, ?_⟩
  rcases h3 with ⟨h0, e⟩ | ⟨L, h0, hb, hd, e⟩
  · cases e
    simp only [pure_ok] at h
    exact .inl ⟨h0, h ▸ h2⟩
  · cases e
    simp only [pure_ok] at h
    exact .inr ⟨L, s2, h0, hb, hd, h2, h.symm⟩

theorem payer_source {s : St} {t : Signed} : payer s t ∈ (Op.signed t).sources := by
  show payer s t ∈ t.who :: (t.fp.toList ++ t.body.sources)
  unfold payer
  split
  · rename_i f e
    split
    · simp [e]
    · simp
  · simp

end Verif.EvmMoney
