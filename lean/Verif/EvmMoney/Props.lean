import Verif.EvmMoney.Settle
import Verif.EvmMoney.Demo

/-!
# Properties of EVM money and fees

One wei is `10^-18` XRP, one drop `10^-6` XRP: a drop is `10^12` wei. Balances are kept in drops.
-/

namespace Verif.EvmMoney
open Verif.Dex (sat128 sat128_le Keyed)

/-- Wei in a drop. -/
abbrev DROP : Nat := 1000000000000

/-! ## C56 scaling between wei and a token's own unit -/

/-- Every 128-bit amount of wei converts, for any number of decimals up to 18, to the least number of
units that covers it: it is rounded up, by less than one unit. -/
theorem C56_rounds_up {v d : Nat} (hv : v < U128) (hd : d ≤ 18) :
    ∃ x, weiTo v d = .ok x ∧ v ≤ x * 10 ^ (18 - d) ∧ x * 10 ^ (18 - d) < v + 10 ^ (18 - d) := by
  obtain ⟨q, hq⟩ : ∃ q, (if v % 10 ^ (18 - d) = 0 then v / 10 ^ (18 - d) else v / 10 ^ (18 - d) + 1) = q := ⟨_, rfl⟩
  have h := (ceil_eq (unit_pos d)).mp hq
  refine ⟨q, weiTo_ok.mpr ⟨hd, ?_, h⟩, h⟩
  have hp := unit_pos d
  by_contra hc
  have : U128 * 10 ^ (18 - d) ≤ q * 10 ^ (18 - d) := Nat.mul_le_mul_right _ (by omega)
  have h3 : (v + 1) * 10 ^ (18 - d) ≤ U128 * 10 ^ (18 - d) := Nat.mul_le_mul_right _ (by omega)
  have h4 : v ≤ v * 10 ^ (18 - d) := Nat.le_mul_of_pos_right _ hp
  rw [Nat.add_mul] at h3
  omega

/-- A sum of units that converts to wei converts back to itself. -/
theorem C56_roundtrip {x d w : Nat} (hx : x < U128) (h : toWei x d = .ok w) :
    w = x * 10 ^ (18 - d) ∧ weiTo w d = .ok x := by
  obtain ⟨hd, hw, rfl⟩ := toWei_ok.mp h
  exact ⟨rfl, weiTo_ok.mpr ⟨hd, hx, Nat.le_refl _, by have := unit_pos d; omega⟩⟩

/-- Exact multiples of the unit survive the conversion and back unchanged. -/
theorem C56_multiples {v d : Nat} (hv : v < U128) (hd : d ≤ 18) (hm : 10 ^ (18 - d) ∣ v) :
    ∃ x, weiTo v d = .ok x ∧ toWei x d = .ok v := by
  obtain ⟨k, rfl⟩ := hm
  have hp := unit_pos d
  have : k < U128 := Nat.lt_of_le_of_lt (Nat.le_mul_of_pos_left k hp) hv
  rw [Nat.mul_comm] at hv ⊢
  exact ⟨k, weiTo_ok.mpr ⟨hd, this, Nat.le_refl _, by omega⟩, toWei_ok.mpr ⟨hd, hv, rfl⟩⟩

/-- Converting there and back never loses value, for amounts at least one unit below 2^128. -/
theorem C56_back_partial {v d x : Nat} (hv : v + 10 ^ (18 - d) ≤ U128) (h : weiTo v d = .ok x) :
    ∃ w, toWei x d = .ok w ∧ v ≤ w := by
  obtain ⟨hd, _, h1, h2⟩ := weiTo_ok.mp h
  exact ⟨_, toWei_ok.mpr ⟨hd, by omega, rfl⟩, h1⟩

/-- For the others the conversion back crashes. -/
theorem C56_back_refuted : ∃ v x, v < U128 ∧ weiTo v 6 = .ok x ∧ toWei x 6 = .error "Panic" :=
  ⟨U128 - 1, 340282366920938463463374608, by decide, by decide +kernel, by decide +kernel⟩

/-- Non-vacuity: one and a half drops is two drops; 18 decimals convert as they are; zero decimals. -/
example : weiTo 1500000000000 6 = .ok 2 ∧ toWei 2 6 = .ok 2000000000000 ∧ weiTo 7 18 = .ok 7 ∧ weiTo 1 0 = .ok 1 := by
  decide +kernel

/-! ## C107 EVM payments -/

/-- An EVM payment of `w` wei moves the least number of drops that covers it, from the payer to the
payee, and changes nothing else. -/
theorem C107_moves {c : Cfg} {L L' : Ledger} {x y : Acct} {w : Nat} (h : evmTransfer c L x y w = .ok L') :
    ∃ v, w ≤ v * DROP ∧ v * DROP < w + DROP ∧
      (∀ z, L'.bal c.xrp z + (if z = x then v else 0) = L.bal c.xrp z + (if z = y then v else 0)) ∧
      (∀ b, b ≠ c.xrp → L'.bal b = L.bal b) ∧ L'.iss = L.iss := by
  rcases evmTransfer_ok h with ⟨rfl, rfl⟩ | ⟨v, _, h1, h2⟩
  · exact ⟨0, by simp, by simp [DROP], by simp, fun _ _ => rfl, rfl⟩
  · obtain ⟨_, a, b⟩ := toDrops_ok.mp h1
    obtain ⟨t1, t2, t3, t4⟩ := Ledger.transfer_ok h2
    exact ⟨v, a, b, t4, t3, t2⟩

/-- A payment of a whole number of drops moves exactly that number. -/
theorem C107_exact_partial {c : Cfg} {L L' : Ledger} {x y : Acct} {v : Nat}
    (h : evmTransfer c L x y (v * DROP) = .ok L') (z : Acct) :
    L'.bal c.xrp z + (if z = x then v else 0) = L.bal c.xrp z + (if z = y then v else 0) := by
  obtain ⟨u, h1, h2, h3, _⟩ := C107_moves h
  have : u = v := by simp only [DROP] at h1 h2; omega
  rw [← this]; exact h3 z

theorem series_arith {D A0 A1 A2 v r t : Nat} {x a b : Acct}
    (h : A1 + (if x = a then v else 0) = A0 + (if x = b then v else 0)) (ih : A2 * D + t = A1 * D + r) :
    A2 * D + ((if a = x then v * D else 0) + t) = A0 * D + ((if b = x then v * D else 0) + r) := by
  have e1 : (if x = a then v else 0) * D = if a = x then v * D else 0 := by
    by_cases e : x = a
    · simp [e]
    · rw [if_neg e, if_neg (Ne.symm e)]; simp
  have e2 : (if x = b then v else 0) * D = if b = x then v * D else 0 := by
    by_cases e : x = b
    · simp [e]
    · rw [if_neg e, if_neg (Ne.symm e)]; simp
  have h4 := congrArg (· * D) h
  simp only [Nat.add_mul] at h4
  rw [e1, e2] at h4
  omega

theorem bounds_arith {D A0 A1 A2 v w t n : Nat} {x a : Acct} (h : A1 + (if x = a then v else 0) = A0 + 0)
    (h1 : w ≤ v * D) (h2 : v * D < w + D) (i1 : A2 * D + t ≤ A1 * D) (i2 : A1 * D ≤ A2 * D + t + n * (D - 1))
    (hD : 0 < D) :
    A2 * D + ((if a = x then w else 0) + t) ≤ A0 * D ∧
    A0 * D ≤ A2 * D + ((if a = x then w else 0) + t) + (n + 1) * (D - 1) := by
  have h4 := congrArg (· * D) h
  simp only [Nat.add_mul, Nat.zero_mul, Nat.add_zero, Nat.one_mul] at h4 ⊢
  by_cases e : x = a
  · subst e
    simp only [if_true] at h4 ⊢
    generalize n * (D - 1) = k at *
    constructor <;> omega
  · rw [if_neg e, Nat.zero_mul] at h4
    rw [if_neg (Ne.symm e)]
    generalize n * (D - 1) = k at *
    constructor <;> omega

/-- Wei an account sends in a run. -/
def sent (x : Acct) (l : List (Acct × Acct × Nat)) : Nat := (l.map (fun p => if p.1 = x then p.2.2 else 0)).sum

/-- Wei an account is sent in a run. -/
def received (x : Acct) (l : List (Acct × Acct × Nat)) : Nat := (l.map (fun p => if p.2.1 = x then p.2.2 else 0)).sum

/-- In a run whose payments are all whole drops, every account ends with what it had, plus what it was
sent, minus what it sent. -/
theorem C107_series_partial {c : Cfg} (x : Acct) : ∀ (l : List (Acct × Acct × Nat)) {L L' : Ledger},
    (∀ p ∈ l, DROP ∣ p.2.2) → evmTransfers c L l = .ok L' →
    L'.bal c.xrp x * DROP + sent x l = L.bal c.xrp x * DROP + received x l
  | [], L, L', _, h => by cases h; rfl
  | (a, b, w) :: rest, L, L', hd, h => by
    simp only [evmTransfers, bind_ok] at h
    obtain ⟨L1, h1, h2⟩ := h
    have ih := C107_series_partial x rest (fun p hp => hd p (List.mem_cons_of_mem _ hp)) h2
    obtain ⟨v, hv⟩ := hd (a, b, w) List.mem_cons_self
    dsimp only at hv
    rw [Nat.mul_comm] at hv
    subst hv
    have h3 := C107_exact_partial h1 x
    simp only [sent, received, List.map_cons, List.sum_cons] at ih ⊢
    exact series_arith h3 ih

/-- In any run, an account that is sent nothing loses at least what it sends, and less than one drop more
per payment. -/
theorem C107_series_bounds {c : Cfg} (x : Acct) : ∀ (l : List (Acct × Acct × Nat)) {L L' : Ledger},
    (∀ p ∈ l, p.2.1 ≠ x) → evmTransfers c L l = .ok L' →
    L'.bal c.xrp x * DROP + sent x l ≤ L.bal c.xrp x * DROP ∧
    L.bal c.xrp x * DROP ≤ L'.bal c.xrp x * DROP + sent x l + l.length * (DROP - 1)
  | [], L, L', _, h => by cases h; simp [sent]
  | (a, b, w) :: rest, L, L', hd, h => by
    simp only [evmTransfers, bind_ok] at h
    obtain ⟨L1, h1, h2⟩ := h
    obtain ⟨i1, i2⟩ := C107_series_bounds x rest (fun p hp => hd p (List.mem_cons_of_mem _ hp)) h2
    obtain ⟨v, v1, v2, v3, _⟩ := C107_moves h1
    have h3 := v3 x
    have hb : x ≠ b := fun e => hd (a, b, w) List.mem_cons_self e.symm
    rw [if_neg hb] at h3
    simp only [sent, List.map_cons, List.sum_cons, List.length_cons] at *
    exact bounds_arith h3 v1 v2 i1 i2 (by decide)

/-- False in general: an EVM payment of one wei costs the payer a whole drop, `10^12` times what it
states. -/
theorem C107_exact_refuted : ∃ L', Reach cfg (Small cfg) d0 ∧
    evmTransfer cfg d0.dex.led 8 7 1 = .ok L' ∧
    evmBalance cfg (d0.withLed L') 8 + 1000000000000 = evmBalance cfg d0 8 :=
  ⟨_, reach0, ok_getD (d := d0.dex.led) (by decide +kernel), by decide +kernel⟩

/-- A contract whose own accounting says it can pay everyone cannot: an account holding one drop cannot
make two payments of half a drop. -/
theorem C107_series_refuted : ∃ L, evmTransfer cfg d0.dex.led 8 33 1000000000000 = .ok L ∧
    evmBalance cfg (d0.withLed L) 33 = 500000000000 + 500000000000 ∧
    errIs (evmTransfers cfg L [(33, 7, 500000000000), (33, 8, 500000000000)]) "BalanceLow" = true :=
  ⟨_, ok_getD (d := d0.dex.led) (by decide +kernel), by decide +kernel, by decide +kernel⟩

/-- Non-vacuity: five drops there and two back. -/
example : (evmTransfers cfg d0.dex.led [(8, 7, 5000000000000), (7, 8, 2000000000000)]).isOk = true ∧
    ∀ p ∈ [((8 : Acct), (7 : Acct), 5000000000000), (7, 8, 2000000000000)], DROP ∣ p.2.2 := by
  decide +kernel

/-! ## C108 the EVM fee -/

/-- A transaction that names a payment asset is the exchange of that asset followed by the same
transaction without one; the intermediate state is reachable. -/
theorem C108_pref {c : Cfg} {G : St → Prop} {s s' : St} {t : EvmTx} {p : Pref} (hr : Reach c G s)
    (hw : Keyed t.who ∧ t.who ≠ c.pot) (hp : t.pref = some p) (h : evmTx c s t = .ok s') :
    ∃ s1, prefSwap c s t.who p t.gas t.base t.maxFee t.prio = .ok s1 ∧
      evmTx c s1 { t with pref := none } = .ok s' ∧ (G s1 → Reach c G s1) := by
  unfold evmTx at h
  simp only [hp] at h
  rw [bind_ok] at h
  obtain ⟨s1, h1, h2⟩ := h
  refine ⟨s1, h1, ?_, fun hg => ?_⟩
  · unfold evmTx
    simp only [bind, Except.bind]
    exact h2
  · obtain ⟨tt, m, amts, d, _, _, h3, rfl⟩ := prefSwap_ok h1
    refine hr.step (op := .exchange (.swapSupply t.who (amts.headD 0) (if m - tt = 1 then m else tt) [p.asset, c.xrp] t.who none)) ?_ ?_ hg
    · intro w hm
      have : w = t.who := by simpa [Op.sources, Dex.Op.signer] using hm
      rw [this]; exact hw
    · simp only [EvmMoney.step]
      have : Dex.step c.dex s.dex (.swapSupply t.who (amts.headD 0) (if m - tt = 1 then m else tt) [p.asset, c.xrp] t.who none) = .ok d := h3
      rw [this]; rfl

/-- An EVM transaction costs its sender the fee for the gas it used, rounded down to whole drops. What it
costs goes to the fee pot, up to the base fee for that gas, and otherwise to the block author. Nobody
else's balance changes except by the transaction's own payments (`L2` is the ledger after those, the
maximal fee `paid` being withheld meanwhile). No XRP is created or destroyed. -/
theorem C108_fee {c : Cfg} {s s' : St} {t : EvmTx} (hp : PotOk c) (hr : Reach c (Small c) s)
    (hn : t.pref = none) (hu : t.used ≤ t.gas) (hg : t.gas * t.rate < U128) (hbase : t.base ≤ t.rate)
    (h : evmTx c s t = .ok s') :
    ∃ paid L1 L2 cost base tip,
      (∀ y, L1.bal c.xrp y + (if y = t.who then paid else 0) = s.xrp c y) ∧
      evmBody c L1 t.pays t.reverts = .ok L2 ∧
      cost * DROP ≤ t.used * t.rate ∧ t.used * t.rate < cost * DROP + DROP ∧
      cost ≤ paid ∧ cost = base + tip ∧
      (∃ owed, t.used * t.base ≤ owed * DROP ∧ owed * DROP < t.used * t.base + DROP ∧ base = min cost owed) ∧
      (∀ y, s'.xrp c y = L2.bal c.xrp y + (if y = t.who then paid - cost else 0)
        + (if y = c.pot then base else 0) + (if y = t.author then tip else 0)) ∧
      s'.dex.led.iss = s.dex.led.iss ∧ s'.era = s.era + base := by
  obtain ⟨s1, h1, h2⟩ := evmTx_ok h
  have e1 : s1 = s := by unfold Swapped at h1; rw [hn] at h1; exact h1
  subst e1
  have hb := (books_zero.mp (hr.books hp)).1
  have ho : Owes s1.dex.led c.xrp 0 := owes_zero.mpr hb.sound
  obtain ⟨hcov, hsm⟩ := hr.covered hp
  have hur : t.used * t.rate ≤ t.gas * t.rate := Nat.mul_le_mul_right _ hu
  have hub : t.used * t.base ≤ t.used * t.rate := Nat.mul_le_mul_left _ hbase
  rcases h2 with ⟨h0, L2, h3, rfl⟩ | ⟨v, L1, L2, L3, era, tip, L4, h0, hv, hd, h3, hc, ht, rfl⟩
  · have z1 : t.used * t.rate = 0 := by omega
    have z2 : t.used * t.base = 0 := by omega
    refine ⟨0, s1.dex.led, L2, 0, 0, 0, fun y => by simp [St.xrp], h3, by simp, by rw [z1]; simp [DROP], Nat.le_refl _, rfl,
      ⟨0, by rw [z2]; simp, by rw [z2]; simp [DROP], rfl⟩, fun y => ?_, ?_, ?_⟩
    · simp [St.xrp, St.withLed]
    · exact (evmBody_owes h3 ho).2
    · rfl
  · obtain ⟨d1, d2, d3, d4⟩ := debit_ok hd
    have o1 := debit_owes hd ho
    rw [Nat.zero_add] at o1
    obtain ⟨o2, i2⟩ := evmBody_owes h3 o1
    have i2' : L2.iss = s1.dex.led.iss := i2.trans d2
    obtain ⟨r, b, base6, a1, a2, a3, a4, a5, a6, a7, a8, a9⟩ :=
      evm_settle o2 (by rw [i2']; exact hsm) hc ht
    rw [sat128_of_lt hg] at hv
    rw [sat128_of_lt (by omega)] at a2 a3
    obtain ⟨_, b1, b2⟩ := toDrops_ok.mp hv
    obtain ⟨_, b3, b4⟩ := toDrops_ok.mp a2
    obtain ⟨_, b5, b6⟩ := toDrops_ok.mp a3
    have hera : s1.era + b < U128 := by
      have q1 := (hb.sound c.xrp).1.le c.pot
      have q2 := (hb.sound c.xrp).1.le t.who
      unfold Covered St.xrp at hcov
      unfold Small at hsm
      omega
    refine ⟨v, L1, L2, v - r, b, tip, d4, h3, ?_, ?_, by omega, by omega, ⟨base6, b5, b6, a4⟩, fun y => ?_,
      a8.trans i2', a9 hera⟩
    · simp only [DROP]; omega
    · simp only [DROP]; omega
    · have e : v - (v - r) = r := by omega
      rw [e]; exact a6 y

/-- In particular a transaction that makes no payments costs its sender exactly the fee for the gas it
used, rounded down. -/
theorem C108_plain {c : Cfg} {s s' : St} {t : EvmTx} (hp : PotOk c) (hr : Reach c (Small c) s)
    (hn : t.pref = none) (hu : t.used ≤ t.gas) (hg : t.gas * t.rate < U128) (hbase : t.base ≤ t.rate)
    (hpays : t.pays = []) (hpot : t.who ≠ c.pot) (haut : t.who ≠ t.author) (h : evmTx c s t = .ok s') :
    s'.xrp c t.who + t.used * t.rate / DROP = s.xrp c t.who ∧
    ∀ y, y ≠ t.who → y ≠ c.pot → y ≠ t.author → s'.xrp c y = s.xrp c y := by
  obtain ⟨paid, L1, L2, cost, base, tip, h1, h2, h3, h4, h5, h6, _, h7, _⟩ := C108_fee hp hr hn hu hg hbase h
  have e : L2 = L1 := by
    rw [hpays] at h2
    rcases evmBody_ok h2 with e | ⟨_, e⟩
    · exact e
    · cases e; rfl
  subst e
  have hc : t.used * t.rate / DROP = cost := by simp only [DROP] at h3 h4 ⊢; omega
  constructor
  · have a := h1 t.who
    have b := h7 t.who
    rw [if_pos rfl] at a
    rw [if_pos rfl, if_neg hpot, if_neg haut] at b
    rw [hc]; omega
  · intro y y1 y2 y3
    have a := h1 y
    have b := h7 y
    rw [if_neg y1] at a
    rw [if_neg y1, if_neg y2, if_neg y3] at b
    omega

/-- Non-vacuity: account 8 pays for 21000 of 50000 gas and sends five drops. -/
example : (evmTx cfg d1 tx1).isOk = true ∧ tx1.used ≤ tx1.gas ∧ tx1.gas * tx1.rate < U128 ∧ tx1.base ≤ tx1.rate ∧
    (after d1 (.evm tx1)).xrp cfg 8 + 315000 + 5 = d1.xrp cfg 8 := by
  decide +kernel

/-! ## C109 supply -/

/-- After every history the XRP supply is the sum of all XRP balances, and the same for every other
asset. -/
theorem C109_supply {c : Cfg} {G : St → Prop} {s : St} (hp : PotOk c) (hr : Reach c G s) (a : AssetId) :
    TotalIs (s.dex.led.bal a) (s.dex.led.iss a) :=
  ((books_zero.mp (hr.books hp)).1.sound a).1

/-- No EVM or ordinary transaction raises the XRP supply. -/
theorem C109_no_minting {c : Cfg} {G : St → Prop} {s s' : St} {op : Op} (hp : PotOk c) (hr : Reach c G s)
    (hw : Proper c op) (hop : ∀ d, op ≠ .exchange d) (h : step c s op = .ok s') :
    s'.dex.led.iss c.xrp ≤ s.dex.led.iss c.xrp := by
  have hb := hr.books hp
  cases op with
  | evm t => exact (evmTx_kept hp hb hw h).iss
  | signed t => exact (signed_kept hp hb hw h).iss
  | exchange d => exact absurd rfl (hop d)
  | eraEnd => cases h; exact Nat.le_refl _
  | delegate f w b => cases h; exact Nat.le_refl _

/-- Non-vacuity: a history with fees of both kinds. -/
example : Reach cfg (Small cfg) d1 ∧ d1.era = 1200 ∧ d1.ended = 315600 ∧ d1.dex.led.iss cfg.xrp = 1005000000000 :=
  ⟨reach1, by decide +kernel, by decide +kernel, by decide +kernel⟩

/-! ## C110 the fee pot -/

/-- At every moment the pot holds at least the fees counted for the current era plus all fees reported
at the ends of past eras. -/
theorem C110_pot_covers {c : Cfg} {s : St} (hp : PotOk c) (hr : Reach c (Small c) s) :
    s.era + s.ended ≤ s.xrp c c.pot := (hr.covered hp).1

example : d1.era + d1.ended ≤ d1.xrp cfg 500 ∧ 0 < d1.era ∧ 0 < d1.ended := by decide +kernel

/-! ## C111 the fee of an ordinary transaction -/

/-- An ordinary transaction that does not name a payment asset takes the full fee from the payer before
its payments are made (`L1`, then `L2`); afterwards the signer is given back the part above the
corrected fee and the pot receives the rest. -/
theorem C111_fee {c : Cfg} {s s' : St} {t : Signed} {l : List (Acct × Acct × Nat)} (hp : PotOk c)
    (hr : Reach c (Small c) s) (hn : t.pref = none) (hb : t.body = .pays l) (h : signed c s t = .ok s') :
    ∃ L1 L2,
      (∀ y, L1.bal c.xrp y + (if y = payer s t then t.fee else 0) = s.xrp c y) ∧
      (dropTransfers c L1 l = .ok L2 ∨ L2 = L1) ∧
      (∀ y, s'.xrp c y = L2.bal c.xrp y + (if y = t.who then t.fee - t.corrected else 0)
        + (if y = c.pot then min t.fee t.corrected else 0)) ∧
      s'.dex.led.iss = s.dex.led.iss ∧ s'.era = s.era + min t.fee t.corrected := by
  obtain ⟨s1, h1, h2⟩ := signed_ok h
  have e1 : s1 = s := by unfold SwappedS at h1; rw [hn] at h1; exact h1
  subst e1
  have hbk := (books_zero.mp (hr.books hp)).1
  have ho : Owes s1.dex.led c.xrp 0 := owes_zero.mpr hbk.sound
  obtain ⟨hcov, hsm⟩ := hr.covered hp
  rcases h2 with ⟨h0, hd⟩ | ⟨L, s2, h0, hx, hd, h3, rfl⟩
  · rw [hb] at hd
    rcases dispatchBody_ok hd with rfl | ⟨l', L, e, hl, rfl⟩ | ⟨x, e, _⟩
    · exact ⟨s'.dex.led, s'.dex.led, fun y => by simp [h0, St.xrp], .inr rfl, fun y => by simp [h0, St.xrp], rfl, by simp [h0]⟩
    · cases e
      exact ⟨s1.dex.led, L, fun y => by simp [h0, St.xrp], .inl hl, fun y => by simp [h0, St.xrp, St.withLed],
        (dropTransfers_owes hl ho).2, by simp [h0, St.withLed]⟩
    · cases e
  · obtain ⟨d1, d2, d3, d4⟩ := debit_ok hd
    have o1 := debit_owes hd ho
    rw [Nat.zero_add] at o1
    have hera : s1.era + min t.fee t.corrected < U128 := by
      have q1 := (hbk.sound c.xrp).1.le c.pot
      have q2 := (hbk.sound c.xrp).1.le (payer s1 t)
      unfold Covered St.xrp at hcov
      unfold Small at hsm
      omega
    rw [hb] at h3
    rcases dispatchBody_ok h3 with rfl | ⟨l', L2, e, hl, rfl⟩ | ⟨x, e, _⟩
    · obtain ⟨q1, _, q3, q4⟩ := signed_settle (s := s1.withLed L) (who := t.who) (corrected := t.corrected) o1
        (lt_of_eq_of_lt (congrArg (· * 2) (congrFun d2 c.xrp)) hsm)
      exact ⟨L, L, d4, .inr rfl, q1, q3.trans d2, q4 hera⟩
    · cases e
      obtain ⟨o2, i2⟩ := dropTransfers_owes hl o1
      obtain ⟨q1, _, q3, q4⟩ := signed_settle (s := (s1.withLed L).withLed L2) (who := t.who) (corrected := t.corrected) o2
        (lt_of_eq_of_lt (congrArg (· * 2) (congrFun (i2.trans d2) c.xrp)) hsm)
      exact ⟨L, L2, d4, .inl hl, q1, q3.trans (i2.trans d2), q4 hera⟩
    · cases e

/-- When the signer itself pays, a transaction without payments costs it exactly the corrected fee, and
the pot gains that. -/
theorem C111_signer_pays_partial {c : Cfg} {s s' : St} {t : Signed} (hp : PotOk c) (hr : Reach c (Small c) s)
    (hn : t.pref = none) (hb : t.body = .pays []) (hc : t.corrected ≤ t.fee) (hpay : payer s t = t.who)
    (hpot : t.who ≠ c.pot) (h : signed c s t = .ok s') :
    s'.xrp c t.who + t.corrected = s.xrp c t.who ∧ s'.xrp c c.pot = s.xrp c c.pot + t.corrected ∧
    ∀ y, y ≠ t.who → y ≠ c.pot → s'.xrp c y = s.xrp c y := by
  obtain ⟨L1, L2, h1, h2, h3, _⟩ := C111_fee hp hr hn hb h
  have e : L2 = L1 := by rcases h2 with h2 | h2
                         · cases h2; rfl
                         · exact h2
  subst e
  rw [hpay] at h1
  refine ⟨?_, ?_, fun y y1 y2 => ?_⟩
  · have a := h1 t.who; have b := h3 t.who
    rw [if_pos rfl] at a
    rw [if_pos rfl, if_neg hpot] at b
    omega
  · have a := h1 c.pot; have b := h3 c.pot
    rw [if_neg hpot.symm] at a
    rw [if_neg hpot.symm, if_pos rfl, Nat.min_eq_right hc] at b
    omega
  · have a := h1 y; have b := h3 y
    rw [if_neg y1] at a
    rw [if_neg y1, if_neg y2] at b
    omega

/-- False when a futurepass pays: it is charged the full fee, and the refund goes to the signer. -/
theorem C111_refund_refuted : ∃ s', Reach cfg (Small cfg) d1 ∧ payer d1 st2 = 7 ∧ st2.who = 8 ∧
    signed cfg d1 st2 = .ok s' ∧ s'.xrp cfg 7 + st2.fee = d1.xrp cfg 7 ∧
    s'.xrp cfg 8 = d1.xrp cfg 8 + (st2.fee - st2.corrected) ∧ 0 < st2.fee - st2.corrected :=
  ⟨_, reach1, by decide +kernel, rfl, ok_getD (d := d1) (by decide +kernel), by decide +kernel, by decide +kernel,
    by decide⟩

/-- Non-vacuity of the partial theorem. -/
example : (signed cfg d1 { st1 with body := .pays [] }).isOk = true ∧ payer d1 st1 = st1.who ∧
    st1.corrected ≤ st1.fee := by decide +kernel

/-! ## C112 the most a fee paid in another asset may cost -/

/-- Charging an ordinary transaction's fee in another asset takes at most the amount the signer named of
that asset. -/
theorem C112_signed {c : Cfg} {s s1 : St} {t : Signed} {p : SPref} {paid : Option Nat}
    (hk : Keyed (payer s t)) (hfee : s.dex.feeTo ≠ some (payer s t)) (hne : p.asset ≠ c.xrp)
    (hp : t.pref = some p) (h : chargeSigned c s t = .ok (s1, paid)) :
    s.dex.led.bal p.asset (payer s t) ≤ s1.dex.led.bal p.asset (payer s t) + p.maxPayment := by
  obtain ⟨s2, h1, h2⟩ := chargeSigned_ok h
  unfold SwappedS at h1
  rw [hp] at h1
  obtain ⟨extra, d, _, h3, rfl⟩ := h1
  have h4 := (Dex.C03_exact_target_trader (deadline := none) hk hfee hne rfl rfl h3).1
  rcases h2 with ⟨_, e⟩ | ⟨L, _, _, hd, e⟩
  · cases e; exact h4
  · cases e
    obtain ⟨_, _, d3, _⟩ := debit_ok hd
    show _ ≤ L.bal p.asset _ + _
    rw [d3 _ hne]; exact h4

/-- An EVM transaction that pays in another asset is charged exactly the quoted price of its maximal
fee. -/
theorem C112_evm_partial {c : Cfg} {s s1 : St} {who : Acct} {p : Pref} {gas base : Nat} {mf pr : Option Nat}
    (hk : Keyed who) (hfee : s.dex.feeTo ≠ some who) (hne : p.asset ≠ c.xrp)
    (h : prefSwap c s who p gas base mf pr = .ok s1) :
    ∃ t m amts, feeData gas base mf pr = .ok (t, m) ∧
      Dex.getAmountsIn c.dex s.dex m [p.asset, c.xrp] = .ok amts ∧
      s1.dex.led.bal p.asset who + amts.headD 0 = s.dex.led.bal p.asset who := by
  obtain ⟨t, m, amts, d, h1, h2, h3, rfl⟩ := prefSwap_ok h
  exact ⟨t, m, amts, h1, h2, (Dex.C02_exact_supply_trader (deadline := none) hk hfee hne rfl rfl h3).1⟩

/-- False for EVM transactions: the maximal payment they name is ignored. Account 8 names 5 and pays more
than 200000. -/
theorem C112_evm_refuted : ∃ s', Reach cfg (Small cfg) d0 ∧ tx2.pref = some ⟨1, some 5⟩ ∧
    evmTx cfg d0 tx2 = .ok s' ∧ s'.dex.led.bal 1 8 + 200000 < d0.dex.led.bal 1 8 :=
  ⟨_, reach0, rfl, ok_getD (d := d0) (by decide +kernel), by decide +kernel⟩

/-- Non-vacuity: `st3` names at most 400 of asset 1 and is charged. -/
example : (chargeSigned cfg d0 st3).isOk = true ∧ payer d0 st3 = 8 ∧ d0.dex.feeTo ≠ some 8 ∧
    (prefSwap cfg d0 8 ⟨1, some 5⟩ 50000 7500000000000 none none).isOk = true := by decide +kernel

/-! ## C113 the exchange provides enough for the fee -/

/-- After the exchange made for an EVM transaction that pays in another asset, the sender can pay the fee
for the whole gas limit, whatever it held before, if the EVM charges at most base fee plus tip per
gas. -/
theorem C113_enough {c : Cfg} {s s1 : St} {t : EvmTx} {p : Pref} (hk : Keyed t.who)
    (hfee : s.dex.feeTo ≠ some t.who) (hne : p.asset ≠ c.xrp) (hrate : t.rate ≤ t.base + t.prio.getD 0)
    (h : prefSwap c s t.who p t.gas t.base t.maxFee t.prio = .ok s1) :
    ∃ r, withdrawFee c s1.dex.led t.who (t.gas * t.rate) = .ok r := by
  obtain ⟨total, most, amts, d, h1, h2, h3, rfl⟩ := prefSwap_ok h
  have h4 := (Dex.C02_exact_supply_trader (deadline := none) hk hfee hne rfl rfl h3).2
  unfold feeData totalGas at h1
  simp only [bind_ok, ensure_ok, pure_ok, Prod.exists] at h1
  obtain ⟨tw, mw, ⟨pg, g1, tt, g2, db, g3, df, g4, mm, g5, _, g6, e⟩, t6, g7, m6, g8, e2⟩ := h1
  cases e; cases e2
  have e1 : pg = t.base + t.prio.getD 0 := by split at g1 <;> cases g1; rfl
  have e2 : tw = t.gas * pg := by split at g2 <;> cases g2; rfl
  obtain ⟨_, _, w1, w2⟩ := weiTo_ok.mp g7
  obtain ⟨_, _, w3, w4⟩ := weiTo_ok.mp g8
  have hpow : (10 : Nat) ^ (18 - 6) = 1000000000000 := by norm_num
  rw [hpow] at w1 w2 w3 w4
  have hle : t.gas * t.rate ≤ tw := by rw [e2, e1]; exact Nat.mul_le_mul_left _ hrate
  have hmt : total ≤ most := by omega
  have hgot : total ≤ d.led.bal c.xrp t.who := by
    split at h4 <;> omega
  unfold withdrawFee
  split
  · exact ⟨_, rfl⟩
  · obtain ⟨v, hv⟩ := toDrops_of_lt (sat128_lt (t.gas * t.rate))
    obtain ⟨_, v1, v2⟩ := toDrops_ok.mp hv
    have := sat128_le (t.gas * t.rate)
    have hvt : v ≤ d.led.bal c.xrp t.who := by omega
    simp only [hv, debit, bind_ok, pure_ok]
    exact ⟨_, _, rfl, _, if_pos hvt, rfl⟩

/-- Non-vacuity: an account with no XRP but asset 1 pays for gas. -/
def poor : St := exec d0 [.exchange (.transfer 8 2 7 5000000000)]

example : poor.xrp cfg 8 = 0 ∧ (prefSwap cfg poor tx2.who ⟨1, some 5⟩ tx2.gas tx2.base tx2.maxFee tx2.prio).isOk = true ∧
    tx2.rate ≤ tx2.base + tx2.prio.getD 0 ∧ (evmTx cfg poor tx2).isOk = true := by decide +kernel

/-! ## C114 crashes -/

/-- An EVM transaction without fee preference cannot crash the node, if the XRP supply in wei and the
amounts it pays fit 128 bits. -/
theorem C114_no_crash_partial {c : Cfg} {G : St → Prop} {s : St} {t : EvmTx} (hp : PotOk c) (hr : Reach c G s)
    (hn : t.pref = none) (hw : s.dex.led.iss c.xrp * DROP < U128) (hpays : ∀ p ∈ t.pays, p.2.2 < U128) :
    evmTx c s t ≠ .error "Panic" := by
  have hb := (books_zero.mp (hr.books hp)).1
  have ho : Owes s.dex.led c.xrp 0 := owes_zero.mpr hb.sound
  have body : ∀ (l : List (Acct × Acct × Nat)) (L : Ledger), (∀ p ∈ l, p.2.2 < U128) →
      evmTransfers c L l ≠ .error "Panic" := by
    intro l
    induction l with
    | nil => intro L _ h; cases h
    | cons p rest ih =>
      obtain ⟨a, b, w⟩ := p
      intro L hl h
      simp only [evmTransfers] at h
      rw [bind_err] at h
      rcases h with h | ⟨L1, _, h⟩
      · unfold evmTransfer at h
        split at h
        · cases h
        · rw [bind_err] at h
          rcases h with h | ⟨v, _, h⟩
          · have h5 := (toDrops_err h).2
            have h6 := hl (a, b, w) List.mem_cons_self
            dsimp only at h6
            omega
          · unfold Ledger.transfer at h
            split at h
            · cases h
            · simp at h
      · exact ih L1 (fun p hp => hl p (List.mem_cons_of_mem _ hp)) h
  intro h
  unfold evmTx at h
  simp only [hn] at h
  rw [bind_err] at h
  rcases h with h | ⟨s1, h1, h⟩
  · cases h
  have e1 : s1 = s := by cases h1; rfl
  rw [e1] at h
  rw [bind_err] at h
  rcases h with h | ⟨⟨L1, paid⟩, h2, h⟩
  · unfold withdrawFee at h
    split at h
    · cases h
    · rw [bind_err] at h
      rcases h with h | ⟨v, _, h⟩
      · have := (toDrops_err h).2
        have := sat128_lt (t.gas * t.rate)
        omega
      · rw [bind_err] at h
        rcases h with h | ⟨L, _, h⟩
        · unfold debit at h
          split at h
          · cases h
          · simp at h
        · cases h
  dsimp only at h
  rw [bind_err] at h
  rcases h with h | ⟨L2, h3, h⟩
  · unfold evmBody at h
    split at h
    · split at h <;> cases h
    · split at h
      · rename_i e he hx
        subst hx
        exact body _ _ hpays he
      · rename_i e he hx
        cases h
  rcases withdrawFee_ok h2 with ⟨_, e⟩ | ⟨v, L1', h0, e, hv, hd⟩
  · cases e; cases h
  · cases e
    dsimp only at h
    have o1 := debit_owes hd ho
    rw [Nat.zero_add] at o1
    obtain ⟨o2, i2⟩ := evmBody_owes h3 o1
    have hvle : v * DROP < U128 := by
      have q1 := (debit_ok hd).1
      have q2 := (hb.sound c.xrp).1.le t.who
      have : v * DROP ≤ s.dex.led.iss c.xrp * DROP := Nat.mul_le_mul_right _ (Nat.le_trans q1 q2)
      exact Nat.lt_of_le_of_lt this hw
    rw [bind_err] at h
    rcases h with h | ⟨⟨L3, era, tip⟩, h4, h⟩
    · unfold correctFee at h
      rw [bind_err] at h
      rcases h with h | ⟨p18, hp18, h⟩
      · have := (toWei6_err h).2; simp only [DROP] at hvle; omega
      obtain ⟨_, e18⟩ := toWei6_ok.mp hp18
      rw [bind_err] at h
      rcases h with h | ⟨r6, hr6, h⟩
      · have := (toDrops_err h).2; simp only [DROP] at hvle; omega
      dsimp only at h
      rw [bind_err] at h
      rcases h with h | ⟨b6, _, h⟩
      · have := (toDrops_err h).2
        have := sat128_lt (t.used * t.base)
        omega
      · cases h
    · obtain ⟨r6, base6, _, _, hle, _, _, _, et⟩ := correctFee_ok h4
      dsimp only at h
      rw [bind_err] at h
      rcases h with h | ⟨L4, _, h⟩
      · unfold payTip at h
        rw [bind_err] at h
        have htv : tip * DROP ≤ v * DROP := Nat.mul_le_mul_right _ (by omega)
        rcases h with h | ⟨t18, ht18, h⟩
        · have := (toWei6_err h).2; simp only [DROP] at hvle htv; omega
        obtain ⟨_, e18⟩ := toWei6_ok.mp ht18
        rw [bind_err] at h
        rcases h with h | ⟨t6, _, h⟩
        · have := (toDrops_err h).2; simp only [DROP] at hvle htv; omega
        · cases h
      · cases h

/-- The computation of the fees for the exchange crashes only if the maximal fee or the fee is at least
2^128 drops. -/
theorem C114_fee_data_partial {gas base : Nat} {mf pr : Option Nat}
    (h : feeData gas base mf pr = .error "Panic") :
    ∃ total most, totalGas gas base mf pr = .ok (total, most) ∧ U128 * DROP < most + DROP := by
  have bad : ∀ {v : Nat}, weiTo v 6 = .error "Panic" → U128 * DROP < v + DROP := by
    intro v hv
    by_contra hc
    obtain ⟨q, hq⟩ : ∃ q, (if v % 1000000000000 = 0 then v / 1000000000000 else v / 1000000000000 + 1) = q := ⟨_, rfl⟩
    have h1 := (ceil_eq (by norm_num)).mp hq
    have h2 : weiTo v 6 = .ok q := weiTo_ok.mpr ⟨by norm_num, by simp only [DROP] at hc; omega, by simpa using h1⟩
    rw [h2] at hv; cases hv
  unfold feeData at h
  rw [bind_err] at h
  rcases h with h | ⟨⟨total, most⟩, h1, h⟩
  · exfalso
    unfold totalGas at h
    simp only [bind_err, ensure_err, pure_err] at h
    rcases h with h | ⟨pg, _, h | ⟨tt, _, h | ⟨db, _, h | ⟨df, _, h | ⟨mm, _, h⟩⟩⟩⟩⟩
    · split at h <;> simp at h
    · split at h <;> simp at h
    · split at h <;> simp at h
    · split at h <;> simp at h
    · split at h <;> simp at h
    · simp at h
  · refine ⟨total, most, h1, ?_⟩
    have hle : total ≤ most := by
      unfold totalGas at h1
      simp only [bind_ok, ensure_ok, pure_ok] at h1
      obtain ⟨_, _, _, _, _, _, _, _, _, _, _, h6, e⟩ := h1
      cases e; exact h6
    dsimp only at h
    rw [bind_err] at h
    rcases h with h | ⟨t6, _, h⟩
    · have := bad h; omega
    · rw [bind_err] at h
      rcases h with h | ⟨m6, _, h⟩
      · exact bad h
      · cases h

/-- False in general: anyone can sign a transaction that names a payment asset and a maximal fee per gas
so high that working out its price crashes the node, without paying for it. -/
theorem C114_crash_refuted : Reach cfg (Small cfg) d0 ∧
    errIs (evmTx cfg d0 { tx2 with maxFee := some (10 ^ 50) }) "Panic" = true ∧
    errIs (signed cfg d0 { st3 with body := .evm { tx1 with maxFee := some (10 ^ 50) } }) "Panic" = true :=
  ⟨reach0, by decide +kernel, by decide +kernel⟩

/-- Non-vacuity of the partial theorem. -/
example : d1.dex.led.iss cfg.xrp * DROP < U128 ∧ tx1.pref = none ∧ (∀ p ∈ tx1.pays, p.2.2 < U128) := by
  decide +kernel

/-! ## C115 exchanges and bystanders -/

/-- No operation on the exchange lowers any balance of an account that did not sign it and is not a
pool. -/
theorem C115_bystanders {c : Cfg} {s s' : St} {op : Dex.Op} (h : step c s (.exchange op) = .ok s')
    {x : Acct} (hx : op.signer ≠ some x) (hpool : ∀ p, x ≠ Dex.poolAddr p) (a : AssetId) :
    s.dex.led.bal a x ≤ s'.dex.led.bal a x := by
  simp only [step] at h
  cases hd : Dex.step c.dex s.dex op with
  | error e => rw [hd] at h; cases h
  | ok d => rw [hd] at h; cases h; exact dex_mono hd hx hpool a

/-- Non-vacuity. -/
example : (step cfg d0 (.exchange (.swapSupply 8 1000 1 [1, 2] 8 none))).isOk = true ∧ ∀ p, (7 : Acct) ≠ Dex.poolAddr p :=
  ⟨by decide +kernel, (Dex.keyed_small (x := 7) (by norm_num)).2⟩

end Verif.EvmMoney
