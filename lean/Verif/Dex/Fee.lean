import Verif.Dex.Effect

namespace Verif.Dex
open Ledger

/-- While the fee is on, the remembered product is the product of the recorded reserves. -/
def FeeInv (s : St) : Prop :=
  s.feeTo.isSome = true → ∀ p l, s.lp p = some l → s.lastK l = (s.res p).1 * (s.res p).2

theorem U128_sq {a b : Nat} (ha : a < U128) (hb : b < U128) : a * b < U256 :=
  Nat.mul_lt_mul'' ha hb

theorem mintFee_on {s : St} {l : AssetId} {ra rb : Nat} {r : St × Bool} {f : Acct}
    (hf : s.feeTo = some f) (h : mintFee s l ra rb = .ok r) : r.2 = true ∧ r.1.lastK = s.lastK := by
  unfold mintFee at h
  rw [hf] at h
  dsimp only at h
  split at h
  · split at h
    · simp only [bind_ok] at h
      obtain ⟨liq, h1, h2⟩ := h
      split at h2
      · simp only [bind_ok, pure_ok] at h2
        obtain ⟨led, h3, rfl⟩ := h2
        exact ⟨rfl, rfl⟩
      · simp only [pure_ok] at h2; subst h2
        exact ⟨rfl, rfl⟩
    · cases h; exact ⟨rfl, rfl⟩
  · cases h; exact ⟨rfl, rfl⟩

theorem collectFee_lastK {s s' : St} {p : Pair} {l : AssetId} {f : Acct} (h : collectFee s p = .ok s')
    (hf : s.feeTo = some f) (hl : s.lp p = some l) (hk : (s.res p).1 * (s.res p).2 < U256) :
    s'.lastK = upd s.lastK l ((s.res p).1 * (s.res p).2) := by
  unfold collectFee at h
  rw [hf] at h
  simp only [bind_ok, okOr_ok, hl, Option.some.injEq] at h
  obtain ⟨l', rfl, r, hm, h2⟩ := h
  obtain ⟨e1, e2⟩ := mintFee_on hf hm
  rw [e1, if_pos rfl, pure_ok] at h2
  subst h2
  dsimp only
  rw [if_pos hk, e2]

/-- How much a hop mints as protocol fee. -/
theorem collectFee_bound {s s' : St} {p : Pair} {l : AssetId} {f : Acct} (h : collectFee s p = .ok s')
    (hf : s.feeTo = some f) (hl : s.lp p = some l) (hk : (s.res p).1 * (s.res p).2 < U256) :
    ∃ m, s'.led.iss l = s.led.iss l + m ∧
      (s.lastK l = 0 → m = 0) ∧
      6 * Nat.sqrt ((s.res p).1 * (s.res p).2) * m ≤
        (Nat.sqrt ((s.res p).1 * (s.res p).2) - Nat.sqrt (s.lastK l)) * (s.led.iss l + m) := by
  unfold collectFee at h
  rw [hf] at h
  simp only [bind_ok, okOr_ok, hl, Option.some.injEq] at h
  obtain ⟨l', rfl, r, hm, h2⟩ := h
  have e1 := (mintFee_on hf hm).1
  rw [e1, if_pos rfl, pure_ok] at h2
  subst h2
  dsimp only
  unfold mintFee at hm
  rw [hf] at hm
  dsimp only at hm
  have hmin : min ((s.res p).1 * (s.res p).2) (U256 - 1) = (s.res p).1 * (s.res p).2 := by
    apply min_eq_left; omega
  rw [hmin] at hm
  split at hm
  · rename_i hz
    split at hm
    · rename_i hgt
      simp only [bind_ok] at hm
      obtain ⟨liq, h1, h2⟩ := hm
      simp only [feeLiquidity, bind_ok, subC_ok, mul256_ok, add256_ok, divC_ok] at h1
      obtain ⟨d, ⟨_, rfl⟩, n, ⟨_, rfl⟩, d0, ⟨_, rfl⟩, den, ⟨_, rfl⟩, hden, rfl⟩ := h1
      set k := Nat.sqrt ((s.res p).1 * (s.res p).2) with hkdef
      set kl := Nat.sqrt (s.lastK l) with hkldef
      split at h2
      · simp only [bind_ok, pure_ok] at h2
        obtain ⟨led, h3, rfl⟩ := h2
        refine ⟨_, (mint_ok h3).2.1, fun h => absurd h hz, ?_⟩
        have hle := sat128_le (s.led.iss l * (k - kl) / (k * 5 + kl))
        set m := sat128 (s.led.iss l * (k - kl) / (k * 5 + kl)) with hmdef
        have hmul : m * (k * 5 + kl) ≤ s.led.iss l * (k - kl) :=
          (Nat.le_div_iff_mul_le (Nat.pos_of_ne_zero hden)).mp hle
        obtain ⟨w, hw⟩ := Nat.exists_eq_add_of_le (le_of_lt hgt)
        have e : k - kl = w := by omega
        rw [e] at hmul ⊢
        rw [hw] at hmul ⊢
        nlinarith
      · simp only [pure_ok] at h2; subst h2
        exact ⟨0, rfl, fun _ => rfl, by simp⟩
    · cases hm; exact ⟨0, rfl, fun _ => rfl, by simp⟩
  · cases hm; exact ⟨0, rfl, fun _ => rfl, by simp⟩

theorem hop_lp {c : Cfg} {s s' : St} {a b : AssetId} {out : Nat} {dst : Acct} (h : Inv s)
    (hh : swapHop c s a b out dst = .ok s') : ∃ l, s.lp (mkPair a b) = some l := by
  cases e : s.lp (mkPair a b) with
  | some l => exact ⟨l, rfl⟩
  | none =>
    exfalso
    have := (h.lpNone _ e).1
    unfold Dex.swapHop at hh
    simp only [bind_ok, ensure_ok, this] at hh
    obtain ⟨_, _, _, _, _, hlt, _⟩ := hh
    omega

theorem FeeInv.swapHop {c : Cfg} {s s' : St} {a b : AssetId} {out : Nat} {dst : Acct} (h : Inv s)
    (hfi : FeeInv s) (hh : swapHop c s a b out dst = .ok s') : FeeInv s' := by
  obtain ⟨l, hl⟩ := hop_lp h hh
  obtain ⟨_, _, led, ht, _, hf⟩ := swapHop_ok hh
  have hs := transfer_sound ht h.sound
  obtain ⟨k, e, _⟩ := collectFee_ok hf
  intro hon q lq hq
  have fr := swapHop_frame hh
  rw [fr.1] at hon
  rw [fr.2.1] at hq
  obtain ⟨f, hfe⟩ := Option.isSome_iff_exists.mp hon
  have hlk := collectFee_lastK (l := l) (f := f) hf hfe hl (by
    dsimp only; rw [upd_same]; exact U128_sq (hs.bal_lt _ _) (hs.bal_lt _ _))
  rw [hlk]
  rw [show s'.res = _ from by rw [e]]
  dsimp only
  by_cases hqp : q = mkPair a b
  · subst hqp
    have : l = lq := by rw [hl] at hq; exact Option.some.inj hq
    subst this
    simp
  · have hne : lq ≠ l := by rintro rfl; exact hqp (h.lp_inj hq hl)
    rw [upd_ne _ _ hne, upd_ne _ _ hqp]
    exact hfi hon q lq hq

theorem FeeInv.payAndSwap {c : Cfg} {s s' : St} {who dst : Acct} {amts : List Nat}
    {path : List AssetId} (h : Inv s) (hfi : FeeInv s) (hw : Keyed who)
    (hp : payAndSwap c s who dst amts path = .ok s') : FeeInv s' := by
  obtain ⟨a, b, rest, led, _, ht, hs⟩ := payAndSwap_ok hp
  have h1 : Inv { s with led := led } := h.transfer ht hw
  have h2 : FeeInv { s with led := led } := hfi
  exact (swapLoop_ind (fun s t => Inv s ∧ FeeInv s → Inv t ∧ FeeInv t) (fun _ h => h)
    (fun _ _ _ f g h => g (f h)) path amts _ _
    (fun _ _ _ _ _ _ _ _ ht hi => ⟨Inv.swapHop hi.1 ht, FeeInv.swapHop hi.1 hi.2 ht⟩) hs ⟨h1, h2⟩).2

theorem updateLastK_feeInv {s : St} {p : Pair} {l : AssetId} (hl : s.lp p = some l)
    (hinj : ∀ q, s.lp q = some l → q = p)
    (hk : (s.res p).1 * (s.res p).2 < U256)
    (h : s.feeTo.isSome = true → ∀ q lq, q ≠ p → s.lp q = some lq →
      s.lastK lq = (s.res q).1 * (s.res q).2) : FeeInv (updateLastK s p l) := by
  intro hon q lq hq
  unfold updateLastK at *
  by_cases hf : s.feeTo.isSome = true
  · rw [if_pos hf] at *
    dsimp only at *
    rw [if_pos hk]
    by_cases hqp : q = p
    · subst hqp
      have : l = lq := by rw [hl] at hq; exact Option.some.inj hq
      subst this; simp
    · have hne : lq ≠ l := by rintro rfl; exact hqp (hinj q hq)
      rw [upd_ne _ _ hne]; exact h hf q lq hqp hq
  · rw [if_neg hf] at hon; exact absurd hon hf

theorem FeeInv.step {c : Cfg} {s s' : St} {op : Op} (h : Inv s) (hfi : FeeInv s)
    (hw : ∀ w, op.signer = some w → Keyed w) (hno : ∀ f, op ≠ .setFeeTo f)
    (hs : step c s op = .ok s') : FeeInv s' := by
  have hinv' := h.step hw hs
  cases op with
  | swapSupply who i m path dst dl =>
    obtain ⟨_, amts, _, _, _, hp⟩ := swapExactSupply_ok hs
    exact FeeInv.payAndSwap h hfi (hw who rfl) hp
  | swapTarget who i m path dst dl =>
    obtain ⟨_, amts, _, _, _, hp⟩ := swapExactTarget_ok hs
    exact FeeInv.payAndSwap h hfi (hw who rfl) hp
  | add who a b da db ma mb dst dl =>
    obtain ⟨ev, ha⟩ := map_fst_ok hs
    obtain ⟨hne, _, sl, d0, d1, m0, m1, hsl, hd0, hd1, _, hadd⟩ := addLiquidity_ok ha
    have hlp' := (addLiquidity_lp ha)
    unfold addOrdered at hadd
    simp only [bind_ok, ensure_ok, subC_ok, pure_ok, Prod.mk.injEq] at hadd
    obtain ⟨amts, ho, led1, h1, led2, h2, a0, ⟨hb0, rfl⟩, a1, ⟨hb1, rfl⟩, ll, hl, _, hz, led3, h3, e1, e2⟩ := hadd
    have hsl2 : sl.1.lp (mkPair a b) = some sl.2 := by
      rcases getOrCreateLp_cases hsl with ⟨hl, e⟩ | ⟨hn, hc⟩
      · rw [e]; exact hl
      · obtain ⟨_, n, er⟩ := createLp_ok hc
        rw [er]; exact upd_same _ _ _
    have hled : sl.1.led = s.led ∧ sl.1.res = s.res ∧ sl.1.lastK = s.lastK ∧ sl.1.feeTo = s.feeTo ∧
        (∀ q, q ≠ mkPair a b → sl.1.lp q = s.lp q) := by
      rcases getOrCreateLp_cases hsl with ⟨hl, e⟩ | ⟨hn, hc⟩
      · rw [e]; exact ⟨rfl, rfl, rfl, rfl, fun _ _ => rfl⟩
      · obtain ⟨_, n, er⟩ := createLp_ok hc
        rw [er]; exact ⟨rfl, rfl, rfl, rfl, fun q hq => upd_ne _ _ hq⟩
    have hs2 : led2.Sound := transfer_sound h2 (transfer_sound h1 (by rw [hled.1]; exact h.sound))
    have elp : s'.lp = sl.1.lp := by
      rw [← e1]; unfold updateLastK; split <;> rfl
    rw [← e1]
    refine updateLastK_feeInv (s := { sl.1 with
      led := led3, res := upd sl.1.res (mkPair a b)
        (led2.bal (mkPair a b).1 (poolAddr (mkPair a b)),
          led2.bal (mkPair a b).2 (poolAddr (mkPair a b))) }) hsl2 ?_ ?_ ?_
    · intro q hq
      dsimp only at hq
      rw [← elp] at hq hsl2
      exact hinv'.lp_inj hq hsl2
    · dsimp only
      rw [upd_same]; exact U128_sq (hs2.bal_lt _ _) (hs2.bal_lt _ _)
    · intro hon q lq hqp hq
      dsimp only at hon hq ⊢
      rw [upd_ne _ _ hqp, hled.2.1, hled.2.2.1]
      rw [hled.2.2.2.1] at hon
      rw [hled.2.2.2.2 q hqp] at hq
      exact hfi hon q lq hq
  | remove who a b liq ma mb dst dl =>
    obtain ⟨ev, ha⟩ := map_fst_ok hs
    obtain ⟨_, _, l, led, m0, m1, hl, ht, hr⟩ := removeLiquidity_ok ha
    unfold removeOrdered at hr
    simp only [bind_ok, ensure_ok, mul256_ok, divC_ok, pure_ok, Prod.mk.injEq] at hr
    obtain ⟨m0', ⟨_, rfl⟩, q0, ⟨hz, rfl⟩, m1', ⟨_, rfl⟩, q1, ⟨_, rfl⟩, _, hpos, _, hm0, _, hm1, led1, h1,
      led2, h2, led3, h3, e1, e2⟩ := hr
    have hs3 : led3.Sound := transfer_sound h3 (transfer_sound h2 (burn_sound h1 (transfer_sound ht h.sound)))
    rw [← e1]
    refine updateLastK_feeInv (s := { s with
      led := led3, res := upd s.res (mkPair a b)
        (led3.bal (mkPair a b).1 (poolAddr (mkPair a b)),
          led3.bal (mkPair a b).2 (poolAddr (mkPair a b))) }) hl ?_ ?_ ?_
    · intro q hq; exact h.lp_inj hq hl
    · dsimp only
      rw [upd_same]; exact U128_sq (hs3.bal_lt _ _) (hs3.bal_lt _ _)
    · intro hon q lq hqp hq
      dsimp only at hon hq ⊢
      rw [upd_ne _ _ hqp]
      exact hfi hon q lq hq
  | setFeeTo f => exact absurd rfl (hno f)
  | reenable a b =>
    simp only [Dex.step, Dex.reenable, bind_ok, ensure_ok, pure_ok] at hs
    obtain ⟨_, hl, _, _, rfl⟩ := hs
    exact hfi
  | disable a b =>
    simp only [Dex.step, Dex.disable, bind_ok, ensure_ok, pure_ok] at hs
    obtain ⟨_, hl, _, _, rfl⟩ := hs
    exact hfi
  | transfer who a dst amt =>
    simp only [Dex.step, directTransfer, bind_ok, pure_ok] at hs
    obtain ⟨led, ht, rfl⟩ := hs
    exact hfi
  | createAsset who =>
    simp only [Dex.step, createAsset, bind_ok, ensure_ok, pure_ok] at hs
    obtain ⟨_, _, _, ho, rfl⟩ := hs
    exact hfi
  | mintAsset who a dst amt =>
    simp only [Dex.step, mintAsset, bind_ok, ensure_ok, pure_ok] at hs
    obtain ⟨_, ho, led, ht, rfl⟩ := hs
    exact hfi
  | nextBlock => cases hs; exact hfi

end Verif.Dex
