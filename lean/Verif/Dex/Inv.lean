import Verif.Dex.Lemmas

namespace Verif.Dex
open Ledger

/-- The inductive invariant of the exchange. -/
structure Inv (s : St) : Prop where
  sound : s.led.Sound
  fresh : ∀ a, s.owner a = none → s.led.iss a = 0
  lpOwn : ∀ p l, s.lp p = some l → s.owner l = some (poolAddr p)
  lpOrd : ∀ p l, s.lp p = some l → p.1 < p.2 ∧ l ≠ p.1 ∧ l ≠ p.2
  lpNone : ∀ p, s.lp p = none → s.res p = (0, 0) ∧ s.enabled p = false
  backed : ∀ p, (s.res p).1 ≤ s.led.bal p.1 (poolAddr p) ∧ (s.res p).2 ≤ s.led.bal p.2 (poolAddr p)
  locked : ∀ p l, s.lp p = some l → minLiquidity ≤ s.led.bal l burnAcct

theorem Inv.lp_inj {s : St} (h : Inv s) {p q : Pair} {l : AssetId} (hp : s.lp p = some l)
    (hq : s.lp q = some l) : p = q := by
  have h1 := h.lpOwn p l hp
  have h2 := h.lpOwn q l hq
  rw [h1] at h2
  exact poolAddr_inj (Option.some.inj h2)

theorem Inv.supply {s : St} (h : Inv s) {p : Pair} {l : AssetId} (hp : s.lp p = some l) :
    minLiquidity ≤ s.led.iss l :=
  le_trans (h.locked p l hp) ((h.sound l).1.le _)

theorem inv_genesis {s : St} (h : Genesis s) : Inv s where
  sound := h.sound
  fresh := h.fresh
  lpOwn p l e := by rw [h.noLp] at e; cases e
  lpOrd p l e := by rw [h.noLp] at e; cases e
  lpNone p _ := ⟨h.noRes p, h.noStatus p⟩
  backed p := by rw [h.noRes]; exact ⟨Nat.zero_le _, Nat.zero_le _⟩
  locked p l e := by rw [h.noLp] at e; cases e

/-- A ledger change that keeps the invariant when reserves are untouched. -/
theorem Inv.led_change {s : St} (h : Inv s) {led : Ledger} (hs : led.Sound)
    (hf : ∀ a, s.owner a = none → led.iss a = 0)
    (hp : ∀ a p, s.led.bal a (poolAddr p) ≤ led.bal a (poolAddr p))
    (hb : ∀ a, s.led.bal a burnAcct ≤ led.bal a burnAcct) : Inv { s with led := led } where
  sound := hs
  fresh := hf
  lpOwn := h.lpOwn
  lpOrd := h.lpOrd
  lpNone := h.lpNone
  backed p := ⟨le_trans (h.backed p).1 (hp _ _), le_trans (h.backed p).2 (hp _ _)⟩
  locked p l e := le_trans (h.locked p l e) (hb l)

theorem Inv.mint {s : St} (h : Inv s) {l : AssetId} {x : Acct} {m : Nat} {led : Ledger}
    (hm : s.led.mint l x m = .ok led) (ho : s.owner l ≠ none) : Inv { s with led := led } := by
  refine h.led_change (mint_sound hm h.sound) ?_ (fun a p => mint_mono hm a _) (fun a => mint_mono hm a _)
  intro a ha
  have hne : a ≠ l := by rintro rfl; exact ho ha
  rw [(mint_ok hm).2.2.1 a hne]
  exact h.fresh a ha

theorem Inv.transfer {s : St} (h : Inv s) {a : AssetId} {x y : Acct} {m : Nat} {led : Ledger}
    (hm : s.led.transfer a x y m = .ok led) (hk : Keyed x) : Inv { s with led := led } := by
  refine h.led_change (transfer_sound hm h.sound) ?_ ?_ ?_
  · intro b hb; rw [(transfer_ok hm).2.1]; exact h.fresh b hb
  · intro b p; exact transfer_mono hm b _ (fun _ => (hk.2 p).symm)
  · intro b; exact transfer_mono hm b _ (fun _ => hk.1.symm)

theorem Inv.lastK {s : St} (h : Inv s) (k : AssetId → Nat) : Inv { s with lastK := k } where
  sound := h.sound
  fresh := h.fresh
  lpOwn := h.lpOwn
  lpOrd := h.lpOrd
  lpNone := h.lpNone
  backed := h.backed
  locked := h.locked

theorem Inv.collectFee {s s' : St} {p : Pair} (h : Inv s) (hf : collectFee s p = .ok s') : Inv s' := by
  obtain ⟨k, e, hk⟩ := collectFee_ok hf
  rw [e]
  rcases hk with hk | ⟨f, l, m, _, hl, hk⟩
  · rw [hk]; exact h.lastK k
  · refine Inv.lastK (s := { s with led := s'.led }) ?_ k
    refine h.mint hk ?_
    rw [h.lpOwn p l hl]; simp

/-- Recording the current pool balances as reserves of `p`, after a ledger change that only lowers
balances of `p`'s own pool. -/
theorem Inv.sync {s : St} (h : Inv s) {p : Pair} {l : AssetId} (hl : s.lp p = some l) {led : Ledger}
    (hs : led.Sound) (hf : ∀ a, s.owner a = none → led.iss a = 0)
    (hp : ∀ a q, q ≠ p → s.led.bal a (poolAddr q) ≤ led.bal a (poolAddr q))
    (hb : ∀ a, s.led.bal a burnAcct ≤ led.bal a burnAcct) :
    Inv { s with
      led := led,
      res := upd s.res p (led.bal p.1 (poolAddr p), led.bal p.2 (poolAddr p)) } where
  sound := hs
  fresh := hf
  lpOwn := h.lpOwn
  lpOrd := h.lpOrd
  lpNone q hq := by
    have hne : q ≠ p := by rintro rfl; rw [hl] at hq; cases hq
    simp only [upd_ne _ _ hne]
    exact h.lpNone q hq
  backed q := by
    by_cases hq : q = p
    · subst hq; simp
    · simp only [upd_ne _ _ hq]
      exact ⟨le_trans (h.backed q).1 (hp _ _ hq), le_trans (h.backed q).2 (hp _ _ hq)⟩
  locked q l e := le_trans (h.locked q l e) (hb l)

/-- A hop needs a recorded reserve, hence an existing pair. -/
theorem Inv.swapHop {c : Cfg} {s s' : St} {a b : AssetId} {out : Nat} {dst : Acct} (h : Inv s)
    (hh : swapHop c s a b out dst = .ok s') : Inv s' := by
  have hlp : ∃ l, s.lp (mkPair a b) = some l := by
    cases e : s.lp (mkPair a b) with
    | some l => exact ⟨l, rfl⟩
    | none =>
      exfalso
      have := (h.lpNone _ e).1
      unfold Dex.swapHop at hh
      simp only [bind_ok, ensure_ok, this] at hh
      obtain ⟨_, _, _, _, _, hlt, _⟩ := hh
      omega
  obtain ⟨l, hl⟩ := hlp
  obtain ⟨_, _, led, ht, _, hf⟩ := swapHop_ok hh
  refine Inv.collectFee (h.sync hl (transfer_sound ht h.sound) ?_ ?_ ?_) hf
  · intro x hx; rw [(transfer_ok ht).2.1]; exact h.fresh x hx
  · intro x q hq
    exact transfer_mono ht x _ (fun _ e => hq (poolAddr_inj e))
  · intro x
    exact transfer_mono ht x _ (fun _ => burn_ne_pool _)

theorem Inv.payAndSwap {c : Cfg} {s s' : St} {who dst : Acct} {amts : List Nat}
    {path : List AssetId} (h : Inv s) (hw : Keyed who)
    (hp : payAndSwap c s who dst amts path = .ok s') : Inv s' := by
  obtain ⟨a, b, rest, led, _, ht, hs⟩ := payAndSwap_ok hp
  have h1 : Inv { s with led := led } := h.transfer ht hw
  exact swapLoop_ind (fun s t => Inv s → Inv t) (fun _ h => h) (fun _ _ _ f g h => g (f h)) path amts _ _
    (fun _ _ _ _ _ _ _ _ ht hi => Inv.swapHop hi ht) hs h1

/-! ### add_liquidity -/

theorem updateLastK_eq (s : St) (p : Pair) (l : AssetId) :
    ∃ k, updateLastK s p l = { s with lastK := k } := by
  unfold updateLastK
  split
  · exact ⟨_, rfl⟩
  · exact ⟨s.lastK, rfl⟩

theorem optimal_pos {r0 r1 d0 d1 m0 m1 : Nat} {r : Nat × Nat}
    (h : optimalAmounts r0 r1 d0 d1 m0 m1 = .ok r) (hz : r0 = 0 ∧ r1 = 0) : r = (d0, d1) := by
  unfold optimalAmounts at h
  rw [if_pos hz] at h
  cases h; rfl

/-- What a successful deposit does, in pair order. -/
theorem addOrdered_ok {s s' : St} {who dst : Acct} {p : Pair} {l : AssetId} {d0 d1 m0 m1 : Nat}
    {ev : Added} (h : addOrdered s who p l d0 d1 m0 m1 dst = .ok (s', ev)) :
    ∃ amts led1 led2 ll k,
      optimalAmounts (s.res p).1 (s.res p).2 d0 d1 m0 m1 = .ok amts ∧
      s.led.transfer p.1 who (poolAddr p) (sat128 amts.1) = .ok led1 ∧
      led1.transfer p.2 who (poolAddr p) (sat128 amts.2) = .ok led2 ∧
      (s.res p).1 ≤ led2.bal p.1 (poolAddr p) ∧ (s.res p).2 ≤ led2.bal p.2 (poolAddr p) ∧
      ev.amt0 = led2.bal p.1 (poolAddr p) - (s.res p).1 ∧
      ev.amt1 = led2.bal p.2 (poolAddr p) - (s.res p).2 ∧
      liquidityFor led2 l ev.amt0 ev.amt1 (s.res p).1 (s.res p).2 = .ok (ev.liq, ll) ∧
      ev.liq ≠ 0 ∧ ll.mint l dst ev.liq = .ok s'.led ∧
      s' = { s with
        led := s'.led,
        res := upd s.res p (led2.bal p.1 (poolAddr p), led2.bal p.2 (poolAddr p)),
        lastK := k } := by
  unfold addOrdered at h
  simp only [bind_ok, ensure_ok, subC_ok, pure_ok, Prod.mk.injEq] at h
  obtain ⟨amts, ho, led1, h1, led2, h2, a0, ⟨hb0, rfl⟩, a1, ⟨hb1, rfl⟩, ll, hl, _, hz, led3, h3, e1, e2⟩ := h
  obtain ⟨k, hk⟩ := updateLastK_eq { s with
    led := led3,
    res := upd s.res p (led2.bal p.1 (poolAddr p), led2.bal p.2 (poolAddr p)) } p l
  rw [hk] at e1
  subst e1 e2
  exact ⟨amts, led1, led2, ll.2, k, ho, h1, h2, hb0, hb1, rfl, rfl, hl, hz, h3, rfl⟩

/-- The ledger inside `liquidityFor`. -/
theorem liquidityFor_led {led led' : Ledger} {l : AssetId} {a0 a1 r0 r1 q : Nat}
    (h : liquidityFor led l a0 a1 r0 r1 = .ok (q, led')) :
    (led.iss l = 0 ∧ led.mint l burnAcct minLiquidity = .ok led' ∧
      minLiquidity ≤ Nat.sqrt (a0 * a1) ∧ q = sat128 (Nat.sqrt (a0 * a1) - minLiquidity)) ∨
    (led.iss l ≠ 0 ∧ led' = led ∧ r0 ≠ 0 ∧ r1 ≠ 0 ∧
      q = sat128 (min (a0 * led.iss l / r0) (a1 * led.iss l / r1))) := by
  unfold liquidityFor at h
  split at h <;> rename_i hz
  · simp only [bind_ok, mul256_ok, subC_ok, pure_ok, Prod.mk.injEq] at h
    obtain ⟨m, ⟨_, rfl⟩, x, ⟨hle, rfl⟩, L, hm, rfl, rfl⟩ := h
    exact Or.inl ⟨hz, hm, hle, rfl⟩
  · simp only [bind_ok, mul256_ok, divC_ok, pure_ok, Prod.mk.injEq] at h
    obtain ⟨m0, ⟨_, rfl⟩, q0, ⟨h0, rfl⟩, m1, ⟨_, rfl⟩, q1, ⟨h1, rfl⟩, rfl, rfl⟩ := h
    exact Or.inr ⟨hz, rfl, h0, h1, rfl⟩

theorem createLp_ok {c : Cfg} {s : St} {p : Pair} {r : St × AssetId} (h : createLp c s p = .ok r) :
    s.owner r.2 = none ∧ ∃ n, r.1 = { s with
      owner := upd s.owner r.2 (some (poolAddr p)), nextId := n,
      lp := upd s.lp p (some r.2), enabled := upd s.enabled p true } := by
  unfold createLp at h
  simp only [bind_ok, ensure_ok, pure_ok] at h
  obtain ⟨_, _, _, ho, rfl⟩ := h
  exact ⟨ho, _, rfl⟩

theorem iss_of_mint_pos {L L' : Ledger} {l : AssetId} {x : Acct} {m : Nat} (h : L.mint l x m = .ok L')
    : L'.bal l x = L.bal l x + m := by
  have := (mint_ok h).2.2.2.2 x
  simpa using this

/-- The two token transfers of a deposit. -/
theorem add_transfers {s : St} {who : Acct} {p : Pair} {x y : Nat} {led1 led2 : Ledger}
    (h : s.led.Sound) (hw : Keyed who)
    (h1 : s.led.transfer p.1 who (poolAddr p) x = .ok led1)
    (h2 : led1.transfer p.2 who (poolAddr p) y = .ok led2) :
    led2.Sound ∧ led2.iss = s.led.iss ∧
    (∀ a q, s.led.bal a (poolAddr q) ≤ led2.bal a (poolAddr q)) ∧
    (∀ a, s.led.bal a burnAcct ≤ led2.bal a burnAcct) := by
  refine ⟨transfer_sound h2 (transfer_sound h1 h), ?_, ?_, ?_⟩
  · rw [(transfer_ok h2).2.1, (transfer_ok h1).2.1]
  · intro a q
    exact le_trans (transfer_mono h1 a _ (fun _ => (hw.2 q).symm))
      (transfer_mono h2 a _ (fun _ => (hw.2 q).symm))
  · intro a
    exact le_trans (transfer_mono h1 a _ (fun _ => hw.1.symm))
      (transfer_mono h2 a _ (fun _ => hw.1.symm))

/-- A deposit into an existing pair keeps the invariant. -/
theorem Inv.addExisting {s s' : St} {who dst : Acct} {p : Pair} {l : AssetId} {d0 d1 m0 m1 : Nat}
    {ev : Added} (h : Inv s) (hw : Keyed who) (hl : s.lp p = some l)
    (ha : addOrdered s who p l d0 d1 m0 m1 dst = .ok (s', ev)) : Inv s' := by
  obtain ⟨amts, led1, led2, ll, k, ho, h1, h2, hb0, hb1, _, _, hq, hz, hm, e⟩ := addOrdered_ok ha
  obtain ⟨hs2, hi2, hp2, hbn2⟩ := add_transfers h.sound hw h1 h2
  have hsup := h.supply hl
  obtain ⟨hi, _⟩ | ⟨hi, hll, _⟩ := liquidityFor_led hq
  · rw [hi2] at hi; unfold minLiquidity at hsup; omega
  subst hll
  have hown : s.owner l ≠ none := by rw [h.lpOwn p l hl]; simp
  have hsync := h.sync (led := s'.led) hl (mint_sound hm hs2) (by
      intro a haa
      have hne : a ≠ l := by rintro rfl; exact hown haa
      rw [(mint_ok hm).2.2.1 a hne, hi2]; exact h.fresh a haa)
    (fun a q _ => le_trans (hp2 a q) (mint_mono hm a _)) (fun a => le_trans (hbn2 a) (mint_mono hm a _))
  have hord := h.lpOrd p l hl
  have e1 : s'.led.bal p.1 = ll.bal p.1 := (mint_ok hm).2.2.2.1 _ hord.2.1.symm
  have e2 : s'.led.bal p.2 = ll.bal p.2 := (mint_ok hm).2.2.2.1 _ hord.2.2.symm
  rw [e1, e2] at hsync
  rw [e]
  exact Inv.lastK hsync k

/-- The first deposit into a pair keeps the invariant. -/
theorem Inv.addNew {c : Cfg} {s s' : St} {r : St × AssetId} {who dst : Acct} {p : Pair}
    {d0 d1 m0 m1 : Nat} {ev : Added} (h : Inv s) (hw : Keyed who) (hn : s.lp p = none)
    (hord : p.1 < p.2) (hd : 0 < d0 ∧ 0 < d1)
    (hc : createLp c s p = .ok r)
    (ha : addOrdered r.1 who p r.2 d0 d1 m0 m1 dst = .ok (s', ev)) : Inv s' := by
  obtain ⟨hown, n, er⟩ := createLp_ok hc
  obtain ⟨amts, led1, led2, ll, k, ho, h1, h2, hb0, hb1, _, _, hq, hz, hm, e⟩ := addOrdered_ok ha
  obtain ⟨sr, l⟩ := r
  dsimp only at *
  subst er
  dsimp only at *
  obtain ⟨hs2, hi2, hp2, hbn2⟩ := add_transfers h.sound hw h1 h2
  have hres := (h.lpNone p hn).1
  rw [hres] at ho hb0 hb1
  have ea := optimal_pos ho ⟨rfl, rfl⟩
  subst ea
  have hiss : s.led.iss l = 0 := h.fresh l hown
  have hbal : ∀ x, s.led.bal l x = 0 := by
    intro x; have := (h.sound l).1.le x; omega
  have hl1 : l ≠ p.1 := by
    rintro rfl
    have := (transfer_ok h1).1
    rw [hbal] at this
    have := sat128_pos hd.1
    dsimp only at *
    omega
  have hl2 : l ≠ p.2 := by
    rintro rfl
    have := (transfer_ok h2).1
    rw [(transfer_ok h1).2.2.1 _ (ne_of_gt hord), hbal] at this
    have := sat128_pos hd.2
    dsimp only at *
    omega
  obtain ⟨hi, hburn, _⟩ | ⟨hi, _⟩ := liquidityFor_led hq
  swap
  · rw [hi2] at hi; exact absurd hiss hi
  have e1 : s'.led.bal p.1 = led2.bal p.1 := by
    rw [(mint_ok hm).2.2.2.1 _ hl1.symm, (mint_ok hburn).2.2.2.1 _ hl1.symm]
  have e2 : s'.led.bal p.2 = led2.bal p.2 := by
    rw [(mint_ok hm).2.2.2.1 _ hl2.symm, (mint_ok hburn).2.2.2.1 _ hl2.symm]
  have hsnd : s'.led.Sound := mint_sound hm (mint_sound hburn hs2)
  have hpool : ∀ a q, s.led.bal a (poolAddr q) ≤ s'.led.bal a (poolAddr q) := fun a q =>
    le_trans (hp2 a q) (le_trans (mint_mono hburn a _) (mint_mono hm a _))
  have hbrn : ∀ a, s.led.bal a burnAcct ≤ s'.led.bal a burnAcct := fun a =>
    le_trans (hbn2 a) (le_trans (mint_mono hburn a _) (mint_mono hm a _))
  have hlocked : minLiquidity ≤ s'.led.bal l burnAcct := by
    have x1 := iss_of_mint_pos hburn
    have x2 := mint_mono hm l burnAcct
    omega
  have hfreshl : ∀ q, s.lp q ≠ some l := by
    intro q hq'
    have := h.lpOwn q l hq'
    rw [hown] at this; cases this
  rw [e, ← e1, ← e2]
  exact {
    sound := hsnd
    fresh := by
      intro a haa
      dsimp only at haa ⊢
      by_cases hal : a = l
      · subst hal; simp at haa
      · rw [upd_ne _ _ hal] at haa
        rw [(mint_ok hm).2.2.1 a hal, (mint_ok hburn).2.2.1 a hal, hi2]
        exact h.fresh a haa
    lpOwn := by
      intro q l' hq'
      dsimp only at hq' ⊢
      by_cases hqp : q = p
      · subst hqp; simp only [upd_same, Option.some.injEq] at hq'; subst hq'; simp
      · rw [upd_ne _ _ hqp] at hq'
        have hne : l' ≠ l := by rintro rfl; exact hfreshl q hq'
        rw [upd_ne _ _ hne]; exact h.lpOwn q l' hq'
    lpOrd := by
      intro q l' hq'
      dsimp only at hq'
      by_cases hqp : q = p
      · subst hqp; simp only [upd_same, Option.some.injEq] at hq'; subst hq'
        exact ⟨hord, hl1, hl2⟩
      · rw [upd_ne _ _ hqp] at hq'; exact h.lpOrd q l' hq'
    lpNone := by
      intro q hq'
      dsimp only at hq' ⊢
      by_cases hqp : q = p
      · subst hqp; simp at hq'
      · rw [upd_ne _ _ hqp] at hq'
        rw [upd_ne _ _ hqp, upd_ne _ _ hqp]; exact h.lpNone q hq'
    backed := by
      intro q
      dsimp only
      by_cases hqp : q = p
      · subst hqp; simp
      · rw [upd_ne _ _ hqp]
        exact ⟨le_trans (h.backed q).1 (hpool _ _), le_trans (h.backed q).2 (hpool _ _)⟩
    locked := by
      intro q l' hq'
      dsimp only at hq' ⊢
      by_cases hqp : q = p
      · subst hqp; simp only [upd_same, Option.some.injEq] at hq'; subst hq'; exact hlocked
      · rw [upd_ne _ _ hqp] at hq'
        exact le_trans (h.locked q l' hq') (hbrn l') }

/-- A successful `add_liquidity` is a deposit, in pair order, into the existing pair or into a pair
created on the spot. -/
theorem addLiquidity_ok {c : Cfg} {s s' : St} {who dst : Acct} {a b : AssetId} {da db ma mb : Nat}
    {dl : Option Nat} {ev : Added} (h : addLiquidity c s who a b da db ma mb dst dl = .ok (s', ev)) :
    a ≠ b ∧ deadlineOk dl s.now ∧ ∃ sl d0 d1 m0 m1, getOrCreateLp c s (mkPair a b) = .ok sl ∧
      0 < d0 ∧ 0 < d1 ∧ sl.1.enabled (mkPair a b) = true ∧
      addOrdered sl.1 who (mkPair a b) sl.2 d0 d1 m0 m1 dst = .ok (s', ev) := by
  unfold addLiquidity at h
  simp only [bind_ok, ensure_ok] at h
  obtain ⟨_, hne, _, hpos, _, hdl, sl, hsl, _, hen, h⟩ := h
  split at h
  · exact ⟨hne, hdl, sl, _, _, _, _, hsl, hpos.1, hpos.2, hen, h⟩
  · exact ⟨hne, hdl, sl, _, _, _, _, hsl, hpos.2, hpos.1, hen, h⟩

theorem mkPair_lt {a b : AssetId} (h : a ≠ b) : (mkPair a b).1 < (mkPair a b).2 := by
  rcases mkPair_cases a b h with ⟨e, h⟩ | ⟨e, h⟩ <;> rw [e] <;> exact h

theorem getOrCreateLp_cases {c : Cfg} {s : St} {p : Pair} {r : St × AssetId}
    (h : getOrCreateLp c s p = .ok r) :
    (s.lp p = some r.2 ∧ r.1 = s) ∨ (s.lp p = none ∧ createLp c s p = .ok r) := by
  unfold getOrCreateLp at h
  split at h
  · cases h; left; exact ⟨by assumption, rfl⟩
  · right; exact ⟨by assumption, h⟩

theorem Inv.addLiquidity {c : Cfg} {s s' : St} {who dst : Acct} {a b : AssetId} {da db ma mb : Nat}
    {dl : Option Nat} {ev : Added} (h : Inv s) (hw : Keyed who)
    (ha : addLiquidity c s who a b da db ma mb dst dl = .ok (s', ev)) : Inv s' := by
  obtain ⟨hne, _, sl, d0, d1, m0, m1, hsl, hd0, hd1, _, hadd⟩ := addLiquidity_ok ha
  rcases getOrCreateLp_cases hsl with ⟨hl, e⟩ | ⟨hn, hc⟩
  · rw [e] at hadd
    exact h.addExisting hw hl hadd
  · exact h.addNew hw hn (mkPair_lt hne) ⟨hd0, hd1⟩ hc hadd

/-! ### remove_liquidity -/

theorem removeOrdered_ok {s s' : St} {dst : Acct} {p : Pair} {l : AssetId} {m0 m1 : Nat} {ev : Removed}
    (h : removeOrdered s p l m0 m1 dst = .ok (s', ev)) :
    ∃ led1 led2 k, s.led.iss l ≠ 0 ∧
      ev.liq = s.led.bal l (poolAddr p) ∧
      ev.amt0 = sat128 (ev.liq * s.led.bal p.1 (poolAddr p) / s.led.iss l) ∧
      ev.amt1 = sat128 (ev.liq * s.led.bal p.2 (poolAddr p) / s.led.iss l) ∧
      0 < ev.amt0 ∧ 0 < ev.amt1 ∧ m0 ≤ ev.amt0 ∧ m1 ≤ ev.amt1 ∧
      s.led.burn l (poolAddr p) ev.liq = .ok led1 ∧
      led1.transfer p.1 (poolAddr p) dst ev.amt0 = .ok led2 ∧
      led2.transfer p.2 (poolAddr p) dst ev.amt1 = .ok s'.led ∧
      s' = { s with
        led := s'.led,
        res := upd s.res p (s'.led.bal p.1 (poolAddr p), s'.led.bal p.2 (poolAddr p)),
        lastK := k } := by
  unfold removeOrdered at h
  simp only [bind_ok, ensure_ok, mul256_ok, divC_ok, pure_ok, Prod.mk.injEq] at h
  obtain ⟨m0', ⟨_, rfl⟩, q0, ⟨hz, rfl⟩, m1', ⟨_, rfl⟩, q1, ⟨_, rfl⟩, _, hpos, _, hm0, _, hm1, led1, h1,
    led2, h2, led3, h3, e1, e2⟩ := h
  obtain ⟨k, hk⟩ := updateLastK_eq { s with
    led := led3,
    res := upd s.res p (led3.bal p.1 (poolAddr p), led3.bal p.2 (poolAddr p)) } p l
  rw [hk] at e1
  subst e1 e2
  exact ⟨led1, led2, k, hz, rfl, rfl, rfl, hpos.1, hpos.2, hm0, hm1, h1, h2, h3, rfl⟩

theorem removeLiquidity_ok {s s' : St} {who dst : Acct} {a b : AssetId} {liq ma mb : Nat}
    {dl : Option Nat} {ev : Removed} (h : removeLiquidity s who a b liq ma mb dst dl = .ok (s', ev)) :
    a ≠ b ∧ deadlineOk dl s.now ∧ ∃ l led m0 m1, s.lp (mkPair a b) = some l ∧
      s.led.transfer l who (poolAddr (mkPair a b)) liq = .ok led ∧
      removeOrdered { s with led := led } (mkPair a b) l m0 m1 dst = .ok (s', ev) := by
  unfold removeLiquidity at h
  simp only [bind_ok, ensure_ok, okOr_ok] at h
  obtain ⟨_, hdl, l, hl, _, hne, led, ht, h⟩ := h
  split at h
  · exact ⟨hne, hdl, l, led, _, _, hl, ht, h⟩
  · exact ⟨hne, hdl, l, led, _, _, hl, ht, h⟩

theorem Inv.removeLiquidity {s s' : St} {who dst : Acct} {a b : AssetId} {liq ma mb : Nat}
    {dl : Option Nat} {ev : Removed} (h : Inv s) (hw : Keyed who)
    (hr : removeLiquidity s who a b liq ma mb dst dl = .ok (s', ev)) : Inv s' := by
  obtain ⟨_, _, l, led, m0, m1, hl, ht, hr⟩ := removeLiquidity_ok hr
  have h0 : Inv { s with led := led } := h.transfer ht hw
  obtain ⟨led1, led2, k, _, _, _, _, _, _, _, _, hb, h1, h2, e⟩ := removeOrdered_ok hr
  have hown : s.owner l ≠ none := by rw [h.lpOwn _ l hl]; simp
  rw [e]
  refine Inv.lastK (h0.sync (led := s'.led) hl ?_ ?_ ?_ ?_) k
  · exact transfer_sound h2 (transfer_sound h1 (burn_sound hb h0.sound))
  · intro x hx
    have hne : x ≠ l := by rintro rfl; exact hown hx
    rw [(transfer_ok h2).2.1, (transfer_ok h1).2.1, (burn_ok hb).2.2.1 x hne]
    exact h0.fresh x hx
  · intro x q hq
    have hq' : poolAddr q ≠ poolAddr (mkPair a b) := fun e => hq (poolAddr_inj e)
    exact le_trans (burn_mono hb x _ (fun _ => hq')) (le_trans (transfer_mono h1 x _ (fun _ => hq'))
      (transfer_mono h2 x _ (fun _ => hq')))
  · intro x
    exact le_trans (burn_mono hb x _ (fun _ => burn_ne_pool _))
      (le_trans (transfer_mono h1 x _ (fun _ => burn_ne_pool _))
      (transfer_mono h2 x _ (fun _ => burn_ne_pool _)))

/-! ### all operations -/

theorem map_fst_ok {α : Type} {x : Except Err (St × α)} {s : St} (h : x.map Prod.fst = .ok s) :
    ∃ a, x = .ok (s, a) := by
  cases x with
  | error e => cases h
  | ok r => obtain ⟨s', a⟩ := r; cases h; exact ⟨a, rfl⟩

theorem Inv.step {c : Cfg} {s s' : St} {op : Op} (h : Inv s)
    (hw : ∀ w, op.signer = some w → Keyed w) (hs : step c s op = .ok s') : Inv s' := by
  cases op with
  | swapSupply who i m path dst dl =>
    obtain ⟨_, amts, _, _, _, hp⟩ := swapExactSupply_ok hs
    exact h.payAndSwap (hw who rfl) hp
  | swapTarget who i m path dst dl =>
    obtain ⟨_, amts, _, _, _, hp⟩ := swapExactTarget_ok hs
    exact h.payAndSwap (hw who rfl) hp
  | add who a b da db ma mb dst dl =>
    obtain ⟨ev, ha⟩ := map_fst_ok hs
    exact h.addLiquidity (hw who rfl) ha
  | remove who a b liq ma mb dst dl =>
    obtain ⟨ev, ha⟩ := map_fst_ok hs
    exact h.removeLiquidity (hw who rfl) ha
  | setFeeTo f =>
    cases hs
    exact ⟨h.sound, h.fresh, h.lpOwn, h.lpOrd, h.lpNone, h.backed, h.locked⟩
  | reenable a b =>
    simp only [Dex.step, Dex.reenable, bind_ok, ensure_ok, pure_ok] at hs
    obtain ⟨_, hl, _, _, rfl⟩ := hs
    refine ⟨h.sound, h.fresh, h.lpOwn, h.lpOrd, ?_, h.backed, h.locked⟩
    intro q hq
    have hne : q ≠ mkPair a b := by rintro rfl; rw [hq] at hl; simp at hl
    dsimp only; rw [upd_ne _ _ hne]; exact h.lpNone q hq
  | disable a b =>
    simp only [Dex.step, Dex.disable, bind_ok, ensure_ok, pure_ok] at hs
    obtain ⟨_, hl, _, _, rfl⟩ := hs
    refine ⟨h.sound, h.fresh, h.lpOwn, h.lpOrd, ?_, h.backed, h.locked⟩
    intro q hq
    have hne : q ≠ mkPair a b := by rintro rfl; rw [hq] at hl; simp at hl
    dsimp only; rw [upd_ne _ _ hne]; exact h.lpNone q hq
  | transfer who a dst amt =>
    simp only [Dex.step, directTransfer, bind_ok, pure_ok] at hs
    obtain ⟨led, ht, rfl⟩ := hs
    exact h.transfer ht (hw who rfl)
  | createAsset who =>
    simp only [Dex.step, createAsset, bind_ok, ensure_ok, pure_ok] at hs
    obtain ⟨_, _, _, ho, rfl⟩ := hs
    refine ⟨h.sound, ?_, ?_, h.lpOrd, h.lpNone, h.backed, h.locked⟩
    · intro a ha
      dsimp only at ha
      apply h.fresh
      by_cases he : a = Fin.ofNat 4294967296 (s.nextId * 1024 + c.para)
      · rw [he] at ha; simp at ha
      · rwa [upd_ne _ _ he] at ha
    · intro p l hp
      have hl := h.lpOwn p l hp
      have hne : l ≠ Fin.ofNat 4294967296 (s.nextId * 1024 + c.para) := by
        rintro he; rw [he, ho] at hl; cases hl
      dsimp only; rw [upd_ne _ _ hne]; exact hl
  | mintAsset who a dst amt =>
    simp only [Dex.step, mintAsset, bind_ok, ensure_ok, pure_ok] at hs
    obtain ⟨_, ho, led, ht, rfl⟩ := hs
    exact h.mint ht (by rw [ho]; simp)
  | nextBlock =>
    cases hs
    exact ⟨h.sound, h.fresh, h.lpOwn, h.lpOrd, h.lpNone, h.backed, h.locked⟩

theorem Reach.inv {c : Cfg} {s : St} (h : Reach c s) : Inv s := by
  induction h with
  | init hg => exact inv_genesis hg
  | step _ hw hs ih => exact ih.step hw hs

end Verif.Dex
