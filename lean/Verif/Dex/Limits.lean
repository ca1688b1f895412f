import Verif.Dex.Props

/-!
# Limits of liquidity providers (C61)
-/

namespace Verif.Dex
open Ledger

theorem optimal_bounds {r0 r1 d0 d1 m0 m1 : Nat} {r : Nat × Nat}
    (h : optimalAmounts r0 r1 d0 d1 m0 m1 = .ok r) :
    r.1 ≤ d0 ∧ r.2 ≤ d1 ∧ (m0 ≤ d0 → m0 ≤ r.1) ∧ (m1 ≤ d1 → m1 ≤ r.2) := by
  unfold optimalAmounts at h
  split at h
  · cases h; exact ⟨le_refl _, le_refl _, id, id⟩
  · simp only [bind_ok] at h
    obtain ⟨bo, _, h⟩ := h
    split at h
    · rename_i hb
      simp only [bind_ok, ensure_ok, pure_ok] at h
      obtain ⟨_, hm, rfl⟩ := h
      exact ⟨le_refl _, hb, id, fun _ => hm⟩
    · simp only [bind_ok, ensure_ok, pure_ok] at h
      obtain ⟨ao, _, _, ha, _, hm, rfl⟩ := h
      exact ⟨ha, le_refl _, fun _ => hm, id⟩

theorem addOrdered_limits {s s' : St} {who dst : Acct} {p : Pair} {l : AssetId} {d0 d1 m0 m1 : Nat}
    {ev : Added} (hp : p.1 ≠ p.2) (hl1 : l ≠ p.1) (hl2 : l ≠ p.2) (hw : who ≠ poolAddr p)
    (hd0 : d0 < U128) (hd1 : d1 < U128)
    (h : addOrdered s who p l d0 d1 m0 m1 dst = .ok (s', ev)) :
    ∃ t0 t1, s'.led.bal p.1 who + t0 = s.led.bal p.1 who ∧ s'.led.bal p.2 who + t1 = s.led.bal p.2 who ∧
      t0 ≤ d0 ∧ t1 ≤ d1 ∧ (m0 ≤ d0 → m0 ≤ t0) ∧ (m1 ≤ d1 → m1 ≤ t1) ∧
      s'.led.bal l dst ≥ s.led.bal l dst + ev.liq ∧ 0 < ev.liq := by
  obtain ⟨amts, led1, led2, ll, k, ho, t1, t2, _, _, _, _, hq, hz, hm, e⟩ := addOrdered_ok h
  obtain ⟨b0, b1, c0, c1⟩ := optimal_bounds ho
  have s0 : sat128 amts.1 = amts.1 := by unfold sat128; omega
  have s1 : sat128 amts.2 = amts.2 := by unfold sat128; omega
  rw [s0] at t1; rw [s1] at t2
  have T1 := (transfer_ok t1).2.2.2 who
  have T2 := (transfer_ok t2).2.2.2 who
  rw [(transfer_ok t1).2.2.1 _ hp.symm] at T2
  simp only [if_true, if_neg hw, Nat.add_zero] at T1 T2
  have B0 : led2.bal p.1 = led1.bal p.1 := (transfer_ok t2).2.2.1 _ hp
  have hll : (∀ t, t ≠ l → ll.bal t = led2.bal t) ∧ led2.bal l dst ≤ ll.bal l dst := by
    rcases liquidityFor_led hq with ⟨_, hbm, _⟩ | ⟨_, hll, _⟩
    · refine ⟨fun t ht => (mint_ok hbm).2.2.2.1 _ ht, ?_⟩
      rw [(mint_ok hbm).2.2.2.2]; omega
    · rw [hll]; exact ⟨fun _ _ => rfl, le_refl _⟩
  refine ⟨amts.1, amts.2, ?_, ?_, b0, b1, c0, c1, ?_, Nat.pos_of_ne_zero hz⟩
  · rw [(mint_ok hm).2.2.2.1 _ hl1.symm, hll.1 _ hl1.symm, B0]; exact T1
  · rw [(mint_ok hm).2.2.2.1 _ hl2.symm, hll.1 _ hl2.symm]; exact T2
  · rw [(mint_ok hm).2.2.2.2, if_pos rfl]
    have := hll.2
    rw [(transfer_ok t2).2.2.1 _ hl2, (transfer_ok t1).2.2.1 _ hl1] at this
    omega

/-- C61: a successful `add_liquidity` happens before its deadline, takes from the provider at most the
desired amounts and (if the minimum does not exceed the desired amount) at least the minimums, and credits
the recipient with a positive number of liquidity tokens, the number it reports. -/
theorem C61_add_limits {c : Cfg} {s s' : St} {who dst : Acct} {a b : AssetId} {da db ma mb : Nat}
    {dl : Option Nat} {ev : Added} (hr : Reach c s) (hw : Keyed who) (hda : da < U128) (hdb : db < U128)
    (h : addLiquidity c s who a b da db ma mb dst dl = .ok (s', ev)) :
    (∀ d, dl = some d → s.now ≤ d) ∧
    ∃ l ta tb, s'.lp (mkPair a b) = some l ∧
      s'.led.bal a who + ta = s.led.bal a who ∧ s'.led.bal b who + tb = s.led.bal b who ∧
      ta ≤ da ∧ tb ≤ db ∧ (ma ≤ da → ma ≤ ta) ∧ (mb ≤ db → mb ≤ tb) ∧
      s.led.bal l dst + ev.liq ≤ s'.led.bal l dst ∧ 0 < ev.liq := by
  have hi' := hr.inv.addLiquidity hw h
  simp only [addLiquidity, bind_ok, ensure_ok] at h
  obtain ⟨_, hne, _, _, _, hdl, sl, hsl, _, _, h⟩ := h
  have hsame : sl.1.led = s.led ∧ sl.1.lp (mkPair a b) = some sl.2 := by
    rcases getOrCreateLp_cases hsl with ⟨hl, e⟩ | ⟨hn, hc⟩
    · rw [e]; exact ⟨rfl, hl⟩
    · obtain ⟨_, n, er⟩ := createLp_ok hc
      rw [er]; exact ⟨rfl, upd_same _ _ _⟩
  have elp : s'.lp (mkPair a b) = some sl.2 := by
    split at h <;> (obtain ⟨_, _, _, _, _, _, _, _, _, _, _, _, _, _, _, e⟩ := addOrdered_ok h; rw [e]; exact hsame.2)
  obtain ⟨hlt, hl1, hl2⟩ := hi'.lpOrd _ _ elp
  refine ⟨?_, sl.2, ?_⟩
  · rintro d rfl; exact hdl
  · rw [← hsame.1]
    rcases mkPair_cases a b hne with ⟨ep, hab⟩ | ⟨ep, hab⟩
    · rw [if_pos (by rw [ep])] at h
      obtain ⟨t0, t1, x⟩ := addOrdered_limits (ne_of_lt hlt) hl1 hl2 (hw.2 _) hda hdb h
      rw [ep] at x elp
      exact ⟨t0, t1, by rw [ep]; exact elp, x.1, x.2.1, x.2.2.1, x.2.2.2.1, x.2.2.2.2.1, x.2.2.2.2.2.1,
        x.2.2.2.2.2.2.1, x.2.2.2.2.2.2.2⟩
    · rw [if_neg (by rw [ep]; exact hne)] at h
      obtain ⟨t0, t1, x⟩ := addOrdered_limits (ne_of_lt hlt) hl1 hl2 (hw.2 _) hdb hda h
      rw [ep] at x elp
      exact ⟨t1, t0, by rw [ep]; exact elp, x.2.1, x.1, x.2.2.2.1, x.2.2.1, x.2.2.2.2.2.1, x.2.2.2.2.1,
        x.2.2.2.2.2.2.1, x.2.2.2.2.2.2.2⟩

theorem removeOrdered_limits {s s' : St} {dst : Acct} {p : Pair} {l : AssetId} {m0 m1 : Nat} {ev : Removed}
    (hp : p.1 ≠ p.2) (hl1 : l ≠ p.1) (hl2 : l ≠ p.2) (hw : dst ≠ poolAddr p)
    (h : removeOrdered s p l m0 m1 dst = .ok (s', ev)) :
    s.led.bal p.1 dst + m0 ≤ s'.led.bal p.1 dst ∧ s.led.bal p.2 dst + m1 ≤ s'.led.bal p.2 dst ∧
    ∀ x, x ≠ poolAddr p → s'.led.bal l x = s.led.bal l x := by
  obtain ⟨led1, led2, k, _, _, _, _, _, _, hm0, hm1, hb, t1, t2, e⟩ := removeOrdered_ok h
  have T1 := (transfer_ok t1).2.2.2 dst
  have T2 := (transfer_ok t2).2.2.2 dst
  rw [(transfer_ok t1).2.2.1 _ hp.symm, (burn_ok hb).2.2.2.1 _ hl2.symm] at T2
  rw [(burn_ok hb).2.2.2.1 _ hl1.symm] at T1
  simp only [if_true, if_neg hw, Nat.add_zero] at T1 T2
  rw [(transfer_ok t2).2.2.1 _ hp]
  refine ⟨by omega, by omega, fun x hx => ?_⟩
  rw [(transfer_ok t2).2.2.1 _ hl2, (transfer_ok t1).2.2.1 _ hl1]
  have := (burn_ok hb).2.2.2.2 x
  rw [if_neg hx] at this
  omega

/-- C61: a successful `remove_liquidity` happens before its deadline, takes exactly `liq` liquidity tokens
from the caller, and credits the recipient with at least the minimum of both tokens. -/
theorem C61_remove_limits {c : Cfg} {s s' : St} {who dst : Acct} {a b : AssetId} {liq ma mb : Nat}
    {dl : Option Nat} {ev : Removed} (hr : Reach c s) (hw : Keyed who) (hd : Keyed dst)
    (h : removeLiquidity s who a b liq ma mb dst dl = .ok (s', ev)) :
    (∀ d, dl = some d → s.now ≤ d) ∧
    (∃ l, s.lp (mkPair a b) = some l ∧ s'.led.bal l who + liq = s.led.bal l who) ∧
    s.led.bal a dst + ma ≤ s'.led.bal a dst ∧ s.led.bal b dst + mb ≤ s'.led.bal b dst := by
  simp only [removeLiquidity, bind_ok, ensure_ok, okOr_ok] at h
  obtain ⟨_, hdl, l, hl, _, hne, led, ht, h⟩ := h
  obtain ⟨hlt, hl1, hl2⟩ := hr.inv.lpOrd _ _ hl
  have T := (transfer_ok ht).2.2.2 who
  rw [if_pos rfl, if_neg (hw.2 _)] at T
  have F1 := (transfer_ok ht).2.2.1 _ hl1.symm
  have F2 := (transfer_ok ht).2.2.1 _ hl2.symm
  refine ⟨?_, ⟨l, hl, ?_⟩, ?_⟩
  · rintro d rfl; exact hdl
  · split at h
    · rw [(removeOrdered_limits (ne_of_lt hlt) hl1 hl2 (hd.2 _) h).2.2 who (hw.2 _)]; exact T
    · rw [(removeOrdered_limits (ne_of_lt hlt) hl1 hl2 (hd.2 _) h).2.2 who (hw.2 _)]; exact T
  · rcases mkPair_cases a b hne with ⟨ep, hab⟩ | ⟨ep, hab⟩
    · rw [if_pos (by rw [ep])] at h
      have x := removeOrdered_limits (ne_of_lt hlt) hl1 hl2 (hd.2 _) h
      dsimp only at x
      rw [F1, F2] at x
      rw [ep] at x
      exact ⟨x.1, x.2.1⟩
    · rw [if_neg (by rw [ep]; exact hne)] at h
      have x := removeOrdered_limits (ne_of_lt hlt) hl1 hl2 (hd.2 _) h
      dsimp only at x
      rw [F1, F2] at x
      rw [ep] at x
      exact ⟨x.2.1, x.1⟩

/-- Non-vacuity: limits that are met, and limits one off that are not. -/
example : (step cfg0 demo (.add 8 2 1 4000000 2000000 4000000 1000000 8 (some 10))).isOk = true ∧
    (step cfg0 demo (.add 8 2 1 4000000 2000000 4000000 1000001 8 (some 10))).isOk = false ∧
    (step cfg0 demo (.remove 7 1 2 2000 1000 4000 7 none)).isOk = true ∧
    (step cfg0 demo (.remove 7 1 2 2000 1001 4000 7 none)).isOk = false ∧
    (step cfg0 demo (.remove 7 1 2 2000 1000 4000 7 (some 9))).isOk = false := by decide +kernel

end Verif.Dex
