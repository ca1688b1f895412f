import Verif.EvmMoney.Safe

/-! The exact effect of settling fees, when twice the XRP supply fits 128 bits. -/

namespace Verif.EvmMoney
open Verif.Dex (sat128 sat128_le)

theorem credit_exact {L : Ledger} {a : AssetId} {who : Acct} {v n : Nat} (ho : Owes L a n) (hv : v ≤ n)
    (hi : L.iss a * 2 < U128) :
    (credit L a who v).2 = v ∧ Owes (credit L a who v).1 a (n - v) ∧ (credit L a who v).1.iss = L.iss ∧
    (∀ b, b ≠ a → (credit L a who v).1.bal b = L.bal b) ∧
    ∀ y, (credit L a who v).1.bal a y = L.bal a y + (if y = who then v else 0) := by
  obtain ⟨h1, h2, h3, h4, h5⟩ := credit_spec L a who v
  obtain ⟨⟨m, hm, e⟩, _, _⟩ := id ho
  have hb := hm.le who
  have e2 : (credit L a who v).2 = v := by
    unfold credit; rw [if_pos ⟨by omega, by omega⟩]
  have := credit_owes ho (who := who) (v := v) (by rw [e2]; exact hv)
  rw [e2] at this h3
  exact ⟨e2, this, h1, h2, h3⟩

theorem drop_exact {L : Ledger} {a : AssetId} {v : Nat} (h : L.iss a + v < U128) :
    dropNeg (dropPos L a v) a v = L := by
  unfold dropNeg dropPos
  simp only [upd_same, sat128_of_lt h, Nat.add_sub_cancel]
  have : upd (upd L.iss a (L.iss a + v)) a (L.iss a) = L.iss := by
    funext b
    by_cases hb : b = a
    · subst hb; simp
    · simp [upd_ne _ _ hb]
  rw [this]

theorem pot_owes {c : Cfg} {L : Ledger} {n v era : Nat} (ho : Owes L c.xrp n) (hv : v ≤ n)
    (hs : L.iss c.xrp * 2 < U128) :
    (∀ y, (potReceive c L era v).1.bal c.xrp y = L.bal c.xrp y + (if y = c.pot then v else 0)) ∧
    (∀ b, b ≠ c.xrp → (potReceive c L era v).1.bal b = L.bal b) ∧
    (potReceive c L era v).1.iss = L.iss ∧ Owes (potReceive c L era v).1 c.xrp (n - v) ∧
    (era + v < U128 → (potReceive c L era v).2 = era + v) := by
  obtain ⟨h1, ⟨got, _, h3, h4⟩, h5, h6⟩ := potReceive_spec c L era v
  obtain ⟨⟨m, hm, e⟩, _, _⟩ := id ho
  have hb := hm.le c.pot
  obtain ⟨rfl, h7⟩ := h4 (by omega) (by omega)
  refine ⟨h3, fun b hb => (h1 b hb).1, h7, potReceive_owes ho hv, fun hlt => ?_⟩
  by_cases h0 : got = 0
  · rw [h5 h0, h0]; rfl
  · rw [h6 h0, Nat.mod_eq_of_lt hlt]

/-- The settlement of an EVM fee: `r` drops go back, `b` to the pot, `tip` to the author. -/
theorem evm_settle {c : Cfg} {L2 L3 L4 : Ledger} {era era' who author corrected base v tip : Nat}
    (ho : Owes L2 c.xrp v) (hi : L2.iss c.xrp * 2 < U128)
    (h1 : correctFee c L2 era who corrected base v = .ok (L3, era', tip))
    (h2 : payTip c L3 author tip = .ok L4) :
    ∃ r b base6, r + b + tip = v ∧ toDrops (v * 1000000000000 - sat128 corrected) = .ok r ∧
      toDrops (sat128 base) = .ok base6 ∧ b = min (v - r) base6 ∧ v * 1000000000000 < U128 ∧
      (∀ y, L4.bal c.xrp y = L2.bal c.xrp y + (if y = who then r else 0) + (if y = c.pot then b else 0)
        + (if y = author then tip else 0)) ∧
      (∀ a, a ≠ c.xrp → L4.bal a = L2.bal a) ∧ L4.iss = L2.iss ∧ (era + b < U128 → era' = era + b) := by
  obtain ⟨r, base6, hlt, hr, hle, hb, _, e, et⟩ := correctFee_ok h1
  obtain ⟨e1, o1, i1, f1, b1⟩ := credit_exact (who := who) ho hle hi
  rw [e1] at e et
  have hmin : min (v - r) base6 ≤ v - r := Nat.min_le_left _ _
  obtain ⟨p1, p2, p3, p4, p5⟩ := pot_owes (era := era) o1 hmin (by rw [i1]; exact hi)
  rw [← e] at p1 p2 p3 p4 p5
  dsimp only at p1 p2 p3 p4 p5
  have i3 : L3.iss = L2.iss := p3.trans i1
  rw [← et] at p4
  obtain ⟨_, e4⟩ := payTip_ok h2
  obtain ⟨q1, q2, q3, q4, q5⟩ := credit_exact (who := author) p4 (Nat.le_refl tip) (by rw [i3]; exact hi)
  have htip : tip ≤ L2.iss c.xrp := by
    obtain ⟨⟨m, _, em⟩, _, _⟩ := p4
    rw [i3] at em; omega
  rw [q1, drop_exact (by rw [q3, i3]; omega)] at e4
  subst e4
  refine ⟨r, min (v - r) base6, base6, by omega, hr, hb, rfl, hlt, fun y => ?_, fun a ha => ?_, q3.trans i3, p5⟩
  · rw [q5 y, p1 y, b1 y]
  · rw [q4 a ha, p2 a ha, f1 a ha]

theorem evmBody_owes {c : Cfg} {L L' : Ledger} {l : List (Acct × Acct × Nat)} {r : Bool} {n : Nat}
    (h : evmBody c L l r = .ok L') (ho : Owes L c.xrp n) : Owes L' c.xrp n ∧ L'.iss = L.iss :=
  evmBody_ind (fun M => Owes M c.xrp n ∧ M.iss = L.iss)
    (fun _ _ _ _ _ h1 ht => ⟨transfer_owes ht h1.1, (Ledger.transfer_ok ht).2.1.trans h1.2⟩) ⟨ho, rfl⟩ h

theorem dropTransfers_owes {c : Cfg} {L L' : Ledger} {l : List (Acct × Acct × Nat)} {n : Nat}
    (h : dropTransfers c L l = .ok L') (ho : Owes L c.xrp n) : Owes L' c.xrp n ∧ L'.iss = L.iss :=
  dropTransfers_ind (fun M => Owes M c.xrp n ∧ M.iss = L.iss) l L L'
    (fun _ _ _ _ _ h1 ht => ⟨transfer_owes ht h1.1, (Ledger.transfer_ok ht).2.1.trans h1.2⟩) ⟨ho, rfl⟩ h

/-- The settlement of an ordinary transaction's fee. -/
theorem signed_settle {c : Cfg} {s : St} {who corrected paid : Nat} (ho : Owes s.dex.led c.xrp paid)
    (hi : s.dex.led.iss c.xrp * 2 < U128) :
    (∀ y, (settleSigned c s who corrected paid).xrp c y = s.xrp c y + (if y = who then paid - corrected else 0)
        + (if y = c.pot then min paid corrected else 0)) ∧
      (∀ a, a ≠ c.xrp → (settleSigned c s who corrected paid).dex.led.bal a = s.dex.led.bal a) ∧
      (settleSigned c s who corrected paid).dex.led.iss = s.dex.led.iss ∧
      (s.era + min paid corrected < U128 →
        (settleSigned c s who corrected paid).era = s.era + min paid corrected) := by
  obtain ⟨e1, o1, i1, f1, b1⟩ := credit_exact (who := who) (v := paid - corrected) ho (by omega) hi
  have hm : paid - (paid - corrected) = min paid corrected := by omega
  obtain ⟨p1, p2, p3, p4, p5⟩ := pot_owes (era := s.era) (v := paid - (paid - corrected)) o1 (Nat.le_refl _)
    (by rw [i1]; exact hi)
  unfold settleSigned
  dsimp only [St.withLed, St.xrp]
  rw [e1]
  rw [hm] at p1 p2 p3 p4 p5 ⊢
  exact ⟨fun y => by rw [p1 y, b1 y], fun a ha => by rw [p2 a ha, f1 a ha], p3.trans i1, p5⟩

end Verif.EvmMoney
