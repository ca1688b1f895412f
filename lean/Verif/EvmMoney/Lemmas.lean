import Verif.EvmMoney.Model
import Verif.Dex.Props
import Verif.Dex.Limits

namespace Verif.EvmMoney
open Verif.Dex (sat128 sat128_le)

/-! ### scaling -/

theorem asU128_ok {x y : Nat} : asU128 x = .ok y ↔ x < U128 ∧ y = x := by
  unfold asU128; split <;> simp_all [eq_comm]

theorem asU128_err {x : Nat} {e : Err} : asU128 x = .error e ↔ U128 ≤ x ∧ e = "Panic" := by
  unfold asU128; split
  · simp; omega
  · simp [eq_comm]; omega

theorem unitOf_ok {d u : Nat} : unitOf d = .ok u ↔ d ≤ 18 ∧ u = 10 ^ (18 - d) := by
  unfold unitOf; split <;> simp_all [eq_comm]

theorem unit_pos (d : Nat) : 0 < 10 ^ (18 - d) := Nat.pow_pos (by norm_num)

/-- The smallest number of units of size `u` that covers `v`. -/
theorem ceil_eq {v u q : Nat} (hu : 0 < u) :
    (if v % u = 0 then v / u else v / u + 1) = q ↔ v ≤ q * u ∧ q * u < v + u := by
  have hd := Nat.div_add_mod v u
  have hm := Nat.mod_lt v hu
  constructor
  · intro h
    subst h
    split
    · rename_i h0
      rw [Nat.mul_comm]
      omega
    · rename_i h0
      rw [Nat.add_mul, Nat.mul_comm (v / u) u]
      omega
  · rintro ⟨h1, h2⟩
    split
    · rename_i h0
      have e : v = u * (v / u) := by omega
      rw [e, Nat.mul_comm u] at h1
      rw [e, Nat.mul_comm u] at h2
      have a := Nat.le_of_mul_le_mul_right h1 hu
      have b : q * u < (v / u + 1) * u := by rw [Nat.add_mul]; omega
      have := Nat.lt_of_mul_lt_mul_right b
      omega
    · rename_i h0
      have a : v / u * u < q * u := by rw [Nat.mul_comm (v / u)]; omega
      have a' := Nat.lt_of_mul_lt_mul_right a
      have b : q * u < (v / u + 2) * u := by
        rw [Nat.add_mul, Nat.mul_comm (v / u)]; omega
      have := Nat.lt_of_mul_lt_mul_right b
      omega

theorem weiTo_ok {v d x : Nat} : weiTo v d = .ok x ↔
    d ≤ 18 ∧ x < U128 ∧ v ≤ x * 10 ^ (18 - d) ∧ x * 10 ^ (18 - d) < v + 10 ^ (18 - d) := by
  have hu := unit_pos d
  constructor
  · intro h
    unfold weiTo at h
    simp only [bind_ok, unitOf_ok] at h
    obtain ⟨u, ⟨hd, rfl⟩, h⟩ := h
    have : asU128 (if v % 10 ^ (18 - d) = 0 then v / 10 ^ (18 - d) else v / 10 ^ (18 - d) + 1) = .ok x := by
      split at h <;> simp_all
    obtain ⟨hx, e⟩ := asU128_ok.mp this
    exact ⟨hd, e ▸ hx, (ceil_eq hu).mp e.symm⟩
  · rintro ⟨hd, hx, h⟩
    unfold weiTo
    simp only [bind_ok, unitOf_ok]
    refine ⟨_, ⟨hd, rfl⟩, ?_⟩
    have := (ceil_eq hu).mpr h
    split at this
    · rename_i h0; rw [if_pos h0]; exact asU128_ok.mpr ⟨this ▸ hx, this.symm⟩
    · rename_i h0; rw [if_neg h0]; exact asU128_ok.mpr ⟨this ▸ hx, this.symm⟩

theorem toWei_ok {v d w : Nat} : toWei v d = .ok w ↔ d ≤ 18 ∧ w < U128 ∧ w = v * 10 ^ (18 - d) := by
  unfold toWei
  simp only [bind_ok, unitOf_ok]
  constructor
  · rintro ⟨u, ⟨hd, rfl⟩, h⟩
    obtain ⟨a, b⟩ := asU128_ok.mp h
    exact ⟨hd, b ▸ a, b⟩
  · rintro ⟨hd, h, e⟩
    exact ⟨_, ⟨hd, rfl⟩, asU128_ok.mpr ⟨e ▸ h, e⟩⟩

theorem toDrops_ok {v x : Nat} : toDrops v = .ok x ↔
    x < U128 ∧ v ≤ x * 1000000000000 ∧ x * 1000000000000 < v + 1000000000000 := by
  unfold toDrops
  rw [weiTo_ok]
  simp

theorem toWei6_ok {v w : Nat} : toWei6 v = .ok w ↔ w < U128 ∧ w = v * 1000000000000 := by
  unfold toWei6
  rw [toWei_ok]
  simp

theorem toDrops_of_lt {v : Nat} (h : v < U128) : ∃ x, toDrops v = .ok x := by
  obtain ⟨q, hq⟩ : ∃ q, (if v % 1000000000000 = 0 then v / 1000000000000 else v / 1000000000000 + 1) = q := ⟨_, rfl⟩
  have := (ceil_eq (by norm_num)).mp hq
  refine ⟨q, toDrops_ok.mpr ⟨?_, this⟩⟩
  simp only [U128] at h ⊢
  omega

theorem toDrops_exact {x : Nat} (h : x < U128) : toDrops (x * 1000000000000) = .ok x :=
  toDrops_ok.mpr ⟨h, Nat.le_refl _, by omega⟩

theorem toDrops_zero : toDrops 0 = .ok 0 := toDrops_exact (x := 0) (by simp [U128])

theorem toDrops_err {v : Nat} {e : Err} (h : toDrops v = .error e) : e = "Panic" ∧ U128 ≤ v := by
  constructor
  · unfold toDrops weiTo unitOf at h
    simp only [show (6 : Nat) ≤ 18 from by norm_num, if_true, bind, Except.bind] at h
    split at h <;> exact (asU128_err.mp h).2
  · by_contra hc
    obtain ⟨x, hx⟩ := toDrops_of_lt (by omega : v < U128)
    rw [hx] at h; cases h

theorem toWei6_err {v : Nat} {e : Err} (h : toWei6 v = .error e) : e = "Panic" ∧ U128 ≤ v * 1000000000000 := by
  have hu : unitOf 6 = .ok 1000000000000 := unitOf_ok.mpr ⟨by omega, by norm_num⟩
  unfold toWei6 toWei at h
  rw [bind_err] at h
  rcases h with h | ⟨u, h1, h2⟩
  · rw [hu] at h; cases h
  · have e : u = 1000000000000 := by
      have := h1.symm.trans hu
      injection this
    rw [e] at h2
    have := asU128_err.mp h2
    exact ⟨this.2, this.1⟩

theorem sat128_lt (x : Nat) : sat128 x < U128 := by
  have : 0 < U128 := by simp [U128]
  unfold sat128; omega

theorem sat128_of_lt {x : Nat} (h : x < U128) : sat128 x = x := by
  unfold sat128; omega

/-! ### ledger with an outstanding withdrawal -/

/-- All balances add up to the issuance, except that `n` of asset `a` has been withdrawn and is not
accounted for yet. -/
def Owes (L : Ledger) (a : AssetId) (n : Nat) : Prop :=
  (∃ m, TotalIs (L.bal a) m ∧ m + n = L.iss a) ∧ L.iss a < U128 ∧
    ∀ b, b ≠ a → TotalIs (L.bal b) (L.iss b) ∧ L.iss b < U128

theorem owes_zero {L : Ledger} {a : AssetId} : Owes L a 0 ↔ L.Sound := by
  constructor
  · rintro ⟨⟨m, h1, h2⟩, h3, h4⟩ b
    by_cases hb : b = a
    · subst hb
      rw [Nat.add_zero] at h2; subst h2
      exact ⟨h1, h3⟩
    · exact h4 b hb
  · intro h
    exact ⟨⟨_, (h a).1, rfl⟩, (h a).2, fun b _ => h b⟩

theorem debit_ok {L L' : Ledger} {a : AssetId} {who : Acct} {v : Nat} (h : debit L a who v = .ok L') :
    v ≤ L.bal a who ∧ L'.iss = L.iss ∧ (∀ b, b ≠ a → L'.bal b = L.bal b) ∧
    (∀ y, L'.bal a y + (if y = who then v else 0) = L.bal a y) := by
  unfold debit at h
  split at h
  · rename_i hx
    cases h
    refine ⟨hx, rfl, fun b hb => upd_ne _ _ hb, ?_⟩
    intro y
    simp only [upd_same, upd_apply]
    split <;> simp_all
  · cases h

theorem debit_owes {L L' : Ledger} {a : AssetId} {who : Acct} {v n : Nat} (h : debit L a who v = .ok L')
    (ho : Owes L a n) : Owes L' a (n + v) := by
  obtain ⟨⟨m, h1, h2⟩, h3, h4⟩ := ho
  unfold debit at h
  split at h
  · rename_i hx
    cases h
    refine ⟨⟨m - v, ?_, ?_⟩, h3, ?_⟩
    · simp only [upd_same]; exact h1.upd_sub who v hx
    · have := h1.le who
      show m - v + (n + v) = L.iss a
      omega
    · intro b hb; simp only [upd_ne _ _ hb]; exact h4 b hb
  · cases h

theorem debitKeep_ok {L L' : Ledger} {a : AssetId} {who : Acct} {v : Nat}
    (h : debitKeep L a who v = .ok L') : v + 1 ≤ L.bal a who ∧ debit L a who v = .ok L' := by
  unfold debitKeep at h
  split at h
  · exact ⟨by assumption, h⟩
  · cases h

theorem credit_spec (L : Ledger) (a : AssetId) (who : Acct) (v : Nat) :
    (credit L a who v).1.iss = L.iss ∧ (∀ b, b ≠ a → (credit L a who v).1.bal b = L.bal b) ∧
    (∀ y, (credit L a who v).1.bal a y = L.bal a y + (if y = who then (credit L a who v).2 else 0)) ∧
    (credit L a who v).2 ≤ v ∧
    ((credit L a who v).2 ≠ 0 → (credit L a who v).2 = v ∧ L.iss a + v < U128) := by
  unfold credit
  split
  · refine ⟨rfl, fun b hb => upd_ne _ _ hb, ?_, Nat.le_refl _, fun _ => ⟨rfl, by tauto⟩⟩
    intro y
    simp only [upd_same, upd_apply]
    split <;> simp_all
  · refine ⟨rfl, fun _ _ => rfl, ?_, Nat.zero_le _, fun h => absurd rfl h⟩
    intro y; simp

theorem credit_owes {L : Ledger} {a : AssetId} {who : Acct} {v n : Nat}
    (ho : Owes L a n) (hn : (credit L a who v).2 ≤ n) :
    Owes (credit L a who v).1 a (n - (credit L a who v).2) := by
  obtain ⟨⟨m, h1, h2⟩, h3, h4⟩ := ho
  revert hn
  unfold credit
  split
  · intro hn
    simp only at hn
    refine ⟨⟨m + v, ?_, ?_⟩, h3, ?_⟩
    · simp only [upd_same]; exact h1.upd_add who v
    · simp only; omega
    · intro b hb; simp only [upd_ne _ _ hb]; exact h4 b hb
  · intro _
    exact ⟨⟨m, h1, h2⟩, h3, h4⟩

theorem dropNeg_owes {L : Ledger} {a : AssetId} {v n : Nat} (ho : Owes L a n) (hv : v ≤ n) :
    Owes (dropNeg L a v) a (n - v) := by
  obtain ⟨⟨m, h1, h2⟩, h3, h4⟩ := ho
  refine ⟨⟨m, h1, ?_⟩, ?_, ?_⟩
  · simp only [dropNeg, upd_same]; omega
  · simp only [dropNeg, upd_same]; omega
  · intro b hb; simp only [dropNeg, upd_ne _ _ hb]; exact h4 b hb

/-- A deposit whose positive imbalance is dropped at once leaves the outstanding amount alone. -/
theorem creditDrop_owes {L : Ledger} {a : AssetId} {who : Acct} {v n : Nat} (ho : Owes L a n) :
    Owes (dropPos (credit L a who v).1 a (credit L a who v).2) a n := by
  obtain ⟨⟨m, h1, h2⟩, h3, h4⟩ := ho
  unfold credit
  split
  · rename_i hx
    have e : sat128 (L.iss a + v) = L.iss a + v := sat128_of_lt hx.2
    refine ⟨⟨m + v, ?_, ?_⟩, ?_, ?_⟩
    · simp only [dropPos, upd_same]; exact h1.upd_add who v
    · simp only [dropPos, upd_same, e]; omega
    · simp only [dropPos, upd_same, e]; exact hx.2
    · intro b hb; simp only [dropPos, upd_ne _ _ hb]; exact h4 b hb
  · have e : sat128 (L.iss a + 0) = L.iss a := sat128_of_lt h3
    refine ⟨⟨m, h1, ?_⟩, ?_, ?_⟩
    · simp only [dropPos, upd_same, e]; exact h2
    · simp only [dropPos, upd_same, e]; exact h3
    · intro b hb; simp only [dropPos, upd_ne _ _ hb]; exact h4 b hb

theorem transfer_owes {L L' : Ledger} {a : AssetId} {x y : Acct} {v n : Nat}
    (h : L.transfer a x y v = .ok L') (ho : Owes L a n) : Owes L' a n := by
  obtain ⟨⟨m, h1, h2⟩, h3, h4⟩ := ho
  have hi := (Ledger.transfer_ok h).2.1
  refine ⟨⟨m, Ledger.transfer_total h a h1, by rw [hi]; exact h2⟩, by rw [hi]; exact h3, ?_⟩
  intro b hb
  rw [hi]
  exact ⟨Ledger.transfer_total h b (h4 b hb).1, (h4 b hb).2⟩

/-! ### what fee handling does to balances -/

/-- The pot's share arrives: balances grow only at the pot, by at most `v`. -/
theorem potReceive_spec (c : Cfg) (L : Ledger) (era v : Nat) :
    (∀ b, b ≠ c.xrp → (potReceive c L era v).1.bal b = L.bal b ∧ (potReceive c L era v).1.iss b = L.iss b) ∧
    (∃ got, got ≤ v ∧ (∀ y, (potReceive c L era v).1.bal c.xrp y = L.bal c.xrp y + (if y = c.pot then got else 0)) ∧
      (L.bal c.xrp c.pot + v < U128 → L.iss c.xrp + v < U128 → got = v ∧ (potReceive c L era v).1.iss = L.iss)) ∧
    (v = 0 → (potReceive c L era v).2 = era) ∧ (v ≠ 0 → (potReceive c L era v).2 = (era + v) % U128) := by
  unfold potReceive
  split
  · rename_i h0
    refine ⟨fun _ _ => ⟨rfl, rfl⟩, ⟨0, Nat.zero_le _, by simp, fun _ _ => ⟨h0.symm, rfl⟩⟩, fun _ => rfl, fun h => absurd h0 h⟩
  · rename_i h0
    obtain ⟨h1, h2, h3, h4, h5⟩ := credit_spec L c.xrp c.pot v
    refine ⟨?_, ⟨(credit L c.xrp c.pot v).2, h4, ?_, ?_⟩, fun h => absurd h h0, fun _ => rfl⟩
    · intro b hb
      refine ⟨h2 b hb, ?_⟩
      simp only [dropNeg, dropPos, upd_ne _ _ hb, h1]
    · intro y; exact h3 y
    · intro hb hi
      have e : credit L c.xrp c.pot v = ({ L with bal := upd L.bal c.xrp (upd (L.bal c.xrp) c.pot (L.bal c.xrp c.pot + v)) }, v) := by
        unfold credit; rw [if_pos ⟨hb, hi⟩]
      refine ⟨by rw [e], ?_⟩
      rw [e]
      simp only [dropNeg, dropPos, upd_same, sat128_of_lt hi, Nat.add_sub_cancel]
      funext b
      by_cases hb : b = c.xrp
      · subst hb; simp
      · simp [upd_ne _ _ hb]

theorem potReceive_owes {c : Cfg} {L : Ledger} {era v n : Nat} (ho : Owes L c.xrp n) (hv : v ≤ n) :
    Owes (potReceive c L era v).1 c.xrp (n - v) := by
  unfold potReceive
  split
  · rename_i h0; subst h0; exact ho
  · exact dropNeg_owes (creditDrop_owes ho) hv

/-! ### EVM transfers -/

theorem evmTransfer_ok {c : Cfg} {L L' : Ledger} {x y : Acct} {w : Nat}
    (h : evmTransfer c L x y w = .ok L') :
    (w = 0 ∧ L' = L) ∨ ∃ v, 0 < w ∧ toDrops w = .ok v ∧ L.transfer c.xrp x y v = .ok L' := by
  unfold evmTransfer at h
  split at h
  · cases h; exact .inl ⟨by assumption, rfl⟩
  · simp only [bind_ok] at h
    obtain ⟨v, h1, h2⟩ := h
    exact .inr ⟨v, by omega, h1, h2⟩

/-- A property of ledgers kept by every XRP transfer out of the listed sources is kept by a run. -/
theorem evmTransfers_ind {c : Cfg} (R : Ledger → Prop) :
    ∀ (l : List (Acct × Acct × Nat)) (L L' : Ledger),
      (∀ p ∈ l, ∀ L1 L2 v, R L1 → L1.transfer c.xrp p.1 p.2.1 v = .ok L2 → R L2) → R L →
      evmTransfers c L l = .ok L' → R L'
  | [], L, L', _, h0, h => by cases h; exact h0
  | (x, y, w) :: rest, L, L', hs, h0, h => by
    simp only [evmTransfers, bind_ok] at h
    obtain ⟨L1, h1, h2⟩ := h
    refine evmTransfers_ind R rest L1 L' (fun p hp => hs p (List.mem_cons_of_mem _ hp)) ?_ h2
    rcases evmTransfer_ok h1 with ⟨_, rfl⟩ | ⟨v, _, _, ht⟩
    · exact h0
    · exact hs (x, y, w) List.mem_cons_self _ _ v h0 ht

theorem dropTransfers_ind {c : Cfg} (R : Ledger → Prop) :
    ∀ (l : List (Acct × Acct × Nat)) (L L' : Ledger),
      (∀ p ∈ l, ∀ L1 L2 v, R L1 → L1.transfer c.xrp p.1 p.2.1 v = .ok L2 → R L2) → R L →
      dropTransfers c L l = .ok L' → R L'
  | [], L, L', _, h0, h => by cases h; exact h0
  | (x, y, w) :: rest, L, L', hs, h0, h => by
    simp only [dropTransfers, bind_ok] at h
    obtain ⟨L1, h1, h2⟩ := h
    exact dropTransfers_ind R rest L1 L' (fun p hp => hs p (List.mem_cons_of_mem _ hp))
      (hs (x, y, w) List.mem_cons_self _ _ w h0 h1) h2

theorem evmBody_ok {c : Cfg} {L L' : Ledger} {l : List (Acct × Acct × Nat)} {r : Bool}
    (h : evmBody c L l r = .ok L') : L' = L ∨ (r = false ∧ evmTransfers c L l = .ok L') := by
  unfold evmBody at h
  split at h
  · rename_i L1 h1
    split at h
    · cases h; exact .inl rfl
    · rename_i hr; cases h; exact .inr ⟨by simpa using hr, h1⟩
  · split at h
    · cases h
    · cases h; exact .inl rfl

theorem evmBody_ind {c : Cfg} (R : Ledger → Prop) {L L' : Ledger} {l : List (Acct × Acct × Nat)} {r : Bool}
    (hs : ∀ p ∈ l, ∀ L1 L2 v, R L1 → L1.transfer c.xrp p.1 p.2.1 v = .ok L2 → R L2) (h0 : R L)
    (h : evmBody c L l r = .ok L') : R L' := by
  rcases evmBody_ok h with rfl | ⟨_, h⟩
  · exact h0
  · exact evmTransfers_ind R l L L' hs h0 h

theorem withdrawFee_ok {c : Cfg} {L : Ledger} {who : Acct} {fee : Nat} {r : Ledger × Option Nat}
    (h : withdrawFee c L who fee = .ok r) :
    (fee = 0 ∧ r = (L, none)) ∨
    ∃ v L1, 0 < fee ∧ r = (L1, some v) ∧ toDrops (sat128 fee) = .ok v ∧ debit L c.xrp who v = .ok L1 := by
  unfold withdrawFee at h
  split at h
  · cases h; exact .inl ⟨by assumption, rfl⟩
  · simp only [bind_ok, pure_ok] at h
    obtain ⟨v, h1, L1, h2, e⟩ := h
    exact .inr ⟨v, L1, by omega, e.symm, h1, h2⟩

/-- Fee correction as one statement: the refund goes back, the pot gets its share, the rest is the tip. -/
theorem correctFee_ok {c : Cfg} {L L' : Ledger} {era era' who corrected base paid tip : Nat}
    (h : correctFee c L era who corrected base paid = .ok (L', era', tip)) :
    ∃ r6 base6, paid * 1000000000000 < U128 ∧
      toDrops (paid * 1000000000000 - sat128 corrected) = .ok r6 ∧ r6 ≤ paid ∧
      toDrops (sat128 base) = .ok base6 ∧
      (credit L c.xrp who r6).2 ≤ paid ∧
      (L', era') = potReceive c (credit L c.xrp who r6).1 era (min (paid - (credit L c.xrp who r6).2) base6) ∧
      tip = paid - (credit L c.xrp who r6).2 - min (paid - (credit L c.xrp who r6).2) base6 := by
  unfold correctFee at h
  simp only [bind_ok, pure_ok] at h
  obtain ⟨p18, hp, r6, hr, base6, hb, e⟩ := h
  obtain ⟨h1, rfl⟩ := toWei6_ok.mp hp
  have h6 : r6 ≤ paid := by
    have := (toDrops_ok.mp hr).2.2
    omega
  have hc := (credit_spec L c.xrp who r6).2.2.2.1
  have hle : (credit L c.xrp who r6).2 ≤ paid := Nat.le_trans hc h6
  rw [if_pos hle] at e
  simp only [Prod.mk.injEq] at e
  obtain ⟨e1, e2, e3⟩ := e
  exact ⟨r6, base6, h1, hr, h6, hb, hle, by rw [← e1, ← e2], e3.symm⟩

theorem payTip_ok {c : Cfg} {L L' : Ledger} {author tip : Nat} (h : payTip c L author tip = .ok L') :
    tip * 1000000000000 < U128 ∧
    L' = dropNeg (dropPos (credit L c.xrp author tip).1 c.xrp (credit L c.xrp author tip).2) c.xrp tip := by
  unfold payTip at h
  simp only [bind_ok, pure_ok] at h
  obtain ⟨t18, h1, t6, h2, e⟩ := h
  obtain ⟨h3, rfl⟩ := toWei6_ok.mp h1
  have : tip < U128 := by omega
  rw [toDrops_exact this] at h2
  cases h2
  exact ⟨h3, e.symm⟩

theorem correctFee_owes {c : Cfg} {L L' : Ledger} {era era' who corrected base paid tip : Nat}
    (h : correctFee c L era who corrected base paid = .ok (L', era', tip)) (ho : Owes L c.xrp paid) :
    Owes L' c.xrp tip := by
  obtain ⟨r6, base6, _, _, _, _, hle, e, rfl⟩ := correctFee_ok h
  have h1 := credit_owes ho hle
  have h2 := potReceive_owes (era := era) h1 (Nat.min_le_left _ base6)
  rw [← e] at h2
  exact h2

theorem payTip_owes {c : Cfg} {L L' : Ledger} {author tip : Nat} (h : payTip c L author tip = .ok L')
    (ho : Owes L c.xrp tip) : Owes L' c.xrp 0 := by
  obtain ⟨_, rfl⟩ := payTip_ok h
  have := dropNeg_owes (creditDrop_owes (who := author) (v := tip) ho) (Nat.le_refl tip)
  rwa [Nat.sub_self] at this

end Verif.EvmMoney
