import Verif.EvmMoney.Inv

/-!
A swap made while part of the XRP supply is outstanding (an EVM call inside a signed transaction whose
fee was already withdrawn) behaves as it would if the issuance had already been settled: swaps read the
issuance of liquidity tokens only.
-/

namespace Verif.EvmMoney
open Verif.Dex (sat128 poolAddr mkPair Pair)

/-- The ledger with another issuance of `a`. -/
def reL (a : AssetId) (m : Nat) (L : Ledger) : Ledger := { L with iss := upd L.iss a m }

/-- The exchange with another issuance of `a`. -/
def re (a : AssetId) (m : Nat) (s : Dex.St) : Dex.St := { s with led := reL a m s.led }

theorem transfer_re {a b : AssetId} {m : Nat} {L L' : Ledger} {x y : Acct} {v : Nat}
    (h : L.transfer b x y v = .ok L') : (reL a m L).transfer b x y v = .ok (reL a m L') := by
  unfold Ledger.transfer at h ⊢
  split at h
  · rename_i hx
    cases h
    rw [if_pos (show v ≤ (reL a m L).bal b x from hx)]
    rfl
  · cases h

theorem mint_re {a b : AssetId} (hb : b ≠ a) {m : Nat} {L L' : Ledger} {y : Acct} {v : Nat}
    (h : L.mint b y v = .ok L') : (reL a m L).mint b y v = .ok (reL a m L') := by
  have e : (reL a m L).iss b = L.iss b := upd_ne _ _ hb
  unfold Ledger.mint at h ⊢
  split at h
  · rename_i hx
    cases h
    rw [e, if_pos hx]
    congr 1
    unfold reL
    simp only [Ledger.mk.injEq, true_and]
    funext t
    simp only [upd_apply]
    split <;> split <;> simp_all
  · cases h

theorem mintFee_re {a l : AssetId} (hl : l ≠ a) {m : Nat} {s : Dex.St} {r0 r1 : Nat} {r : Dex.St × Bool}
    (h : Dex.mintFee s l r0 r1 = .ok r) : Dex.mintFee (re a m s) l r0 r1 = .ok (re a m r.1, r.2) := by
  have e : (re a m s).led.iss l = s.led.iss l := upd_ne _ _ hl
  unfold Dex.mintFee at h ⊢
  rw [e]
  have e2 : (re a m s).feeTo = s.feeTo := rfl
  have e3 : (re a m s).lastK = s.lastK := rfl
  rw [e2, e3]
  split at h
  · rename_i f hf
    by_cases h1 : s.lastK l ≠ 0
    · rw [if_pos h1] at h
      simp only [hf, if_pos h1]
      by_cases h2 : Nat.sqrt (min (r0 * r1) (U256 - 1)) > Nat.sqrt (s.lastK l)
      · rw [if_pos h2] at h
        rw [if_pos h2]
        simp only [bind_ok] at h ⊢
        obtain ⟨liq, h3, h⟩ := h
        refine ⟨liq, h3, ?_⟩
        by_cases h4 : 0 < liq
        · rw [if_pos h4] at h ⊢
          simp only [bind_ok, pure_ok] at h ⊢
          obtain ⟨L, h5, rfl⟩ := h
          exact ⟨_, mint_re hl h5, by simp [re, hf]⟩
        · rw [if_neg h4] at h ⊢
          simp only [pure_ok] at h ⊢
          subst h; rfl
      · rw [if_neg h2] at h
        rw [if_neg h2]
        cases h; rfl
    · rw [if_neg h1] at h
      simp only [hf, if_neg h1]
      cases h; rfl
  · rename_i hf
    simp only [hf]
    by_cases h1 : s.lastK l ≠ 0
    · rw [if_pos h1] at h ⊢
      cases h; simp [re, hf]
    · rw [if_neg h1] at h ⊢
      cases h; rfl

theorem collectFee_re {a : AssetId} {m : Nat} {s s' : Dex.St} {p : Pair} (hl : s.lp p ≠ some a)
    (h : Dex.collectFee s p = .ok s') : Dex.collectFee (re a m s) p = .ok (re a m s') := by
  unfold Dex.collectFee at h ⊢
  have e2 : (re a m s).feeTo = s.feeTo := rfl
  have e3 : (re a m s).lp = s.lp := rfl
  have e4 : (re a m s).res = s.res := rfl
  rw [e2, e3, e4]
  split at h
  · cases h; rfl
  · simp only [bind_ok, okOr_ok] at h ⊢
    obtain ⟨l, h1, sf, h2, h⟩ := h
    refine ⟨l, h1, _, mintFee_re (by rintro rfl; exact hl h1) h2, ?_⟩
    cases hb : sf.2 with
    | false =>
      rw [hb, if_neg (by simp)] at h
      simp only [pure_ok] at h
      rw [if_neg (by simp), h]
      rfl
    | true =>
      rw [hb, if_pos rfl] at h
      simp only [pure_ok] at h
      rw [if_pos rfl, ← h]
      rfl

theorem swapHop_re {c : Dex.Cfg} {a : AssetId} {m : Nat} {s s' : Dex.St} {i o : AssetId} {out : Nat} {dst : Acct}
    (hl : ∀ p, s.lp p ≠ some a) (h : Dex.swapHop c s i o out dst = .ok s') :
    Dex.swapHop c (re a m s) i o out dst = .ok (re a m s') ∧ s'.lp = s.lp := by
  refine ⟨?_, (Dex.swapHop_frame h).2.1⟩
  unfold Dex.swapHop at h ⊢
  simp only [bind_ok, ensure_ok] at h ⊢
  obtain ⟨u1, h1, u2, h2, u3, h3, L1, h4, L2, h5, u4, h6, h7⟩ := h
  refine ⟨u1, h1, u2, h2, u3, h3, reL a m L1, ?_, reL a m L2, ?_, u4, h6, by apply collectFee_re (h := h7); exact hl _⟩
  · revert h4
    generalize (if i = (mkPair i o).1 then 0 else out) = o0
    intro h4
    split at h4
    · rename_i hp; rw [if_pos hp]; exact transfer_re h4
    · rename_i hp; rw [if_neg hp]; cases h4; rfl
  · revert h5
    generalize (if i = (mkPair i o).1 then out else 0) = o1
    intro h5
    split at h5
    · rename_i hp; rw [if_pos hp]; exact transfer_re h5
    · rename_i hp; rw [if_neg hp]; cases h5; rfl

theorem swapLoop_re {c : Dex.Cfg} {a : AssetId} {m : Nat} {dst : Acct} :
    ∀ (amts : List Nat) (path : List AssetId) (s s' : Dex.St), (∀ p, s.lp p ≠ some a) →
      Dex.swapLoop c s dst amts path = .ok s' → Dex.swapLoop c (re a m s) dst amts path = .ok (re a m s')
  | [], path, s, s', hl, h => by simp only [Dex.swapLoop] at h ⊢; cases h; rfl
  | [x], path, s, s', hl, h => by simp only [Dex.swapLoop] at h ⊢; cases h; rfl
  | _ :: _ :: _, [], s, s', hl, h => by simp only [Dex.swapLoop] at h ⊢; cases h; rfl
  | _ :: _ :: _, [_], s, s', hl, h => by simp only [Dex.swapLoop] at h ⊢; cases h; rfl
  | x :: out :: amts, i :: o :: rest, s, s', hl, h => by
    simp only [Dex.swapLoop, bind_ok] at h ⊢
    obtain ⟨s1, h1, h2⟩ := h
    obtain ⟨h3, h4⟩ := swapHop_re (m := m) hl h1
    exact ⟨_, h3, swapLoop_re (out :: amts) (o :: rest) s1 s' (by rw [h4]; exact hl) h2⟩

theorem amountsOutLoop_re {c : Dex.Cfg} {a : AssetId} {m : Nat} {s : Dex.St} :
    ∀ (path : List AssetId) (i : Nat), Dex.amountsOutLoop c (re a m s) i path = Dex.amountsOutLoop c s i path
  | [], _ => rfl
  | [_], _ => rfl
  | x :: y :: rest, i => by
    simp only [Dex.amountsOutLoop]
    have : ∀ j, Dex.amountsOutLoop c (re a m s) j (y :: rest) = Dex.amountsOutLoop c s j (y :: rest) :=
      fun j => amountsOutLoop_re (y :: rest) j
    simp only [this]
    rfl

theorem swapSupply_re {c : Dex.Cfg} {a : AssetId} {m : Nat} {s s' : Dex.St} {who dst : Acct} {i mn : Nat}
    {path : List AssetId} {dl : Option Nat} (hl : ∀ p, s.lp p ≠ some a)
    (h : Dex.swapExactSupply c s who i mn path dst dl = .ok s') :
    Dex.swapExactSupply c (re a m s) who i mn path dst dl = .ok (re a m s') := by
  unfold Dex.swapExactSupply at h ⊢
  simp only [bind_ok, ensure_ok] at h ⊢
  obtain ⟨u, h1, amts, h2, u2, h3, h4⟩ := h
  refine ⟨u, h1, amts, ?_, u2, h3, ?_⟩
  · unfold Dex.getAmountsOut at h2 ⊢
    rw [amountsOutLoop_re]
    exact h2
  · revert h4
    match path with
    | [] => intro h; cases h
    | [_] => intro h; cases h
    | x :: y :: rest =>
      intro h4
      simp only [Dex.payAndSwap, bind_ok] at h4 ⊢
      obtain ⟨L, h5, h6⟩ := h4
      exact ⟨_, transfer_re h5, swapLoop_re amts (x :: y :: rest) { s with led := L } s' hl h6⟩

end Verif.EvmMoney
