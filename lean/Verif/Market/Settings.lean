import Verif.Market.Props

/-!
# C231: what root sets for the marketplace takes effect and stays; so do registered marketplaces
-/

namespace Verif.Market

/-- Who gets the network's fee, and the marketplaces in order of registration with their account and share. -/
structure Settings where
  feeTo : Option Acct
  next : Nat
  markets : Nat → Option (Acct × Nat)

/-- Root's word about the fee; whoever registers a marketplace gets the next number. -/
def said (k : Settings) : Op → Settings
  | .setFeeTo f => { k with feeTo := f }
  | .registerMarket w a p =>
    if p ≤ 1000000 ∧ k.next + 1 < U32 then { k with
      next := k.next + 1
      markets := fun i => if i = k.next then some (a.getD w, p) else k.markets i }
    else k
  | _ => k

/-- What is in force. -/
def inForce (s : St) : Settings := ⟨s.feeTo, s.nextMarket, s.markets⟩

theorem lockTokens_force {s s' : St} {who : Acct} {i : Nat} {t : Tokens} (h : lockTokens s who i t = .ok s') :
    inForce s' = inForce s := by
  cases t <;> simp only [lockTokens, bind_ok, pure_ok] at h <;> obtain ⟨_, _, h⟩ := h <;> subst h <;> rfl

theorem unlockTokens_force {s s' : St} {who : Acct} {t : Tokens} (h : unlockTokens s who t = .ok s') :
    inForce s' = inForce s := by
  cases t with
  | nft id ns => cases h; rfl
  | sft id xs =>
    simp only [unlockTokens, bind_ok, pure_ok] at h
    obtain ⟨_, _, h⟩ := h
    subst h
    rfl

theorem unlockSoft_force (s : St) (who : Acct) (t : Tokens) : inForce (unlockSoft s who t) = inForce s := by
  cases t <;> rfl

theorem unlockTransfer_force {c : Cfg} {s s' : St} {src dst : Acct} {t : Tokens} (h : unlockTransfer c s src dst t = .ok s') :
    inForce s' = inForce s := by
  cases t <;> simp only [unlockTransfer, bind_ok, pure_ok] at h <;> obtain ⟨_, _, _, _, h⟩ := h <;> subst h <;> rfl

theorem buy_force {c : Cfg} {s s' : St} {who : Acct} {i : Nat} (h : buy c s who i = .ok s') : inForce s' = inForce s := by
  simp only [buy, bind_ok] at h
  obtain ⟨_, _, _, _, _, _, _, _, h⟩ := h
  exact (unlockTransfer_force h).trans rfl

theorem buyMulti_force {c : Cfg} {who : Acct} : ∀ (is : List Nat) {s s' : St}, buyMulti c who is s = .ok s' →
    inForce s' = inForce s
  | [], _, _, h => by cases h; rfl
  | i :: is, s, s', h => by
    simp only [buyMulti, bind_ok] at h
    obtain ⟨s1, h1, h⟩ := h
    exact (buyMulti_force is h).trans (buy_force h1)

theorem extend_force (s : St) (i : Nat) (l : Listing) : inForce (extend s i l) = inForce s := by
  unfold extend
  split <;> rfl

theorem removeOffer_force {s s' : St} {i id n : Nat} (h : removeOffer s i id n = .ok s') : inForce s' = inForce s := by
  simp only [removeOffer, bind_ok, pure_ok] at h
  obtain ⟨_, _, h⟩ := h
  subst h
  rfl

theorem settle_force {c : Cfg} {s s' : St} {b o : Acct} {a : AssetId} {t : Tokens} {x : Nat} {r : List (Acct × Nat)}
    (h : settle c s b o a t x r = .ok s') : inForce s' = inForce s := by
  simp only [settle, bind_ok] at h
  obtain ⟨_, _, h⟩ := h
  exact (unlockTransfer_force h).trans rfl

theorem unlist_force (s : St) (id n : Nat) : inForce (unlist s id n) = inForce s := by
  unfold unlist
  split <;> rfl

theorem closeAuction_force (c : Cfg) (s : St) (i : Nat) (l : Listing) : inForce (closeAuction c s i l) = inForce s := by
  unfold closeAuction
  split
  · exact unlockSoft_force _ _ _
  · split
    · rename_i h
      exact (settle_force h).trans rfl
    · unfold releaseSoft
      split <;> rfl

theorem closeOne_force (c : Cfg) (s : St) (i : Nat) : inForce (closeOne c s i) = inForce s := by
  unfold closeOne
  split
  · rfl
  · split
    · exact (closeAuction_force c _ i _).trans rfl
    · exact (unlockSoft_force _ _ _).trans rfl

theorem fold_force (c : Cfg) : ∀ (l : List Nat) (s : St), inForce (l.foldl (closeOne c) s) = inForce s
  | [], _ => rfl
  | i :: l, s => (fold_force c l _).trans (closeOne_force c s i)

theorem step_force {c : Cfg} {s s' : St} {op : Op} (h : step c s op = .ok s') : inForce s' = said (inForce s) op := by
  cases op with
  | list b w t y a p d m =>
    simp only [step, list, bind_ok, pure_ok] at h
    obtain ⟨_, _, _, _, _, _, _, _, s1, h1, _, _, h⟩ := h
    subst h
    exact Eq.trans (b := inForce s1) rfl (lockTokens_force h1)
  | updatePrice w i p =>
    simp only [step, updatePrice, bind_ok, pure_ok] at h
    obtain ⟨_, _, _, _, _, _, _, _, h⟩ := h
    subst h
    rfl
  | buy w i => exact buy_force h
  | buyMulti w is => exact buyMulti_force is h
  | bid w i x =>
    simp only [step, bid, bind_ok, pure_ok] at h
    obtain ⟨_, _, _, _, _, _, _, _, _, _, _, _, h⟩ := h
    subst h
    exact (extend_force _ _ _).trans rfl
  | cancelSale w i =>
    simp only [step, cancelSale, bind_ok, pure_ok] at h
    obtain ⟨_, _, _, _, _, _, s1, h1, h⟩ := h
    subst h
    exact Eq.trans (b := inForce s1) rfl (unlockTokens_force h1)
  | makeOffer w id n x a m =>
    simp only [step, makeOffer, bind_ok, pure_ok] at h
    obtain ⟨_, _, _, _, _, _, _, _, _, _, _, _, _, _, _, _, h⟩ := h
    subst h
    rfl
  | cancelOffer w i =>
    simp only [step, cancelOffer, bind_ok] at h
    obtain ⟨_, _, _, _, _, _, h⟩ := h
    exact (removeOffer_force h).trans rfl
  | acceptOffer w i =>
    simp only [step, acceptOffer, bind_ok] at h
    obtain ⟨_, _, _, _, _, _, s1, h1, h⟩ := h
    exact (removeOffer_force h).trans ((settle_force h1).trans (unlist_force _ _ _))
  | registerMarket w a p =>
    simp only [step, registerMarket, bind_ok, ensure_ok, pure_ok] at h
    obtain ⟨_, h1, _, h2, h⟩ := h
    subst h
    show _ = ite _ _ _
    rw [if_pos ⟨h1, h2⟩]
    rfl
  | setFeeTo f => cases h; rfl
  | nextBlock ids =>
    simp only [step, nextBlock, bind_ok, pure_ok] at h
    obtain ⟨_, _, _, _, h⟩ := h
    subst h
    exact (fold_force c _ _).trans rfl
  | nft op =>
    simp only [step, bind_ok, pure_ok] at h
    obtain ⟨_, _, h⟩ := h
    subst h
    rfl
  | sft op =>
    simp only [step, bind_ok, pure_ok] at h
    obtain ⟨_, _, h⟩ := h
    subst h
    rfl
  | assets op =>
    simp only [step, bind_ok, pure_ok] at h
    obtain ⟨_, _, h⟩ := h
    subst h
    rfl

/-- **C231 (marketplace).** After any history, failing calls included, the network's fee goes to whom root said last, and the marketplaces
are the registered ones, each under the number, account and share it was registered with. -/
theorem C231_market (c : Cfg) : ∀ (ops : List Op) (s : St), inForce (exec c s ops) = ops.foldl said (inForce s)
  | [], _ => rfl
  | op :: ops, s => by
    show inForce (exec c _ ops) = ops.foldl said (said (inForce s) op)
    rw [C231_market c ops]
    split
    · rename_i h
      rw [step_force h]
    · rename_i e h
      congr 1
      cases op with
      | setFeeTo f => cases h
      | registerMarket w a p =>
        show inForce s = ite _ _ _
        by_cases hp : p ≤ 1000000 ∧ (inForce s).next + 1 < U32
        · exfalso
          have h3 : s.nextMarket + 1 < U32 := hp.2
          simp only [step, registerMarket, ensure, if_pos hp.1, if_pos h3] at h
          cases h
        · rw [if_neg hp]
      | _ => rfl

/-- **C231 (marketplace).** A sale pays the network's fee to the account root named last: it is among the shares of a new listing. -/
theorem C231_market_fee {c : Cfg} {s : St} {ops : List Op} {t : Tokens} {m : Option Nat} {l : List (Acct × Nat)} {f : Acct}
    (hf : (ops.foldl said (inForce s)).feeTo = some f) (h : bundle c (exec c s ops) t m = .ok l) : (f, c.netFee) ∈ l := by
  rw [← C231_market c] at hf
  simp only [bundle, bind_ok, pure_ok] at h
  obtain ⟨l0, _, l1, h1, l2, h2, _, _, h⟩ := h
  subst h
  have e1 : l1 = l0 ++ [(f, c.netFee)] := by
    unfold pushFee at h1
    rw [show (exec c s ops).feeTo = some f from hf] at h1
    simp only [pushShare, bind_ok, pure_ok] at h1
    obtain ⟨_, _, h1⟩ := h1
    exact h1.symm
  have m1 : (f, c.netFee) ∈ l1 := by rw [e1]; exact List.mem_append_right _ (List.mem_singleton.2 rfl)
  unfold pushMarket at h2
  split at h2
  · cases h2; exact m1
  · simp only [pushShare, bind_ok, pure_ok] at h2
    obtain ⟨_, _, _, _, h2⟩ := h2
    rw [← h2]
    exact List.mem_append_left _ m1

-- a history in which root names an account twice and two marketplaces register, one of them with too large a share
example : (exec cfg0 g0 [.setFeeTo (some 4), .registerMarket 7 none 20000, .registerMarket 8 none 1000001, .setFeeTo (some 5),
    .registerMarket 8 (some 9) 30000]).feeTo = some 5 ∧
    (exec cfg0 g0 [.setFeeTo (some 4), .registerMarket 7 none 20000, .registerMarket 8 none 1000001, .setFeeTo (some 5),
    .registerMarket 8 (some 9) 30000]).markets (g0.nextMarket + 1) = some (9, 30000) ∧
    (bundle cfg0 (exec cfg0 demo [.setFeeTo (some 5)]) (.nft 100 [3]) none).isOk = true := by decide +kernel

end Verif.Market
