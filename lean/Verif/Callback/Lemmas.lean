import Verif.Callback.Model
import Verif.Market.Rights

/-! # One call at a time: reachability and what a bystander keeps -/

namespace Verif.Callback

open Market

/-! ## Reachability -/

/-- An operation of a contract other than the holding account is one the environment may make. -/
theorem opBy_env {c : Cfg} {s : St} {me : Acct} {o : Op} (h : opBy me o = true) (hp : me ≠ c.holds.pot) : Env c s o := by
  cases o with
  | list b w t y a p d m => exact fun hx => hp ((of_decide_eq_true h).symm.trans hx)
  | updatePrice w i p => trivial
  | buy w i => exact fun hx => hp ((of_decide_eq_true h).symm.trans hx)
  | buyMulti w is => exact absurd h Bool.false_ne_true
  | bid w i x => exact fun hx => hp ((of_decide_eq_true h).symm.trans hx)
  | cancelSale w i => trivial
  | makeOffer w id n x a m => exact fun hx => hp ((of_decide_eq_true h).symm.trans hx)
  | cancelOffer w i => trivial
  | acceptOffer w i => trivial
  | registerMarket w a p => trivial
  | setFeeTo f => trivial
  | nextBlock ids => trivial
  | nft op => cases op <;> first | trivial | exact absurd h Bool.false_ne_true
  | sft op => cases op <;> first | trivial | exact absurd h Bool.false_ne_true
  | assets op =>
    cases op <;> first
      | exact absurd h Bool.false_ne_true
      | exact fun hx => hp ((of_decide_eq_true h).symm.trans hx)

theorem attempt_reach {c : Cfg} {s : St} {r : Except Err St} (h : Reach c (Env c) s)
    (hr : ∀ t, r = .ok t → Reach c (Env c) t) : Reach c (Env c) (attempt s r) := by
  cases r with
  | ok t => exact hr t rfl
  | error e => exact h

theorem give721_reach {c : Cfg} {s t : St} {id n : Nat} {src dst : Acct} (h : Reach c (Env c) s)
    (hs : give721 c s id n src dst = .ok t) : Reach c (Env c) t :=
  h.step (op := .nft (.transfer src id [n] dst)) trivial hs

theorem give1155_ok {c : Cfg} {s t : St} {me : Acct} {id : Nat} {xs : List (Nat × Nat)} {src dst : Acct}
    (hs : give1155 c s me id xs src dst = .ok t) : dst ≠ 0 ∧ step c s (.sft (.safeTransfer me id xs src dst)) = .ok t := by
  simp only [give1155, bind_ok, ensure_ok] at hs
  obtain ⟨_, h, hs⟩ := hs
  exact ⟨h, hs⟩

theorem give1155_reach {c : Cfg} {s t : St} {me : Acct} {id : Nat} {xs : List (Nat × Nat)} {src dst : Acct}
    (h : Reach c (Env c) s) (hs : give1155 c s me id xs src dst = .ok t) : Reach c (Env c) t :=
  h.step (op := .sft (.safeTransfer me id xs src dst)) trivial (give1155_ok hs).2

/-! ## A token nobody else may touch -/

/-- Account `v` owns token `n` of collection `id`; it is not locked, nobody is approved for it and `v` has no operators in
the collection. -/
structure Held (v : Acct) (id n : Nat) (s : Nft.St) : Prop where
  own : Nft.ownerOf s id n = some v
  lock : s.locks id n = none
  app : s.approvals id n = none
  ops : ∀ b, s.forAll v id b = false

theorem Held.notApproved {v me : Acct} {id n : Nat} {s : Nft.St} (h : Held v id n s) (hm : me ≠ v) :
    Nft.isApprovedOrOwner s id n me = false := by
  unfold Nft.isApprovedOrOwner
  rw [h.own, h.app]
  dsimp only
  rw [h.ops me]
  have : ¬ (some v = some me) := fun hx => hm (Option.some.inj hx).symm
  simp [this]

theorem doTransfer_frame {c : Nft.Cfg} {s t : Nft.St} {id : Nat} {ns : List Nat} {a b : Acct}
    (h : Nft.doTransfer c s id ns a b = .ok t) :
    t.forAll = s.forAll ∧ ∀ j m, t.approvals j m = none ∨ t.approvals j m = s.approvals j m := by
  simp only [Nft.doTransfer, bind_ok, ensure_ok, okOr_ok, pure_ok] at h
  obtain ⟨_, _, _, _, _, _, _, _, _, _, _, _, rfl⟩ := h
  refine ⟨rfl, fun j m => ?_⟩
  dsimp only [Nft.clearApprovals, Nft.setColl]
  split
  · exact Or.inl rfl
  · exact Or.inr rfl

/-- A transfer of other tokens leaves a held token alone. -/
theorem Held.transfer {c : Nft.Cfg} {s t : Nft.St} {v : Acct} {id n : Nat} {j : Nat} {ns : List Nat} {a b : Acct}
    (h : Held v id n s) (hr : Nft.Reach c Nft.Bridged s) (hs : Nft.doTransfer c s j ns a b = .ok t)
    (hne : ¬ (id = j ∧ n ∈ ns)) : Held v id n t := by
  obtain ⟨_, d2, d3⟩ := nft_deliver hr hs
  obtain ⟨f1, f2⟩ := doTransfer_frame hs
  refine ⟨(d2 id n hne).trans h.own, by rw [d3]; exact h.lock, ?_, fun b => by rw [f1]; exact h.ops b⟩
  rcases f2 id n with hx | hx
  · exact hx
  · rw [hx]; exact h.app

theorem unlockNft_frame (id : Nat) : ∀ (ns : List Nat) (s : Nft.St), (unlockNft id ns s).approvals = s.approvals ∧
    (unlockNft id ns s).forAll = s.forAll
  | [], _ => ⟨rfl, rfl⟩
  | n :: ns, s => unlockNft_frame id ns (Nft.removeLock s id n)

theorem Held.unlock {s : Nft.St} {v : Acct} {id n j : Nat} {ns : List Nat} (h : Held v id n s) :
    Held v id n (unlockNft j ns s) := by
  obtain ⟨f1, f2⟩ := unlockNft_frame j ns s
  refine ⟨?_, ?_, by rw [f1]; exact h.app, fun b => by rw [f2]; exact h.ops b⟩
  · rw [Nft.ownerOf_congr (unlockNft_coll j ns s).1]; exact h.own
  · rw [unlockNft_locks]
    split
    · rfl
    · exact h.lock

theorem Held.unlockTransfer {c : Cfg} {s t : St} {v : Acct} {id n : Nat} {src dst : Acct} {tk : Tokens}
    (h : Held v id n s.nft) (hr : Nft.Reach c.nft Nft.Bridged s.nft) (hs : unlockTransfer c s src dst tk = .ok t)
    (hne : ∀ j ns, tk = .nft j ns → ¬ (id = j ∧ n ∈ ns)) : Held v id n t.nft := by
  cases tk with
  | nft j ns =>
    simp only [Market.unlockTransfer, bind_ok, ensure_ok, pure_ok] at hs
    obtain ⟨_, _, t, h1, rfl⟩ := hs
    exact h.unlock.transfer (unlockNft_reach j ns hr) h1 (hne j ns rfl)
  | sft j xs =>
    simp only [Market.unlockTransfer, bind_ok, pure_ok] at hs
    obtain ⟨_, _, _, _, rfl⟩ := hs
    exact h

theorem Held.lock' {v who : Acct} {id n j i : Nat} (hw : who ≠ v) : ∀ {ns : List Nat} {s t : Nft.St},
    lockNft who j i ns s = .ok t → Held v id n s → Held v id n t
  | [], s, t, hs, h => by cases hs; exact h
  | m :: ns, s, t, hs, h => by
    simp only [lockNft, Nft.setLock, bind_ok, ensure_ok, pure_ok] at hs
    obtain ⟨s1, ⟨_, hl, _, ho, rfl⟩, hs⟩ := hs
    refine Held.lock' hw hs ⟨h.own, ?_, h.app, h.ops⟩
    dsimp only
    rw [lock_apply]
    split
    · rename_i hx
      obtain ⟨rfl, rfl⟩ := hx
      rw [h.own] at ho
      exact absurd (Option.some.inj ho).symm hw
    · exact h.lock

/-- A call of an NFT precompile by another account leaves a held token alone. -/
theorem Held.nft {c : Nft.Cfg} {s t : Nft.St} {v me : Acct} {id n : Nat} {o : Nft.Op} (h : Held v id n s)
    (hr : Nft.Reach c Nft.Bridged s) (hm : me ≠ v) (hb : nftBy me o = true) (hs : Nft.step c s o = .ok t) :
    Held v id n t := by
  have hna := h.notApproved hm
  have hout : NftOutside s o := by
    cases o <;> first | trivial | exact absurd hb Bool.false_ne_true
  have hl := (nft_locks hs hout)
  have hown : Nft.ownerOf t id n = some v := by
    by_contra hx
    obtain ⟨_, ⟨ns, new, rfl, _⟩ | rfl | ⟨caller, ha, ⟨new, rfl⟩ | rfl⟩⟩ := Nft.C25_only_owner_moves hr hl.2 hs h.own hx
    · exact Bool.false_ne_true hb
    · exact Bool.false_ne_true hb
    · rw [of_decide_eq_true hb, hna] at ha; exact Bool.false_ne_true ha
    · rw [of_decide_eq_true hb, hna] at ha; exact Bool.false_ne_true ha
  have same : t.approvals = s.approvals → t.forAll = s.forAll → Held v id n t := fun h1 h2 =>
    ⟨hown, by rw [hl.1]; exact h.lock, by rw [h1]; exact h.app, fun b => by rw [h2]; exact h.ops b⟩
  cases o with
  | create o i m t r x =>
    simp only [Nft.step, Nft.doCreate, bind_ok, ensure_ok, pure_ok] at hs
    obtain ⟨_, _, _, _, _, _, _, _, rfl⟩ := hs
    exact same rfl rfl
  | mint w j q r e =>
    simp only [Nft.step, Nft.mint, Nft.doMint, bind_ok, ensure_ok, okOr_ok, pure_ok] at hs
    obtain ⟨_, _, _, _, _, _, _, _, _, _, _, ⟨_, _, _, _, _, _, rfl⟩, _, _, rfl⟩ := hs
    exact same rfl rfl
  | setOwner w j o =>
    simp only [Nft.step, Nft.setOwner, bind_ok, ensure_ok, okOr_ok, pure_ok] at hs
    obtain ⟨_, _, _, _, rfl⟩ := hs
    exact same rfl rfl
  | setMaxIssuance w j o =>
    simp only [Nft.step, Nft.setMaxIssuance, bind_ok, ensure_ok, okOr_ok, pure_ok] at hs
    obtain ⟨_, _, _, _, _, _, _, _, _, _, rfl⟩ := hs
    exact same rfl rfl
  | setPubMint w j o =>
    simp only [Nft.step, Nft.setPubMint, bind_ok, ensure_ok, okOr_ok, pure_ok] at hs
    obtain ⟨_, _, _, _, rfl⟩ := hs
    exact same rfl rfl
  | approve a b j m =>
    simp only [Nft.step, Nft.approve, bind_ok, ensure_ok, okOr_ok, pure_ok] at hs
    obtain ⟨_, _, w, hw, _, hor, rfl⟩ := hs
    have ha : a = me := of_decide_eq_true hb
    refine ⟨hown, by rw [hl.1]; exact h.lock, ?_, h.ops⟩
    by_cases hj : id = j ∧ n = m
    · obtain ⟨rfl, rfl⟩ := hj
      rw [h.own] at hw
      cases hw
      rcases hor with hx | hx
      · exact absurd (hx.trans ha).symm hm
      · rw [h.ops] at hx; exact absurd hx Bool.false_ne_true
    · dsimp only
      rw [upd_apply]
      split
      · rename_i he
        subst he
        rw [upd_ne _ _ (fun hx => hj ⟨rfl, hx⟩)]
        exact h.app
      · exact h.app
  | approveAll a b j ok =>
    simp only [Nft.step, Nft.approveAll, bind_ok, ensure_ok, pure_ok] at hs
    obtain ⟨_, _, rfl⟩ := hs
    have ha : a = me := of_decide_eq_true hb
    refine ⟨hown, by rw [hl.1]; exact h.lock, h.app, fun b => ?_⟩
    dsimp only
    rw [upd_ne _ _ (fun hx => hm (hx.trans ha).symm)]
    exact h.ops b
  | transferFrom a j m x y =>
    simp only [Nft.step, Nft.transferFrom, bind_ok, ensure_ok] at hs
    obtain ⟨_, _, hs⟩ := hs
    obtain ⟨f1, f2⟩ := doTransfer_frame hs
    refine ⟨hown, by rw [hl.1]; exact h.lock, ?_, fun b => by rw [f1]; exact h.ops b⟩
    rcases f2 id n with hx | hx
    · exact hx
    · rw [hx]; exact h.app
  | burnPrecompile a j m =>
    simp only [Nft.step, Nft.burnPrecompile, Nft.doBurn, bind_ok, ensure_ok, okOr_ok, pure_ok] at hs
    obtain ⟨_, _, _, _, _, _, _, _, _, _, _, _, rfl⟩ := hs
    refine ⟨hown, by rw [hl.1]; exact h.lock, ?_, h.ops⟩
    dsimp only [Nft.clearApprovals, Nft.setColl]
    split
    · rfl
    · exact h.app
  | _ => exact absurd hb Bool.false_ne_true

/-- The tokens of an open listing are locked, so a held token is in none. -/
theorem Held.unlisted {c : Cfg} {s : St} {v : Acct} {id n i : Nat} {l : Listing} (h : Held v id n s.nft) (hg : Good c s [])
    (hl : s.listings i = some l) : ∀ j ns, l.tokens = .nft j ns → ¬ (id = j ∧ n ∈ ns) := by
  rintro j ns ht ⟨rfl, hn⟩
  have := ((hg.lk.nft i l id ns hl ht).2.2 n hn).1
  rw [h.lock] at this
  cases this

/-- A call by another account leaves a held token alone. -/
theorem Held.step {c : Cfg} {s t : St} {v me : Acct} {id n : Nat} {o : Op} (h : Held v id n s.nft) (hg : Good c s [])
    (hm : me ≠ v) (hp : me ≠ c.holds.pot) (hb : opBy me o = true) (hs : Market.step c s o = .ok t) : Held v id n t.nft := by
  cases o with
  | list b w tk y a p d m =>
    have hw : w = me := of_decide_eq_true hb
    simp only [Market.step, Market.list, bind_ok, ensure_ok, pure_ok] at hs
    obtain ⟨_, _, _, _, _, _, _, _, s1, h1, _, _, rfl⟩ := hs
    show Held v id n s1.nft
    cases tk with
    | nft j ns =>
      simp only [lockTokens, bind_ok, pure_ok] at h1
      obtain ⟨u, hu, rfl⟩ := h1
      exact Held.lock' (fun hx => hm (hw.symm.trans hx)) hu h
    | sft j xs =>
      simp only [lockTokens, bind_ok, pure_ok] at h1
      obtain ⟨u, hu, rfl⟩ := h1
      exact h
  | updatePrice w i p =>
    simp only [Market.step, Market.updatePrice, bind_ok, okOr_ok, ensure_ok, pure_ok] at hs
    obtain ⟨_, _, _, _, _, _, _, _, rfl⟩ := hs
    exact h
  | buy w i =>
    have hw : w = me := of_decide_eq_true hb
    obtain ⟨l, L, hl, _, _, _, ht, _⟩ := buy_ok hs hg (fun hx => hp (hw.symm.trans hx))
    exact Held.unlockTransfer (s := setLedger (removeListing s i l) L) h hg.lk.nr ht (h.unlisted hg hl)
  | bid w i x =>
    simp only [Market.step, Market.bid, bind_ok, okOr_ok, ensure_ok, pure_ok] at hs
    obtain ⟨_, _, _, _, _, _, _, _, _, _, _, _, rfl⟩ := hs
    unfold extend
    split
    · exact h
    · exact h
  | cancelSale w i =>
    simp only [Market.step, Market.cancelSale, bind_ok, okOr_ok, ensure_ok, pure_ok] at hs
    obtain ⟨l, hl, _, _, _, _, s1, h1, rfl⟩ := hs
    show Held v id n s1.nft
    revert h1
    cases l.tokens with
    | nft j ns => intro h1; cases h1; exact h.unlock
    | sft j xs =>
      intro h1
      simp only [unlockTokens, bind_ok, pure_ok] at h1
      obtain ⟨_, _, rfl⟩ := h1
      exact h
  | makeOffer w j m x a mk =>
    simp only [Market.step, Market.makeOffer, bind_ok, okOr_ok, ensure_ok, pure_ok] at hs
    obtain ⟨_, _, _, _, _, _, _, _, _, _, _, _, _, _, _, _, rfl⟩ := hs
    exact h
  | cancelOffer w i =>
    simp only [Market.step, Market.cancelOffer, removeOffer, bind_ok, okOr_ok, ensure_ok, pure_ok] at hs
    obtain ⟨_, _, _, _, _, _, _, _, rfl⟩ := hs
    exact h
  | acceptOffer w i =>
    have hw : w = me := of_decide_eq_true hb
    obtain ⟨o, roy, hs1, s1, ho, hown, _, _, e2, _, e4, _⟩ := acceptOffer_ok hs hg
    obtain ⟨⟨ls, sc, ix, eu⟩, gu, _, _⟩ := unlist_ok hg o.coll o.serial
    have hn : (unlist s o.coll o.serial).nft = s.nft := by rw [eu]
    have key : Held v id n s1.nft := by
      refine Held.unlockTransfer (s := { unlist s o.coll o.serial with hs := hs1 }) ?_ ?_ e2 ?_
      · exact hn ▸ h
      · exact hn ▸ hg.lk.nr
      · rintro j ns hx ⟨rfl, hmem⟩
        cases hx
        rw [List.mem_singleton] at hmem
        rw [← hmem, h.own] at hown
        exact hm ((Option.some.inj hown).trans hw).symm
    rw [e4]
    exact key
  | registerMarket w a p =>
    simp only [Market.step, Market.registerMarket, bind_ok, ensure_ok, pure_ok] at hs
    obtain ⟨_, _, _, _, rfl⟩ := hs
    exact h
  | nft op =>
    simp only [Market.step, bind_ok, pure_ok] at hs
    obtain ⟨u, hu, rfl⟩ := hs
    exact h.nft hg.lk.nr hm hb hu
  | sft op =>
    simp only [Market.step, bind_ok, pure_ok] at hs
    obtain ⟨u, hu, rfl⟩ := hs
    exact h
  | assets op =>
    simp only [Market.step, bind_ok, pure_ok] at hs
    obtain ⟨u, hu, rfl⟩ := hs
    exact h
  | _ => exact absurd hb Bool.false_ne_true

end Verif.Callback
