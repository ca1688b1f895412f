import Verif.Callback.Lemmas

/-! # Semi-fungible tokens of a bystander, and whole programs -/

namespace Verif.Callback

open Market

/-! ## One call -/

/-- Account `v` has no operators in collection `id` and at least `f n` free pieces of every token of it. -/
structure Keeps (v : Acct) (id : Nat) (f : Nat → Nat) (s : Sft.St) : Prop where
  amt : ∀ n, f n ≤ Sft.free s id n v
  ops : ∀ b, s.forAll v id b = false

theorem Keeps.sft {c : Sft.Cfg} {s t : Sft.St} {v me : Acct} {id : Nat} {f : Nat → Nat} {o : Sft.Op} (h : Keeps v id f s)
    (hi : Sft.SI c s) (hm : me ≠ v) (hb : sftBy me o = true) (hs : Sft.step c s o = .ok t) : Keeps v id f t := by
  have same : t.tok = s.tok → t.forAll = s.forAll → Keeps v id f t := by
    intro h1 h2
    refine ⟨fun n => ?_, fun b => by rw [h2]; exact h.ops b⟩
    unfold Sft.free
    rw [h1]
    exact h.amt n
  cases o with
  | createColl o r =>
    simp only [Sft.step, Sft.createColl, bind_ok, ensure_ok, okOr_ok, pure_ok] at hs
    obtain ⟨_, _, _, _, _, _, rfl⟩ := hs
    exact same rfl rfl
  | createToken w j i m o e =>
    simp only [Sft.step, Sft.createToken, bind_ok, ensure_ok, okOr_ok, pure_ok] at hs
    obtain ⟨_, _, k, hk, _, _, _, _, _, _, _, _, rfl⟩ := hs
    refine ⟨fun n => ?_, h.ops⟩
    refine le_trans (h.amt n) ?_
    unfold Sft.free
    dsimp only
    by_cases hj : id = j
    · subst hj
      by_cases hn : n = k.next
      · subst hn
        have : s.tok id k.next = none := by
          cases hx : s.tok id k.next with
          | none => rfl
          | some t =>
            obtain ⟨k0, h0, h1⟩ := hi.below _ _ _ hx
            rw [hk] at h0; cases h0
            omega
        rw [this]
        exact Nat.zero_le _
      · rw [Sft.tok_set_ne _ _ _ _ hn]
    · rw [Sft.tok_set_other _ _ _ _ hj]
  | mint w j xs o =>
    have hmv := (Sft.mint_ok hi hs).2.2.2
    refine ⟨fun n => ?_, fun b => by rw [hmv.forAll]; exact h.ops b⟩
    by_cases hj : id = j
    · subst hj
      have := hmv.free n v
      have := h.amt n
      omega
    · unfold Sft.free; rw [hmv.other id hj]; exact h.amt n
  | setOwner w j k =>
    simp only [Sft.step, Sft.setOwner, bind_ok, ensure_ok, okOr_ok, pure_ok] at hs
    obtain ⟨_, _, _, _, rfl⟩ := hs
    exact same rfl rfl
  | setMax w j k m =>
    simp only [Sft.step, Sft.setMax, bind_ok, ensure_ok, okOr_ok, pure_ok] at hs
    obtain ⟨_, _, _, _, _, _, u, hu, _, _, _, _, rfl⟩ := hs
    refine ⟨fun n => ?_, h.ops⟩
    rw [free_set hu rfl (fun _ => rfl)]
    split
    · rename_i hx; obtain ⟨rfl, rfl⟩ := hx
      rw [← free_of hu v]; exact h.amt _
    · exact h.amt n
  | setPubMint w j k p =>
    simp only [Sft.step, Sft.setPubMint, bind_ok, ensure_ok, okOr_ok, pure_ok] at hs
    obtain ⟨_, _, _, _, rfl⟩ := hs
    exact same rfl rfl
  | approveAll x b j ok =>
    simp only [Sft.step, Sft.approveAll, bind_ok, ensure_ok, pure_ok] at hs
    obtain ⟨_, _, rfl⟩ := hs
    have ha : x = me := of_decide_eq_true hb
    refine ⟨h.amt, fun b => ?_⟩
    dsimp only
    rw [upd_ne _ _ (fun hx => hm (hx.trans ha).symm)]
    exact h.ops b
  | safeBurn x j xs src =>
    have ha : x = me := of_decide_eq_true hb
    simp only [Sft.step, Sft.safeBurn, bind_ok, ensure_ok] at hs
    obtain ⟨_, hau, hs⟩ := hs
    have hmv := (Sft.burn_ok hi hs).2.2.2.2
    refine ⟨fun n => ?_, fun b => by rw [hmv.forAll]; exact h.ops b⟩
    by_cases hj : id = j
    · subst hj
      have hne : v ≠ src := by
        rintro rfl
        rcases hau with hx | hx
        · exact hm (hx.trans ha).symm
        · rw [h.ops] at hx; exact Bool.false_ne_true hx
      have := hmv.free n v
      rw [if_neg hne] at this
      have := h.amt n
      omega
    · unfold Sft.free; rw [hmv.other id hj]; exact h.amt n
  | _ => exact absurd hb Bool.false_ne_true

/-- An ERC-1155 transfer by another account takes nothing from an account without operators. -/
theorem Keeps.transfer {c : Sft.Cfg} {s t : Sft.St} {v me : Acct} {id j : Nat} {f : Nat → Nat} {xs : List (Nat × Nat)}
    {src dst : Acct} (h : Keeps v id f s) (hi : Sft.SI c s) (hm : me ≠ v)
    (hs : Sft.step c s (.safeTransfer me j xs src dst) = .ok t) : Keeps v id f t := by
  simp only [Sft.step, Sft.safeTransfer, bind_ok, ensure_ok] at hs
  obtain ⟨_, hau, hs⟩ := hs
  have hmv := (Sft.transfer_ok hi hs).2.2.2.2.2
  refine ⟨fun n => ?_, fun b => by rw [hmv.forAll]; exact h.ops b⟩
  by_cases hj : id = j
  · subst hj
    have hne : v ≠ src := by
      rintro rfl
      rcases hau with hx | hx
      · exact hm hx.symm
      · rw [h.ops] at hx; exact Bool.false_ne_true hx
    have := hmv.free n v
    rw [if_neg hne] at this
    have := h.amt n
    omega
  · unfold Sft.free; rw [hmv.other id hj]; exact h.amt n

theorem reserveAll_ops {who : Acct} {id : Nat} : ∀ {xs : List (Nat × Nat)} {s t : Sft.St}, reserveAll who id xs s = .ok t →
    t.forAll = s.forAll
  | [], s, t, h => by cases h; rfl
  | x :: xs, s, t, h => by
    simp only [reserveAll, Sft.reserve, bind_ok, okOr_ok, pure_ok] at h
    obtain ⟨s1, ⟨_, _, _, _, rfl⟩, h⟩ := h
    exact (reserveAll_ops h).trans rfl

theorem unreserveAll_ops {who : Acct} {id : Nat} : ∀ {xs : List (Nat × Nat)} {s t : Sft.St},
    unreserveAll who id xs s = .ok t → t.forAll = s.forAll
  | [], s, t, h => by cases h; rfl
  | x :: xs, s, t, h => by
    simp only [unreserveAll, Sft.unreserve, bind_ok, okOr_ok, pure_ok] at h
    obtain ⟨s1, ⟨_, _, _, _, rfl⟩, h⟩ := h
    exact (unreserveAll_ops h).trans rfl

theorem Keeps.unlockTransfer {c : Cfg} {s t : St} {v : Acct} {id : Nat} {f : Nat → Nat} {src dst : Acct} {tk : Tokens}
    (h : Keeps v id f s.sft) (hr : Nft.Reach c.nft Nft.Bridged s.nft) (hi : Sft.SI c.sft s.sft)
    (hs : unlockTransfer c s src dst tk = .ok t) : Keeps v id f t.sft := by
  have hd := (unlockTransfer_delivered hr hi hs).1
  cases tk with
  | nft j ns => exact hd.2.2 ▸ h
  | sft j xs =>
    simp only [Market.unlockTransfer, bind_ok, pure_ok] at hs
    obtain ⟨t1, h1, t2, h2, rfl⟩ := hs
    obtain ⟨i1, _, _⟩ := unreserveAll_ok (c := c.sft) h1
    have hmv := (Sft.transfer_ok (i1 hi) h2).2.2.2.2.2
    refine ⟨fun n => ?_, fun b => ?_⟩
    · have h3 := hd.1 id n v
      have h4 := h.amt n
      dsimp only at h3 ⊢
      omega
    · dsimp only
      rw [hmv.forAll, unreserveAll_ops h1]
      exact h.ops b

/-- A call by another account takes no piece from an account without operators. -/
theorem Keeps.step {c : Cfg} {s t : St} {v me : Acct} {id : Nat} {f : Nat → Nat} {o : Op} (h : Keeps v id f s.sft)
    (hg : Good c s []) (hm : me ≠ v) (hp : me ≠ c.holds.pot) (hb : opBy me o = true) (hs : Market.step c s o = .ok t) :
    Keeps v id f t.sft := by
  cases o with
  | list b w tk y a p d m =>
    have hw : w = me := of_decide_eq_true hb
    simp only [Market.step, Market.list, bind_ok, ensure_ok, pure_ok] at hs
    obtain ⟨_, _, _, _, _, _, _, _, s1, h1, _, _, rfl⟩ := hs
    show Keeps v id f s1.sft
    cases tk with
    | nft j ns =>
      simp only [lockTokens, bind_ok, pure_ok] at h1
      obtain ⟨u, hu, rfl⟩ := h1
      exact h
    | sft j xs =>
      simp only [lockTokens, bind_ok, pure_ok] at h1
      obtain ⟨u, hu, rfl⟩ := h1
      obtain ⟨_, _, e2⟩ := reserveAll_ok (c := c.sft) hu
      refine ⟨fun n => ?_, fun b => by dsimp only; rw [reserveAll_ops hu]; exact h.ops b⟩
      have h3 := e2 id n v
      rw [if_neg (fun hx => hm (hx.2.trans hw).symm)] at h3
      have h4 := h.amt n
      dsimp only
      omega
  | updatePrice w i p =>
    simp only [Market.step, Market.updatePrice, bind_ok, okOr_ok, ensure_ok, pure_ok] at hs
    obtain ⟨_, _, _, _, _, _, _, _, rfl⟩ := hs
    exact h
  | buy w i =>
    have hw : w = me := of_decide_eq_true hb
    obtain ⟨l, L, hl, _, _, _, ht, _⟩ := buy_ok hs hg (fun hx => hp (hw.symm.trans hx))
    exact Keeps.unlockTransfer (s := setLedger (removeListing s i l) L) h hg.lk.nr hg.lk.si ht
  | bid w i x =>
    simp only [Market.step, Market.bid, bind_ok, okOr_ok, ensure_ok, pure_ok] at hs
    obtain ⟨_, _, _, _, _, _, _, _, _, _, _, _, rfl⟩ := hs
    unfold extend
    split
    · exact h
    · exact h
  | cancelSale w i =>
    simp only [Market.step, Market.cancelSale, bind_ok, okOr_ok, ensure_ok, pure_ok] at hs
    obtain ⟨l, hl, _, _, _, _, s1, h1, rfl⟩ := hs
    show Keeps v id f s1.sft
    revert h1
    cases l.tokens with
    | nft j ns => intro h1; cases h1; exact h
    | sft j xs =>
      intro h1
      simp only [unlockTokens, bind_ok, pure_ok] at h1
      obtain ⟨u, hu, rfl⟩ := h1
      obtain ⟨_, _, e2⟩ := unreserveAll_ok (c := c.sft) hu
      refine ⟨fun n => ?_, fun b => by dsimp only; rw [unreserveAll_ops hu]; exact h.ops b⟩
      have h3 := e2 id n v
      have h4 := h.amt n
      dsimp only
      omega
  | makeOffer w j m x a mk =>
    simp only [Market.step, Market.makeOffer, bind_ok, okOr_ok, ensure_ok, pure_ok] at hs
    obtain ⟨_, _, _, _, _, _, _, _, _, _, _, _, _, _, _, _, rfl⟩ := hs
    exact h
  | cancelOffer w i =>
    simp only [Market.step, Market.cancelOffer, removeOffer, bind_ok, okOr_ok, ensure_ok, pure_ok] at hs
    obtain ⟨_, _, _, _, _, _, _, _, rfl⟩ := hs
    exact h
  | acceptOffer w i =>
    obtain ⟨o, roy, hs1, s1, ho, hown, _, _, e2, _, e4, _⟩ := acceptOffer_ok hs hg
    obtain ⟨⟨ls, sc, ix, eu⟩, gu, _, _⟩ := unlist_ok hg o.coll o.serial
    have key : Keeps v id f s1.sft := by
      refine Keeps.unlockTransfer (s := { unlist s o.coll o.serial with hs := hs1 }) ?_ gu.lk.nr gu.lk.si e2
      rw [eu]; exact h
    rw [e4]
    exact key
  | registerMarket w a p =>
    simp only [Market.step, Market.registerMarket, bind_ok, ensure_ok, pure_ok] at hs
    obtain ⟨_, _, _, _, rfl⟩ := hs
    exact h
  | nft op =>
    simp only [Market.step, bind_ok, pure_ok] at hs
    obtain ⟨u, hu, rfl⟩ := hs
    exact h
  | sft op =>
    simp only [Market.step, bind_ok, pure_ok] at hs
    obtain ⟨u, hu, rfl⟩ := hs
    exact h.sft hg.lk.si hm hb hu
  | assets op =>
    simp only [Market.step, bind_ok, pure_ok] at hs
    obtain ⟨u, hu, rfl⟩ := hs
    exact h
  | _ => exact absurd hb Bool.false_ne_true

/-! ## Programs -/

/-- A property of states kept by every call of the accounts that satisfy `A`, and by the two transfers at the state in
which they are made, is kept by every program. `Q` may look at the state before the receiver was called (for the ERC-721
transfer, where the caller's right is checked). -/
theorem run_induct {c : Cfg} {code : Acct → Bool} {A : Acct → Prop} {Q : St → Prop}
    (hcode : ∀ a, code a = true → A a)
    (hop : ∀ me o s t, A me → opBy me o = true → Q s → step c s o = .ok t → Q t)
    (h721 : ∀ me id n src dst s t u, A me → Nft.isApprovedOrOwner s.nft id n me = true → Q s → Q t →
      give721 c t id n src dst = .ok u → Q u)
    (h1155 : ∀ me id xs src dst t u, A me → Q t → give1155 c t me id xs src dst = .ok u → Q u) :
    ∀ (p : Prog) (me : Acct) (busy : List Addr) (s s' : St), A me → Q s → run c code me busy p s = some s' → Q s' := by
  have att : ∀ {s : St} {r : Except Err St}, Q s → (∀ t, r = .ok t → Q t) → Q (attempt s r) := by
    intro s r h1 h2
    cases r with
    | ok t => exact h2 t rfl
    | error e => exact h1
  intro p
  induction p with
  | stop => intro me busy s s' _ h hr; cases hr; exact h
  | op tail o next ih =>
    intro me busy s s' ha h hr
    refine ih me busy _ s' ha ?_ hr
    split
    · rename_i hx
      exact att h (fun t ht => hop me o s t ha hx.1 h ht)
    · exact h
  | safe721 tail id n src dst body answer next ihb ihn =>
    intro me busy s s' ha h hr
    simp only [run] at hr
    split at hr
    · rename_i hx
      split at hr
      · rename_i hc
        split at hr
        · cases hr
        · rename_i t ht
          have hqt := ihb dst _ s t (hcode dst hc) h ht
          split at hr
          · cases hr
          · rename_i ok _
            refine ihn me busy _ s' ha ?_ hr
            unfold finish
            split
            · exact att h (fun u hu => h721 me id n src dst s t u ha hx.2 h hqt hu)
            · exact h
      · exact ihn me busy _ s' ha (att h (fun u hu => h721 me id n src dst s s u ha hx.2 h h hu)) hr
    · exact ihn me busy _ s' ha h hr
  | safe1155 batch tail id xs src dst body answer next ihb ihn =>
    intro me busy s s' ha h hr
    simp only [run] at hr
    split at hr
    · split at hr
      · rename_i hc
        split at hr
        · cases hr
        · rename_i t ht
          have hqt := ihb dst _ s t (hcode dst hc) h ht
          split at hr
          · cases hr
          · refine ihn me busy _ s' ha ?_ hr
            unfold finish
            split
            · exact att h (fun u hu => h1155 me id xs src dst t u ha hqt hu)
            · exact h
      · exact ihn me busy _ s' ha (att h (fun u hu => h1155 me id xs src dst s u ha h hu)) hr
    · exact ihn me busy _ s' ha h hr
  | call dst body ok next ihb ihn =>
    intro me busy s s' ha h hr
    simp only [run] at hr
    split at hr
    · rename_i hc
      split at hr
      · cases hr
      · rename_i t ht
        have hqt := ihb dst _ s t (hcode dst hc) h ht
        refine ihn me busy _ s' ha ?_ hr
        split
        · exact hqt
        · exact h
    · exact ihn me busy _ s' ha h hr

end Verif.Callback
