import Verif.Market.Story

/-!
# C233: the marketplace's events tell what happened

The specification is in `Story.lean`: `follow` is what a reader makes of an event, `picture` what the storage says.
-/

namespace Verif.Market

/-- The picture of a face. -/
def pic (f : Face) : Picture where
  listings := fun i => (f.listings i).map (fun l => ⟨l.auction, l.tokens, l.asset, l.price, l.seller, l.market, f.bids i⟩)
  offers := fun i => (f.offers i).map (fun o => ⟨o.asset, o.amount, o.buyer, o.market⟩)
  markets := f.markets
  feeTo := f.feeTo

theorem picture_eq (s : St) : picture s = pic (face s) := rfl

theorem pic_remove {s : St} {i : Nat} {l : Listing} {f : Nat → Option (Acct × Nat)} (hf : ∀ j, j ≠ i → f j = s.bids j) :
    pic { face (removeListing s i l) with bids := f } =
      { picture s with listings := upd (picture s).listings i none } := by
  unfold pic picture
  simp only [face, removeListing, Picture.mk.injEq, and_true]
  funext j
  by_cases hj : j = i
  · subst hj; rw [upd_same, upd_same]; rfl
  · rw [upd_ne _ _ hj, upd_ne _ _ hj, hf j hj]

theorem pic_removed {s t : St} {i : Nat} {l : Listing} (e : face t = face (removeListing s i l)) :
    picture t = { picture s with listings := upd (picture s).listings i none } := by
  rw [picture_eq, e]
  exact pic_remove (f := s.bids) (fun _ _ => rfl)

theorem pic_offer {s t : St} {i : Nat} (e : face t = { face s with offers := upd s.offers i none }) :
    picture t = { picture s with offers := upd (picture s).offers i none } := by
  rw [picture_eq, e]
  unfold pic picture
  simp only [face, Picture.mk.injEq, and_true, true_and]
  funext j
  by_cases hj : j = i
  · subst hj; rw [upd_same, upd_same]; rfl
  · rw [upd_ne _ _ hj, upd_ne _ _ hj]

theorem closeEv_told {c : Cfg} (s : St) (i : Nat) : picture (closeOne c s i) = (closeEv c s i).foldl follow (picture s) := by
  unfold closeEv
  cases hl : s.listings i with
  | none => rw [closeOne_none hl]; rfl
  | some l =>
    obtain ⟨f, hf, e⟩ := closeOne_face (c := c) hl
    rw [picture_eq, e, pic_remove hf]
    dsimp only
    split
    · unfold closeAuctionEv
      split
      · rfl
      · split <;> rfl
    · rfl

theorem closeAllEv_told {c : Cfg} : ∀ (ids : List Nat) (s : St),
    picture (ids.foldl (closeOne c) s) = (closeAllEv c ids s).foldl follow (picture s)
  | [], _ => rfl
  | i :: ids, s => by
    rw [List.foldl_cons, closeAllEv_told ids, closeAllEv, List.foldl_append, closeEv_told]

theorem buyEv_told {c : Cfg} {s s' : St} {who : Acct} {i : Nat} (h : buy c s who i = .ok s') :
    picture s' = (buyEv s who i).foldl follow (picture s) := by
  obtain ⟨l, hl, e⟩ := buy_face h
  unfold buyEv
  rw [pic_removed e, hl]
  rfl

theorem buyMultiEv_told {c : Cfg} {who : Acct} : ∀ (is : List Nat) {s s' : St}, buyMulti c who is s = .ok s' →
    picture s' = (buyMultiEv c who is s).foldl follow (picture s)
  | [], _, _, h => by cases h; rfl
  | i :: is, s, s', h => by
    simp only [buyMulti, bind_ok] at h
    obtain ⟨s1, h1, h⟩ := h
    rw [buyMultiEv, h1]
    dsimp only
    rw [List.foldl_append, ← buyEv_told h1]
    exact buyMultiEv_told is h

theorem unlistEv_told {s : St} {id n : Nat} (h : onAuction s id n = false) :
    picture (unlist s id n) = (unlistEv s id n).foldl follow (picture s) := by
  unfold unlist unlistEv
  cases hx : lockedBy s id n with
  | none => rfl
  | some x =>
    have ha : x.2.auction = false := by
      unfold lockedBy at hx
      unfold onAuction at h
      cases hj : s.nft.locks id n with
      | none => rw [hj] at hx; cases hx
      | some j =>
        rw [hj] at hx h
        dsimp only [Option.bind] at hx h
        cases hl : s.listings j with
        | none => rw [hl] at hx; cases hx
        | some l => rw [hl] at hx h; cases hx; exact h
    dsimp only
    rw [if_neg (by rw [ha]; decide), pic_removed (l := x.2) rfl]
    rfl

/-- One operation: the reader's picture follows the storage. -/
theorem told_step {c : Cfg} {s s' : St} {op : Op} (hg : Good c s []) (hq : NoAuctionAccept c s op) (hs : step c s op = .ok s') :
    picture s' = (events c s op).foldl follow (picture s) := by
  cases op with
  | list b w t y a p d m =>
    simp only [step, list, bind_ok, pure_ok] at hs
    obtain ⟨_, _, _, _, _, _, _, _, s1, h1, e, he, hs⟩ := hs
    subst hs
    obtain ⟨e1, e2⟩ := lockTokens_face h1
    have hb : s.bids s.nextListing = none := by
      cases hx : s.bids s.nextListing with
      | none => rfl
      | some b => exact absurd (hg.mi.bid _ _ hx).2.2 (Nat.lt_irrefl _)
    have k1 : s1.listings = s.listings := congrArg Face.listings e1
    have k2 : s1.bids = s.bids := congrArg Face.bids e1
    have k3 : s1.offers = s.offers := congrArg Face.offers e1
    have k4 : s1.markets = s.markets := congrArg Face.markets e1
    have k5 : s1.feeTo = s.feeTo := congrArg Face.feeTo e1
    have key : picture (addListing s1 ⟨b, a, p, e, t, y, w, ‹_›, m⟩) =
        { picture s with listings := upd (picture s).listings s.nextListing (some ⟨b, t, a, p, w, m, none⟩) } := by
      unfold picture
      simp only [addListing, k1, k2, k3, k4, k5, e2, Picture.mk.injEq, and_true]
      funext j
      by_cases hj : j = s.nextListing
      · subst hj; rw [upd_same, upd_same, Option.map_some, hb]
      · rw [upd_ne _ _ hj, upd_ne _ _ hj]
    rw [key]
    show _ = (listEv c s b w t a p d m).foldl follow (picture s)
    unfold listEv
    rw [he]
    dsimp only
    cases b <;> rfl
  | updatePrice w i p =>
    simp only [step, updatePrice, bind_ok, okOr_ok, pure_ok] at hs
    obtain ⟨_, _, l, hl, _, _, _, _, hs⟩ := hs
    subst hs
    show _ = (priceEv s i p).foldl follow (picture s)
    unfold priceEv
    rw [hl]
    simp only [List.foldl_cons, List.foldl_nil, follow, picture, Picture.mk.injEq, and_true]
    funext j
    by_cases hj : j = i
    · subst hj; rw [upd_same, upd_same, hl]; rfl
    · rw [upd_ne _ _ hj, upd_ne _ _ hj]
  | buy w i => exact buyEv_told hs
  | buyMulti w is => exact buyMultiEv_told is hs
  | bid w i x =>
    obtain ⟨l, e, hl, hf⟩ := bid_face hs
    rw [picture_eq, hf]
    show _ = (bidEv s w i x).foldl follow (picture s)
    unfold bidEv
    rw [hl]
    simp only [List.foldl_cons, List.foldl_nil, follow, picture, pic, face, Picture.mk.injEq, and_true]
    funext j
    by_cases hj : j = i
    · subst hj; rw [upd_same, upd_same, upd_same, hl]; rfl
    · rw [upd_ne _ _ hj, upd_ne _ _ hj, upd_ne _ _ hj]
  | cancelSale w i =>
    simp only [step, cancelSale, bind_ok, okOr_ok, pure_ok] at hs
    obtain ⟨l, hl, _, _, _, _, s1, h1, hs⟩ := hs
    subst hs
    have e := unlockTokens_face h1
    rw [pic_removed (l := l) rfl, picture_face e]
    show _ = (cancelEv s i).foldl follow (picture s)
    unfold cancelEv
    rw [hl]
    dsimp only
    split <;> rfl
  | makeOffer w id n x a m =>
    simp only [step, makeOffer, bind_ok, pure_ok] at hs
    obtain ⟨_, _, _, _, _, _, _, _, _, _, _, _, _, _, _, _, hs⟩ := hs
    subst hs
    show _ = (offerEv s w x a m).foldl follow (picture s)
    simp only [offerEv, List.foldl_cons, List.foldl_nil, follow, picture, Picture.mk.injEq, and_true, true_and]
    funext j
    by_cases hj : j = s.nextOffer
    · subst hj; rw [upd_same, upd_same]; rfl
    · rw [upd_ne _ _ hj, upd_ne _ _ hj]
  | cancelOffer w i =>
    simp only [step, cancelOffer, bind_ok, okOr_ok] at hs
    obtain ⟨o, ho, _, _, _, _, hs⟩ := hs
    rw [pic_offer (s := s) ((removeOffer_face hs).trans rfl)]
    show _ = (cancelOfferEv s i).foldl follow (picture s)
    unfold cancelOfferEv
    rw [ho]
    rfl
  | acceptOffer w i =>
    simp only [step, acceptOffer, bind_ok, okOr_ok] at hs
    obtain ⟨o, ho, _, _, _, _, s1, h1, hs⟩ := hs
    have e1 := settle_face h1
    rw [pic_offer (s := s1) (removeOffer_face hs), picture_face e1, unlistEv_told (hq.2 w i o rfl ho)]
    show _ = (acceptEv s i).foldl follow (picture s)
    unfold acceptEv
    rw [ho]
    dsimp only
    rw [List.foldl_append]
    rfl
  | registerMarket w a p =>
    simp only [step, registerMarket, bind_ok, pure_ok] at hs
    obtain ⟨_, _, _, _, hs⟩ := hs
    subst hs
    rfl
  | setFeeTo f => cases hs; rfl
  | nextBlock ids =>
    simp only [step, nextBlock, bind_ok, pure_ok] at hs
    obtain ⟨_, _, _, _, hs⟩ := hs
    subst hs
    exact closeAllEv_told ids _
  | nft op =>
    simp only [step, bind_ok, pure_ok] at hs
    obtain ⟨_, _, hs⟩ := hs
    subst hs
    rfl
  | sft op =>
    simp only [step, bind_ok, pure_ok] at hs
    obtain ⟨_, _, hs⟩ := hs
    subst hs
    rfl
  | assets op =>
    simp only [step, bind_ok, pure_ok] at hs
    obtain ⟨_, _, hs⟩ := hs
    subst hs
    rfl

theorem Told.reach {c : Cfg} {G : St → Op → Prop} (hG : ∀ s op, G s op → Env c s op) {s t : St} {log : List Ev}
    (h : Reach c (Env c) s) (ht : Told c G s t log) : Reach c (Env c) t := by
  induction ht with
  | refl => exact h
  | step _ hg hs ih => exact ih.step (hG _ _ hg) hs

/-- **C233 (partial).** Whoever knows the marketplace's state at some point and follows its events from there knows at any later point
which listings are open, what is for sale in each, for what price, by whom and through which marketplace, the highest bid of each auction,
which offers are open, the registered marketplaces and the receiver of the network's fee. This holds as long as nobody accepts an offer for a
token that is on auction; see `C233_refuted`. The token of an offer, the buyer a listing is reserved for, its royalties and its
closing block after a late bid are not in the events. -/
theorem C233_partial {c : Cfg} {s t : St} {log : List Ev} (h : Reach c (Env c) s) (ht : Told c (NoAuctionAccept c) s t log) :
    log.foldl follow (picture s) = picture t := by
  induction ht with
  | refl => rfl
  | step ht' hq hs ih =>
    rw [List.foldl_append, ih]
    exact (told_step ((ht'.reach (fun _ _ h => h.1) h).good (fun _ _ h => h)) hq hs).symm

/-! ## What is always right -/

/-- `k` agrees with `k'`, except that it may show auctions that are over. -/
structure Behind (k k' : Picture) : Prop where
  offers : k.offers = k'.offers
  markets : k.markets = k'.markets
  feeTo : k.feeTo = k'.feeTo
  listings : ∀ i, k.listings i = k'.listings i ∨ (k'.listings i = none ∧ ∃ v, k.listings i = some v ∧ v.auction = true)

theorem Behind.refl (k : Picture) : Behind k k := ⟨rfl, rfl, rfl, fun _ => .inl rfl⟩

theorem Behind.trans {k k' k'' : Picture} (h : Behind k k') (h' : Behind k' k'') : Behind k k'' := by
  refine ⟨h.offers.trans h'.offers, h.markets.trans h'.markets, h.feeTo.trans h'.feeTo, fun i => ?_⟩
  rcases h.listings i with h1 | ⟨h1, v, h2, h3⟩ <;> rcases h'.listings i with h4 | ⟨h4, w, h5, h6⟩
  · exact .inl (h1.trans h4)
  · exact .inr ⟨h4, w, h1.trans h5, h6⟩
  · exact .inr ⟨h4 ▸ h1, v, h2, h3⟩
  · exact .inr ⟨h4, v, h2, h3⟩

theorem Behind.setListing {k k' : Picture} (h : Behind k k') (i : Nat) (x : Option Shown) :
    Behind { k with listings := upd k.listings i x } { k' with listings := upd k'.listings i x } := by
  refine ⟨h.offers, h.markets, h.feeTo, fun j => ?_⟩
  by_cases hj : j = i
  · subst hj; left; show upd _ _ _ _ = upd _ _ _ _; rw [upd_same, upd_same]
  · show upd _ _ _ _ = upd _ _ _ _ ∨ (upd _ _ _ _ = none ∧ ∃ v, upd _ _ _ _ = some v ∧ _)
    rw [upd_ne _ _ hj, upd_ne _ _ hj]
    exact h.listings j

theorem Behind.mapListing {k k' : Picture} (h : Behind k k') (i : Nat) (g : Shown → Shown) (hg : ∀ v, (g v).auction = v.auction) :
    Behind { k with listings := upd k.listings i ((k.listings i).map g) }
      { k' with listings := upd k'.listings i ((k'.listings i).map g) } := by
  refine ⟨h.offers, h.markets, h.feeTo, fun j => ?_⟩
  show upd _ _ _ _ = upd _ _ _ _ ∨ (upd _ _ _ _ = none ∧ ∃ v, upd _ _ _ _ = some v ∧ _)
  by_cases hj : j = i
  · subst hj
    rw [upd_same, upd_same]
    rcases h.listings j with h1 | ⟨h1, v, h2, h3⟩
    · left; rw [h1]
    · right; rw [h1, h2]; exact ⟨rfl, g v, rfl, (hg v).trans h3⟩
  · rw [upd_ne _ _ hj, upd_ne _ _ hj]
    exact h.listings j

theorem Behind.follow {k k' : Picture} (h : Behind k k') (e : Ev) : Behind (follow k e) (follow k' e) := by
  cases e with
  | saleList i t m p a w e => exact h.setListing i _
  | auctionOpen i t m a p w e => exact h.setListing i _
  | priceUpdate i t m p => exact h.mapListing i _ (fun _ => rfl)
  | bid i t m x w => exact h.mapListing i _ (fun _ => rfl)
  | saleComplete i t m p a b w => exact h.setListing i _
  | saleClose i t m y => exact h.setListing i _
  | auctionSold i t m a p w => exact h.setListing i _
  | auctionClose i t m y => exact h.setListing i _
  | register w p m => exact ⟨h.offers, by show upd _ _ _ = upd _ _ _; rw [h.markets], h.feeTo, h.listings⟩
  | offer i x a m w => exact ⟨by show upd _ _ _ = upd _ _ _; rw [h.offers], h.markets, h.feeTo, h.listings⟩
  | offerCancel i m id n => exact ⟨by show upd _ _ _ = upd _ _ _; rw [h.offers], h.markets, h.feeTo, h.listings⟩
  | offerAccept i m id n x a => exact ⟨by show upd _ _ _ = upd _ _ _; rw [h.offers], h.markets, h.feeTo, h.listings⟩
  | feeToSet f => exact ⟨h.offers, h.markets, rfl, h.listings⟩

theorem Behind.all {k k' : Picture} (h : Behind k k') : ∀ (l : List Ev), Behind (l.foldl Market.follow k) (l.foldl Market.follow k')
  | [] => h
  | e :: l => Behind.all (h.follow e) l

theorem unlist_behind (s : St) (id n : Nat) : Behind ((unlistEv s id n).foldl follow (picture s)) (picture (unlist s id n)) := by
  cases ho : onAuction s id n with
  | false => rw [unlistEv_told ho]; exact .refl _
  | true =>
    unfold unlist unlistEv
    cases hx : lockedBy s id n with
    | none => exact .refl _
    | some x =>
      have hl : s.listings x.1 = some x.2 := by
        unfold lockedBy at hx
        cases hj : s.nft.locks id n with
        | none => rw [hj] at hx; cases hx
        | some j =>
          rw [hj] at hx
          dsimp only [Option.bind] at hx
          cases hl : s.listings j with
          | none => rw [hl] at hx; cases hx
          | some l => rw [hl] at hx; cases hx; exact hl
      dsimp only
      rw [pic_removed (l := x.2) rfl]
      split
      · rename_i ha
        refine ⟨rfl, rfl, rfl, fun j => ?_⟩
        show _ = upd _ _ _ _ ∨ (upd _ _ _ _ = none ∧ ∃ v, _ = some v ∧ _)
        by_cases hj : j = x.1
        · subst hj
          refine .inr ⟨upd_same _ _ _,
            ⟨⟨x.2.auction, x.2.tokens, x.2.asset, x.2.price, x.2.seller, x.2.market, s.bids x.1⟩, ?_, ?_⟩⟩
          · show (s.listings x.1).map _ = _
            rw [hl]; rfl
          · exact ha
        · rw [upd_ne _ _ hj]; exact .inl rfl
      · exact .refl _

theorem behind_step {c : Cfg} {s s' : St} {op : Op} (hg : Good c s []) (he : Env c s op) (hs : step c s op = .ok s') :
    Behind ((events c s op).foldl follow (picture s)) (picture s') := by
  by_cases hq : NoAuctionAccept c s op
  · rw [told_step hg hq hs]; exact .refl _
  · cases op with
    | acceptOffer w i =>
      simp only [step, acceptOffer, bind_ok, okOr_ok] at hs
      obtain ⟨o, ho, _, _, _, _, s1, h1, hs⟩ := hs
      have e1 := settle_face h1
      rw [pic_offer (s := s1) (removeOffer_face hs), picture_face e1]
      show Behind ((acceptEv s i).foldl follow (picture s)) _
      unfold acceptEv
      rw [ho]
      dsimp only
      rw [List.foldl_append]
      exact (unlist_behind s o.coll o.serial).follow (.offerAccept i o.market o.coll o.serial o.amount o.asset)
    | _ => exact absurd ⟨he, fun _ _ _ h => nomatch h⟩ hq

/-- **C233.** In every history, a reader of the events is right about every open listing, about every offer, about the marketplaces and
the fee receiver; a listing they wrongly take for open is an auction. So a fixed price listing never ends without an event. -/
theorem C233_behind {c : Cfg} {s t : St} {log : List Ev} (h : Reach c (Env c) s) (ht : Told c (Env c) s t log) :
    Behind (log.foldl follow (picture s)) (picture t) := by
  induction ht with
  | refl => exact .refl _
  | step ht' hq hs ih =>
    rw [List.foldl_append]
    exact (ih.all _).trans (behind_step ((ht'.reach (fun _ _ h => h) h).good (fun _ _ h => h)) hq hs)

/-! ## Concrete histories -/

/-- Run operations, ignoring failing ones, and collect the events. -/
def execLog (c : Cfg) (s : St) : List Op → St × List Ev
  | [] => (s, [])
  | op :: ops =>
    match step c s op with
    | .ok s1 => ((execLog c s1 ops).1, events c s op ++ (execLog c s1 ops).2)
    | .error _ => execLog c s ops

theorem Told.cons {c : Cfg} {G : St → Op → Prop} {s s1 t : St} {op : Op} {log : List Ev} (hg : G s op) (hs : Market.step c s op = .ok s1)
    (h : Told c G s1 t log) : Told c G s t (events c s op ++ log) := by
  induction h with
  | refl => exact (Told.refl.step hg hs : Told c G s s1 ([] ++ events c s op)) |> fun h => by simpa using h
  | step _ hg' hs' ih => rw [← List.append_assoc]; exact ih.step hg' hs'

theorem execLog_told {c : Cfg} {G : St → Op → Prop} : ∀ (ops : List Op) (s : St), (∀ op ∈ ops, ∀ s, G s op) →
    Told c G s (execLog c s ops).1 (execLog c s ops).2
  | [], _, _ => .refl
  | op :: ops, s, h => by
    unfold execLog
    split
    · rename_i s1 hs
      exact Told.cons (h op (List.mem_cons_self ..) s) hs (execLog_told ops s1 (fun o ho => h o (List.mem_cons_of_mem _ ho)))
    · exact execLog_told ops s (fun o ho => h o (List.mem_cons_of_mem _ ho))

/-- C233 as stated is false: account 2 makes an offer for a token, its owner puts the token on auction, account 3 bids, the owner accepts the
offer. The auction is gone, and no event says so: a reader still sees it with the bid of account 3. -/
theorem C233_refuted : ∃ t log, Reach cfg0 (Env cfg0) demo ∧ Told cfg0 (Env cfg0) demo t log ∧ t.listings 3 = none ∧
    (log.foldl follow (picture demo)).listings 3 = some ⟨true, .nft 100 [3], 4, 5, 1, none, some (3, 10)⟩ := by
  refine ⟨(execLog cfg0 demo strandOps).1, (execLog cfg0 demo strandOps).2, demo_reach, execLog_told _ _ ?_, ?_⟩
  · simp only [strandOps, List.forall_mem_cons, Env, cfg0]
    exact ⟨fun _ => by decide, fun _ => by decide, fun _ => trivial, fun _ h => nomatch h⟩
  · decide +kernel

/-- From the first block on: `demo`'s history, after which a price is changed, a bid is made and a listing is bought. -/
def storyOps : List Op := [.updatePrice 1 0 25, .bid 2 2 12, .buy 2 0, .cancelOffer 2 0]

theorem story_env : ∀ op ∈ storyOps, ∀ s, NoAuctionAccept cfg0 s op := by
  simp only [storyOps, List.forall_mem_cons, NoAuctionAccept, Env, cfg0]
  exact ⟨fun _ => ⟨trivial, fun _ _ _ h => nomatch h⟩, fun _ => ⟨by decide, fun _ _ _ h => nomatch h⟩,
    fun _ => ⟨by decide, fun _ _ _ h => nomatch h⟩, fun _ => ⟨trivial, fun _ _ _ h => nomatch h⟩, fun _ h => nomatch h⟩

example : Told cfg0 (NoAuctionAccept cfg0) demo (execLog cfg0 demo storyOps).1 (execLog cfg0 demo storyOps).2 ∧
    (execLog cfg0 demo storyOps).2.length = 4 :=
  ⟨execLog_told _ _ story_env, by decide +kernel⟩

/-! ## Each event is true -/

/-- The bid is given back in full, and the tokens stay where they are. -/
structure Returned (s s' : St) (pot : Acct) (a : AssetId) (w : Acct) (x : Nat) : Prop where
  bal : ∀ y, s'.hs.ledger.bal a y + (if y = pot then x else 0) = s.hs.ledger.bal a y + if y = w then x else 0
  others : ∀ b, b ≠ a → s'.hs.ledger.bal b = s.hs.ledger.bal b
  nft : s'.nft = s.nft
  sft : s'.sft = s.sft

/-- What the events of an ending listing may be, each with what it stands for. -/
inductive Ending (c : Cfg) (s s' : St) (i : Nat) (l : Listing) : List Ev → Prop
  | expired : l.auction = false → Freed s s' l.seller l.tokens → s'.hs = s.hs →
      Ending c s s' i l [.saleClose i l.tokens l.market .expired]
  | noBids : l.auction = true → s.bids i = none → Freed s s' l.seller l.tokens → s'.hs = s.hs →
      Ending c s s' i l [.auctionClose i l.tokens l.market .expiredNoBids]
  | sold (w : Acct) (x : Nat) : l.auction = true → s.bids i = some (w, x) →
      Paid s.hs s'.hs l.asset c.holds.pot l.seller l.royalties x → Delivered s s' l.seller w l.tokens →
      Ending c s s' i l [.auctionSold i l.tokens l.market l.asset x w]
  | failed (w : Acct) (x : Nat) : l.auction = true → s.bids i = some (w, x) → Returned s s' c.holds.pot l.asset w x →
      Ending c s s' i l [.auctionClose i l.tokens l.market .settlementFailed]

theorem closeEv_ending {c : Cfg} {s : St} {i : Nat} {l : Listing} {pend : List Nat} (hg : Good c s pend) (hl : s.listings i = some l) :
    Ending c s (closeOne c s i) i l (closeEv c s i) := by
  obtain ⟨_, _, o3, _⟩ := closeOne_outcome hg hl
  obtain ⟨g1, g2, g3, g4, g5, g6⟩ := hg.mi.lst i l hl
  cases hb : s.bids i with
  | none =>
    obtain ⟨p1, _, p2⟩ := o3 hb
    unfold closeEv
    rw [hl]
    dsimp only
    cases ha : l.auction with
    | false => exact .expired ha p2 p1
    | true =>
      rw [if_pos rfl]
      unfold closeAuctionEv
      rw [show (removeListing s i l).bids i = none from hb]
      exact .noBids ha hb p2 p1
  | some b =>
    obtain ⟨b1, b2, b3⟩ := hg.mi.bid i b hb
    have hcov := hg.mi.covers hb
    rw [g1] at hcov
    have ha := (g6 b hb).1
    have e0 : closeEv c s i = closeAuctionEv c (removeListing s i l) i l := by
      unfold closeEv
      rw [hl]
      exact if_pos ha
    have e1 : closeOne c s i = closeAuction c (removeListing s i l) i l := by
      unfold closeOne
      rw [hl]
      exact if_pos ha
    rw [e0, e1]
    unfold closeAuction closeAuctionEv
    rw [show (removeListing s i l).bids i = some b from hb]
    dsimp only
    cases hs : settle c { removeListing s i l with bids := upd (removeListing s i l).bids i none } b.1 l.seller l.asset
        l.tokens b.2 l.royalties with
    | ok s' =>
      dsimp only
      simp only [settle, bind_ok] at hs
      obtain ⟨h, e1, e2⟩ := hs
      obtain ⟨q0, q1, _, q2, q4, q5, q3⟩ := spendPay_ok e1 g3 b2 hg.mi.hi (hg.mi.iss _)
      have hd := unlockTransfer_delivered (by exact hg.lk.nr) (by exact hg.lk.si) e2
      have hfr : s'.hs = h := by
        revert e2
        cases l.tokens with
        | nft id ns =>
          intro e2
          simp only [unlockTransfer, bind_ok, ensure_ok, pure_ok] at e2
          obtain ⟨_, _, t, _, rfl⟩ := e2
          rfl
        | sft id xs =>
          intro e2
          simp only [unlockTransfer, bind_ok, pure_ok] at e2
          obtain ⟨_, _, t, _, rfl⟩ := e2
          rfl
      refine .sold b.1 b.2 ha hb ⟨q0, fun y => ?_, ?_, ?_⟩ ?_
      · rw [Nat.add_assoc, hfr]; exact q5 y
      · rw [hfr]; exact q4
      · rw [hfr]; exact q2
      · have := hd.1
        cases ht : l.tokens with
        | nft id ns => rw [ht] at this; exact this
        | sft id xs => rw [ht] at this; exact this
    | error e =>
      dsimp only
      obtain ⟨h, e1, q1, q2, q4, q5, q3⟩ := releaseSoft_ok
        (s := { removeListing s i l with bids := upd (removeListing s i l).bids i none }) (w := b.1) (a := l.asset)
        (amt := b.2) hg.mi.hi hcov b1
      rw [e1]
      exact .failed b.1 b.2 ha hb ⟨q5, q4, rfl, rfl⟩

theorem closeAllEv_append {c : Cfg} : ∀ (pre post : List Nat) (s : St),
    closeAllEv c (pre ++ post) s = closeAllEv c pre s ++ closeAllEv c post (pre.foldl (closeOne c) s)
  | [], _, _ => rfl
  | i :: pre, post, s => by
    rw [List.cons_append, closeAllEv, closeAllEv_append pre post, closeAllEv, List.foldl_cons, List.append_assoc]

/-- The listing an event is about. -/
def Ev.listing : Ev → Option Nat
  | .saleList i _ _ _ _ _ _ => some i
  | .saleComplete i _ _ _ _ _ _ => some i
  | .saleClose i _ _ _ => some i
  | .priceUpdate i _ _ _ => some i
  | .auctionOpen i _ _ _ _ _ _ => some i
  | .auctionSold i _ _ _ _ _ => some i
  | .auctionClose i _ _ _ => some i
  | .bid i _ _ _ _ => some i
  | _ => none

theorem closeEv_about {c : Cfg} {s : St} {i : Nat} {e : Ev} (h : e ∈ closeEv c s i) : e.listing = some i := by
  unfold closeEv at h
  split at h
  · cases h
  · split at h
    · unfold closeAuctionEv at h
      split at h
      · rw [List.mem_singleton] at h; subst h; rfl
      · split at h <;> (rw [List.mem_singleton] at h; subst h; rfl)
    · rw [List.mem_singleton] at h; subst h; rfl

theorem closeAllEv_about {c : Cfg} : ∀ {ids : List Nat} {s : St} {e : Ev}, e ∈ closeAllEv c ids s → ∃ i ∈ ids, e.listing = some i
  | [], _, _, h => nomatch h
  | i :: ids, s, e, h => by
    rcases List.mem_append.mp h with h | h
    · exact ⟨i, List.mem_cons_self .., closeEv_about h⟩
    · obtain ⟨j, h1, h2⟩ := closeAllEv_about h
      exact ⟨j, List.mem_cons_of_mem _ h1, h2⟩

/-- **C233 (endings).** When the block hook reaches listing `i` (in state `s1`, after the listings `pre` before it), exactly one event
is deposited for it. It says sold only if the tokens are delivered to the highest bidder and the price is distributed, and it names that bidder
and price; it says that settlement failed only if the bid is given back; it says expired only if the tokens are freed. -/
theorem C233_ends {c : Cfg} {s s' : St} (h : Reach c (Env c) s) {pre post : List Nat} {i : Nat}
    (hs : step c s (.nextBlock (pre ++ i :: post)) = .ok s') :
    ∃ s1 s2 l before ev after, s1 = pre.foldl (closeOne c) { s with now := s.now + 1, sched := upd s.sched (s.now + 1) [] } ∧
      s2 = closeOne c s1 i ∧ s' = post.foldl (closeOne c) s2 ∧ s.listings i = some l ∧ s1.bids i = s.bids i ∧
      events c s (.nextBlock (pre ++ i :: post)) = before ++ ev ++ after ∧
      (∀ e ∈ before ++ after, e.listing ≠ some i) ∧ Ending c s1 s2 i l ev := by
  have hg := h.good (fun _ _ h => h)
  obtain ⟨s1, e1, e2, g1, hn, _, k1, k2, l, hl, hc⟩ := nextBlock_split hg hs
  have hp : i ∉ pre := by
    simp only [step, nextBlock, bind_ok, ensure_ok, pure_ok] at hs
    obtain ⟨_, _, _, hp, _⟩ := hs
    have hnd : (pre ++ i :: post).Nodup := hp.nodup_iff.mpr (hg.st.nodup _)
    exact fun hm => (List.nodup_append.mp hnd).2.2 i hm i (List.mem_cons_self ..) rfl
  refine ⟨s1, closeOne c s1 i, l, closeAllEv c pre { s with now := s.now + 1, sched := upd s.sched (s.now + 1) [] },
    closeEv c s1 i, closeAllEv c post (closeOne c s1 i), e1, rfl, e2, hl, k2, ?_, fun e he hx => ?_,
    closeEv_ending g1 (k1.trans hl)⟩
  · rw [e1]
    show closeAllEv c (pre ++ i :: post) _ = _
    rw [closeAllEv_append, closeAllEv, List.append_assoc]
  · rcases List.mem_append.mp he with he | he
    · obtain ⟨j, h1, h2⟩ := closeAllEv_about he
      rw [h2] at hx
      cases hx
      exact hp h1
    · obtain ⟨j, h1, h2⟩ := closeAllEv_about he
      rw [h2] at hx
      cases hx
      exact hn h1

/-- The pieces on auction are sold to account 3 for 9, and the event says so. -/
example : (execLog cfg0 demo (wait 39 ++ [.nextBlock [2]])).2 = [.auctionSold 2 (.sft 100 [(0, 8)]) none 4 9 3] := by decide +kernel

/-- An auction that cannot be settled is reported as such. -/
example : (execLog cfg0 g0 failOps).2.getLast? = some (.auctionClose 0 (.nft 100 [0]) none .settlementFailed) := by decide +kernel

/-- **C233 (purchases).** A purchase deposits one event with the tokens, the price and the parties of the sale that took place. -/
theorem C233_buy {c : Cfg} {s s' : St} (h : Reach c (Env c) s) {who : Acct} {i : Nat} (hw : who ≠ c.holds.pot)
    (hs : step c s (.buy who i) = .ok s') :
    ∃ t m price a seller roy, events c s (.buy who i) = [.saleComplete i t m price a who seller] ∧
      Paid s.hs s'.hs a who seller roy price ∧ Delivered s s' seller who t := by
  obtain ⟨l, hl, _, _, _, hp, _, hd⟩ := C30_buy h hw hs
  refine ⟨l.tokens, l.market, l.price, l.asset, l.seller, l.royalties, ?_, hp, hd⟩
  show buyEv s who i = _
  unfold buyEv
  rw [hl]

example : (execLog cfg0 demo [.buy 2 0]).2 = [.saleComplete 0 (.nft 100 [0, 1]) none 10 4 2 1] := by decide +kernel

end Verif.Market
