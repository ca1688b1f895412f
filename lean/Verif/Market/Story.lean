import Verif.Market.Log
import Verif.Market.Bids

/-!
# C232: the index of open listings is exact. C233: the marketplace's events tell what happened
-/

namespace Verif.Market

/-! ## Specification: what somebody who reads the events knows -/

/-- What the events say of an open listing. -/
structure Shown where
  auction : Bool
  tokens : Tokens
  asset : AssetId
  price : Nat
  seller : Acct
  market : Option Nat
  bid : Option (Acct × Nat)
deriving DecidableEq

/-- What the events say of an open offer. -/
structure Asked where
  asset : AssetId
  amount : Nat
  buyer : Acct
  market : Option Nat
deriving DecidableEq

/-- The picture of a reader. -/
structure Picture where
  listings : Nat → Option Shown
  offers : Nat → Option Asked
  markets : Nat → Option (Acct × Nat)
  feeTo : Option Acct

/-- What the reader makes of one event. -/
def follow (k : Picture) : Ev → Picture
  | .saleList i t m p a w _ => { k with listings := upd k.listings i (some ⟨false, t, a, p, w, m, none⟩) }
  | .auctionOpen i t m a p w _ => { k with listings := upd k.listings i (some ⟨true, t, a, p, w, m, none⟩) }
  | .priceUpdate i _ _ p => { k with listings := upd k.listings i ((k.listings i).map (fun l => { l with price := p })) }
  | .bid i _ _ x w => { k with listings := upd k.listings i ((k.listings i).map (fun l => { l with bid := some (w, x) })) }
  | .saleComplete i _ _ _ _ _ _ => { k with listings := upd k.listings i none }
  | .saleClose i _ _ _ => { k with listings := upd k.listings i none }
  | .auctionSold i _ _ _ _ _ => { k with listings := upd k.listings i none }
  | .auctionClose i _ _ _ => { k with listings := upd k.listings i none }
  | .register w p m => { k with markets := upd k.markets m (some (w, p)) }
  | .offer i x a m w => { k with offers := upd k.offers i (some ⟨a, x, w, m⟩) }
  | .offerCancel i _ _ _ => { k with offers := upd k.offers i none }
  | .offerAccept i _ _ _ _ _ => { k with offers := upd k.offers i none }
  | .feeToSet f => { k with feeTo := f }

/-- The picture the storage gives. -/
def picture (s : St) : Picture where
  listings := fun i => (s.listings i).map (fun l => ⟨l.auction, l.tokens, l.asset, l.price, l.seller, l.market, s.bids i⟩)
  offers := fun i => (s.offers i).map (fun o => ⟨o.asset, o.amount, o.buyer, o.market⟩)
  markets := s.markets
  feeTo := s.feeTo

/-! ## The part of the state that matters here -/

/-- What the events of the marketplace tell. -/
structure Face where
  listings : Nat → Option Listing
  bids : Nat → Option (Acct × Nat)
  offers : Nat → Option Offer
  index : Nat → Nat → Bool
  markets : Nat → Option (Acct × Nat)
  feeTo : Option Acct

/-- That part of a state. -/
def face (s : St) : Face := ⟨s.listings, s.bids, s.offers, s.index, s.markets, s.feeTo⟩

theorem picture_face {s t : St} (h : face s = face t) : picture s = picture t := by
  injection h with h1 h2 h3 h4 h5 h6
  unfold picture
  rw [h1, h2, h3, h5, h6]

theorem lockTokens_face {s s' : St} {who : Acct} {i : Nat} {t : Tokens} (h : lockTokens s who i t = .ok s') :
    face s' = face s ∧ s'.nextListing = s.nextListing := by
  cases t <;> simp only [lockTokens, bind_ok, pure_ok] at h <;> obtain ⟨_, _, h⟩ := h <;> subst h <;> exact ⟨rfl, rfl⟩

theorem unlockTokens_face {s s' : St} {who : Acct} {t : Tokens} (h : unlockTokens s who t = .ok s') : face s' = face s := by
  cases t with
  | nft id ns => cases h; rfl
  | sft id xs =>
    simp only [unlockTokens, bind_ok, pure_ok] at h
    obtain ⟨_, _, h⟩ := h
    subst h
    rfl

theorem unlockSoft_face (s : St) (who : Acct) (t : Tokens) : face (unlockSoft s who t) = face s := by
  cases t <;> rfl

theorem unlockTransfer_face {c : Cfg} {s s' : St} {src dst : Acct} {t : Tokens} (h : unlockTransfer c s src dst t = .ok s') :
    face s' = face s := by
  cases t <;> simp only [unlockTransfer, bind_ok, pure_ok] at h <;> obtain ⟨_, _, _, _, h⟩ := h <;> subst h <;> rfl

theorem settle_face {c : Cfg} {s s' : St} {b w : Acct} {a : AssetId} {t : Tokens} {x : Nat} {r : List (Acct × Nat)}
    (h : settle c s b w a t x r = .ok s') : face s' = face s := by
  simp only [settle, bind_ok] at h
  obtain ⟨_, _, h⟩ := h
  exact (unlockTransfer_face h).trans rfl

theorem buy_face {c : Cfg} {s s' : St} {who : Acct} {i : Nat} (h : buy c s who i = .ok s') :
    ∃ l, s.listings i = some l ∧ face s' = face (removeListing s i l) := by
  simp only [buy, bind_ok, okOr_ok] at h
  obtain ⟨l, hl, _, _, _, _, _, _, h⟩ := h
  exact ⟨l, hl, (unlockTransfer_face h).trans rfl⟩

/-- Bidding changes the closing block of the listing at most, and the bid. -/
theorem bid_face {c : Cfg} {s s' : St} {who : Acct} {i x : Nat} (h : bid c s who i x = .ok s') :
    ∃ l e, s.listings i = some l ∧ face s' = { face s with
      listings := upd s.listings i (some { l with close := e })
      bids := upd s.bids i (some (who, x)) } := by
  simp only [bid, bind_ok, okOr_ok, pure_ok] at h
  obtain ⟨_, _, l, hl, _, _, _, _, _, _, _, _, h⟩ := h
  subst h
  unfold extend
  split
  · exact ⟨l, _, hl, rfl⟩
  · refine ⟨l, l.close, hl, ?_⟩
    have e : upd s.listings i (some { l with close := l.close }) = s.listings := by
      funext j
      rw [upd_apply]
      split
      · rename_i hj; rw [hj, hl]
      · rfl
    rw [e]
    rfl

/-- Closing a listing removes it, and the bid if it is an auction. -/
theorem closeOne_face {c : Cfg} {s : St} {i : Nat} {l : Listing} (hl : s.listings i = some l) :
    ∃ f, (∀ j, j ≠ i → f j = s.bids j) ∧ face (closeOne c s i) = { face (removeListing s i l) with bids := f } := by
  unfold closeOne
  rw [hl]
  dsimp only
  split
  · unfold closeAuction
    split
    · exact ⟨s.bids, fun _ _ => rfl, (unlockSoft_face _ _ _).trans rfl⟩
    · refine ⟨upd s.bids i none, fun j hj => upd_ne _ _ hj, ?_⟩
      split
      · rename_i h
        exact (settle_face h).trans rfl
      · unfold releaseSoft
        split <;> rfl
  · exact ⟨s.bids, fun _ _ => rfl, (unlockSoft_face _ _ _).trans rfl⟩

theorem closeOne_none {c : Cfg} {s : St} {i : Nat} (hl : s.listings i = none) : closeOne c s i = s := by
  unfold closeOne
  rw [hl]

theorem removeOffer_face {s s' : St} {i id n : Nat} (h : removeOffer s i id n = .ok s') :
    face s' = { face s with offers := upd s.offers i none } := by
  simp only [removeOffer, bind_ok, pure_ok] at h
  obtain ⟨_, _, h⟩ := h
  subst h
  rfl

/-! ## C232 -/

/-- The index lists exactly the open listings, each under the collection of its tokens. -/
def Idx (f : Face) : Prop := ∀ k i, f.index k i = true ↔ ∃ l, f.listings i = some l ∧ l.tokens.coll = k

theorem Idx.remove {s : St} (h : Idx (face s)) {i : Nat} {l : Listing} (hl : s.listings i = some l) :
    Idx (face (removeListing s i l)) := by
  intro k j
  have hk := h k j
  show upd s.index l.tokens.coll (upd (s.index l.tokens.coll) i false) k j = true ↔
    ∃ l', upd s.listings i none j = some l' ∧ l'.tokens.coll = k
  have hk' : s.index k j = true ↔ ∃ l, s.listings j = some l ∧ l.tokens.coll = k := hk
  by_cases hj : j = i
  · subst hj
    rw [upd_same]
    constructor
    · intro hx
      rw [upd_apply] at hx
      split at hx
      · rw [upd_same] at hx; cases hx
      · rename_i hne
        obtain ⟨l', e1, e2⟩ := hk'.mp hx
        rw [hl] at e1
        cases e1
        exact absurd e2.symm hne
    · rintro ⟨_, h1, _⟩; cases h1
  · rw [upd_ne _ _ hj, upd_apply]
    split
    · rename_i hkk
      rw [upd_ne _ _ hj, ← hkk]
      exact hk'
    · exact hk'

theorem Idx.add {s : St} (h : Idx (face s)) (hn : s.listings s.nextListing = none) (l : Listing) : Idx (face (addListing s l)) := by
  intro k j
  have hk' : s.index k j = true ↔ ∃ l, s.listings j = some l ∧ l.tokens.coll = k := h k j
  show upd s.index l.tokens.coll (upd (s.index l.tokens.coll) s.nextListing true) k j = true ↔
    ∃ l', upd s.listings s.nextListing (some l) j = some l' ∧ l'.tokens.coll = k
  by_cases hj : j = s.nextListing
  · subst hj
    rw [upd_same]
    constructor
    · intro hx
      rw [upd_apply] at hx
      split at hx
      · rename_i hkk; exact ⟨l, rfl, hkk.symm⟩
      · obtain ⟨l', e1, _⟩ := hk'.mp hx
        rw [hn] at e1; cases e1
    · rintro ⟨_, h1, h2⟩
      cases h1
      subst h2
      rw [upd_same, upd_same]
  · rw [upd_ne _ _ hj, upd_apply]
    split
    · rename_i hkk
      rw [upd_ne _ _ hj, ← hkk]
      exact hk'
    · exact hk'

/-- A listing is replaced by one of the same tokens. -/
theorem Idx.change {f : Face} (h : Idx f) {i : Nat} {l l' : Listing} (hl : f.listings i = some l) (ht : l'.tokens = l.tokens)
    (b : Nat → Option (Acct × Nat)) : Idx { f with listings := upd f.listings i (some l'), bids := b } := by
  intro k j
  refine (h k j).trans ?_
  show _ ↔ ∃ x, upd f.listings i (some l') j = some x ∧ x.tokens.coll = k
  by_cases hj : j = i
  · subst hj
    rw [upd_same]
    constructor
    · rintro ⟨x, h1, h2⟩
      rw [hl] at h1
      cases h1
      exact ⟨l', rfl, by rw [ht]; exact h2⟩
    · rintro ⟨x, h1, h2⟩
      cases h1
      exact ⟨l, hl, by rw [← ht]; exact h2⟩
  · rw [upd_ne _ _ hj]

theorem Idx.close {c : Cfg} {s : St} (h : Idx (face s)) (i : Nat) : Idx (face (closeOne c s i)) := by
  cases hl : s.listings i with
  | none => rw [closeOne_none hl]; exact h
  | some l =>
    obtain ⟨f, _, e⟩ := closeOne_face (c := c) hl
    rw [e]
    exact h.remove hl

theorem Idx.closeAll {c : Cfg} : ∀ (ids : List Nat) {s : St}, Idx (face s) → Idx (face (ids.foldl (closeOne c) s))
  | [], _, h => h
  | i :: ids, _, h => Idx.closeAll ids (h.close i)

theorem Idx.buyMulti {c : Cfg} {who : Acct} : ∀ (is : List Nat) {s s' : St}, Idx (face s) → buyMulti c who is s = .ok s' →
    Idx (face s')
  | [], _, _, h, hs => by cases hs; exact h
  | i :: is, s, s', h, hs => by
    simp only [Market.buyMulti, bind_ok] at hs
    obtain ⟨s1, h1, hs⟩ := hs
    obtain ⟨l, hl, e⟩ := buy_face h1
    exact Idx.buyMulti is (by rw [e]; exact h.remove hl) hs

theorem Idx.unlist {s : St} (h : Idx (face s)) (id n : Nat) : Idx (face (unlist s id n)) := by
  unfold Market.unlist
  split
  · rename_i x hx
    refine h.remove ?_
    unfold lockedBy at hx
    cases hj : s.nft.locks id n with
    | none => rw [hj] at hx; cases hx
    | some j =>
      rw [hj] at hx
      dsimp only [Option.bind] at hx
      cases hl : s.listings j with
      | none => rw [hl] at hx; cases hx
      | some l => rw [hl] at hx; cases hx; exact hl
  · exact h

theorem Idx.step {c : Cfg} {s s' : St} {op : Op} (hn : ∀ i l, s.listings i = some l → i < s.nextListing) (h : Idx (face s))
    (hs : step c s op = .ok s') : Idx (face s') := by
  cases op with
  | list b w t y a p d m =>
    simp only [Market.step, list, bind_ok, pure_ok] at hs
    obtain ⟨_, _, _, _, _, _, _, _, s1, h1, _, _, hs⟩ := hs
    subst hs
    obtain ⟨e1, e2⟩ := lockTokens_face h1
    have e3 : s1.listings = s.listings := congrArg Face.listings e1
    refine Idx.add (by rw [e1]; exact h) ?_ _
    cases hx : s1.listings s1.nextListing with
    | none => rfl
    | some l =>
      rw [e3, e2] at hx
      exact absurd (hn _ _ hx) (Nat.lt_irrefl _)
  | updatePrice w i p =>
    simp only [Market.step, updatePrice, bind_ok, okOr_ok, pure_ok] at hs
    obtain ⟨_, _, l, hl, _, _, _, _, hs⟩ := hs
    subst hs
    exact Idx.change h (l := l) (l' := { l with price := p }) hl rfl s.bids
  | buy w i =>
    obtain ⟨l, hl, e⟩ := buy_face hs
    rw [e]
    exact h.remove hl
  | buyMulti w is => exact Idx.buyMulti is h hs
  | bid w i x =>
    obtain ⟨l, e, hl, hf⟩ := bid_face hs
    rw [hf]
    exact Idx.change h (l := l) (l' := { l with close := e }) hl rfl _
  | cancelSale w i =>
    simp only [Market.step, cancelSale, bind_ok, okOr_ok, pure_ok] at hs
    obtain ⟨l, hl, _, _, _, _, s1, h1, hs⟩ := hs
    subst hs
    have e := unlockTokens_face h1
    have e3 : s1.listings = s.listings := congrArg Face.listings e
    exact Idx.remove (by rw [e]; exact h) (by rw [e3]; exact hl)
  | makeOffer w id n x a m =>
    simp only [Market.step, makeOffer, bind_ok, pure_ok] at hs
    obtain ⟨_, _, _, _, _, _, _, _, _, _, _, _, _, _, _, _, hs⟩ := hs
    subst hs
    exact h
  | cancelOffer w i =>
    simp only [Market.step, cancelOffer, bind_ok] at hs
    obtain ⟨_, _, _, _, _, _, hs⟩ := hs
    rw [removeOffer_face hs]
    exact h
  | acceptOffer w i =>
    simp only [Market.step, acceptOffer, bind_ok] at hs
    obtain ⟨o, _, _, _, _, _, s1, h1, hs⟩ := hs
    rw [removeOffer_face hs, settle_face h1]
    exact h.unlist o.coll o.serial
  | registerMarket w a p =>
    simp only [Market.step, registerMarket, bind_ok, pure_ok] at hs
    obtain ⟨_, _, _, _, hs⟩ := hs
    subst hs
    exact h
  | setFeeTo f => cases hs; exact h
  | nextBlock ids =>
    simp only [Market.step, nextBlock, bind_ok, pure_ok] at hs
    obtain ⟨_, _, _, _, hs⟩ := hs
    subst hs
    exact Idx.closeAll ids h
  | nft op =>
    simp only [Market.step, bind_ok, pure_ok] at hs
    obtain ⟨_, _, hs⟩ := hs
    subst hs
    exact h
  | sft op =>
    simp only [Market.step, bind_ok, pure_ok] at hs
    obtain ⟨_, _, hs⟩ := hs
    subst hs
    exact h
  | assets op =>
    simp only [Market.step, bind_ok, pure_ok] at hs
    obtain ⟨_, _, hs⟩ := hs
    subst hs
    exact h

/-- **C232.** After any history, a listing is in the index of open listings of a collection exactly if it is open and its tokens are of
that collection. -/
theorem C232 {c : Cfg} {s : St} (h : Reach c (Env c) s) (k i : Nat) :
    s.index k i = true ↔
      ∃ l, s.listings i = some l ∧ ((∃ ns, l.tokens = .nft k ns) ∨ ∃ xs, l.tokens = .sft k xs) := by
  have key : Idx (face s) := by
    induction h with
    | init hg =>
      intro k i
      show _ = true ↔ _
      have h1 := hg.index k i
      have h2 := hg.listings i
      constructor
      · intro hx; rw [show (face _).index k i = false from h1] at hx; cases hx
      · rintro ⟨l, hl, _⟩; rw [show (face _).listings i = none from h2] at hl; cases hl
    | step h' _ hs ih => exact Idx.step (h'.good (fun _ _ h => h)).st.below ih hs
  rw [show s.index k i = true ↔ _ from key k i]
  refine exists_congr fun l => and_congr_right fun _ => ?_
  cases l.tokens with
  | nft j ns =>
    constructor
    · rintro rfl
      exact .inl ⟨ns, rfl⟩
    · rintro (⟨_, h⟩ | ⟨_, h⟩)
      · cases h
        rfl
      · cases h
  | sft j xs =>
    constructor
    · rintro rfl
      exact .inr ⟨xs, rfl⟩
    · rintro (⟨_, h⟩ | ⟨_, h⟩)
      · cases h
      · cases h
        rfl

/-- In `demo` three listings of collection 100 are open. After one is cancelled, two are left. -/
example : (demo.index 100 0, demo.index 100 1, demo.index 100 2, demo.index 100 3, demo.index 101 0) = (true, true, true, false, false) ∧
    ((step cfg0 demo (.cancelSale 1 0)).toOption.map (fun s => (s.index 100 0, s.index 100 1))) = some (false, true) := by
  decide +kernel

end Verif.Market
