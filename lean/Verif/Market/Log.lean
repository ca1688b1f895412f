import Verif.Market.Model

/-!
# The events of the marketplace pallet

What `/repo/pallet/marketplace/src/impls.rs` deposits with `deposit_event`, per operation, as a function of the state the
operation finds. Events of a call that fails are rolled back with it. Line numbers without a file refer to `impls.rs`. The
order of these events relative to those of other pallets is not modelled.
-/

namespace Verif.Market

/-- types.rs:211-218 `FixedPriceClosureReason`. -/
inductive SaleEnd where
  | vendorCancelled
  | expired
  | offerAccepted
deriving DecidableEq

/-- types.rs:200-207 `AuctionClosureReason`. -/
inductive AuctionEnd where
  | expiredNoBids
  | settlementFailed
  | vendorCancelled
deriving DecidableEq

/-- lib.rs:178-274 `Event`. `i` is the number of the listing or offer, `m` the marketplace. -/
inductive Ev where
  | saleList (i : Nat) (t : Tokens) (m : Option Nat) (price : Nat) (a : AssetId) (seller : Acct) (close : Nat)
  | saleComplete (i : Nat) (t : Tokens) (m : Option Nat) (price : Nat) (a : AssetId) (buyer seller : Acct)
  | saleClose (i : Nat) (t : Tokens) (m : Option Nat) (why : SaleEnd)
  | priceUpdate (i : Nat) (t : Tokens) (m : Option Nat) (price : Nat)
  | auctionOpen (i : Nat) (t : Tokens) (m : Option Nat) (a : AssetId) (price : Nat) (seller : Acct) (close : Nat)
  | auctionSold (i : Nat) (t : Tokens) (m : Option Nat) (a : AssetId) (price : Nat) (winner : Acct)
  | auctionClose (i : Nat) (t : Tokens) (m : Option Nat) (why : AuctionEnd)
  | bid (i : Nat) (t : Tokens) (m : Option Nat) (amount : Nat) (bidder : Acct)
  | register (acct : Acct) (p m : Nat)
  | offer (i amount : Nat) (a : AssetId) (m : Option Nat) (buyer : Acct)
  | offerCancel (i : Nat) (m : Option Nat) (id n : Nat)
  | offerAccept (i : Nat) (m : Option Nat) (id n amount : Nat) (a : AssetId)
  | feeToSet (f : Option Acct)
deriving DecidableEq

/-- 82-90, 201-210: a new listing. -/
def listEv (c : Cfg) (s : St) (auction : Bool) (who : Acct) (t : Tokens) (a : AssetId) (price : Nat) (dur : Option Nat)
    (m : Option Nat) : List Ev :=
  match endBlock c s dur with
  | .ok e =>
    if auction = true then [.auctionOpen s.nextListing t m a price who e] else [.saleList s.nextListing t m price a who e]
  | .error _ => []

/-- 107-112 `do_update_fixed_price`. -/
def priceEv (s : St) (i price : Nat) : List Ev :=
  match s.listings i with
  | some l => [.priceUpdate i l.tokens l.market price]
  | none => []

/-- 158-166 `do_buy`. -/
def buyEv (s : St) (who : Acct) (i : Nat) : List Ev :=
  match s.listings i with
  | some l => [.saleComplete i l.tokens l.market l.price l.asset who l.seller]
  | none => []

/-- lib.rs:464-473 `buy_multi`. -/
def buyMultiEv (c : Cfg) (who : Acct) : List Nat → St → List Ev
  | [], _ => []
  | i :: is, s =>
    match buy c s who i with
    | .ok s1 => buyEv s who i ++ buyMultiEv c who is s1
    | .error _ => []

/-- 257-263 `do_bid`. -/
def bidEv (s : St) (who : Acct) (i amount : Nat) : List Ev :=
  match s.listings i with
  | some l => [.bid i l.tokens l.market amount who]
  | none => []

/-- 269-293 `do_cancel_sale`. -/
def cancelEv (s : St) (i : Nat) : List Ev :=
  match s.listings i with
  | some l =>
    if l.auction = true then [.auctionClose i l.tokens l.market .vendorCancelled]
    else [.saleClose i l.tokens l.market .vendorCancelled]
  | none => []

/-- 336-342 `do_make_simple_offer`. -/
def offerEv (s : St) (who : Acct) (amount : Nat) (a : AssetId) (m : Option Nat) : List Ev := [.offer s.nextOffer amount a m who]

/-- 353-357 `do_cancel_offer`. -/
def cancelOfferEv (s : St) (i : Nat) : List Ev :=
  match s.offers i with
  | some o => [.offerCancel i o.market o.coll o.serial]
  | none => []

/-- 373-386: only a fixed price listing is announced as closed. -/
def unlistEv (s : St) (id n : Nat) : List Ev :=
  match lockedBy s id n with
  | some x => if x.2.auction = true then [] else [.saleClose x.1 x.2.tokens x.2.market .offerAccepted]
  | none => []

/-- 362-412 `do_accept_offer`. -/
def acceptEv (s : St) (i : Nat) : List Ev :=
  match s.offers i with
  | some o => unlistEv s o.coll o.serial ++ [.offerAccept i o.market o.coll o.serial o.amount o.asset]
  | none => []

/-- 478-546 `process_auction_closure`; the listing has been removed. -/
def closeAuctionEv (c : Cfg) (s : St) (i : Nat) (l : Listing) : List Ev :=
  match s.bids i with
  | none => [.auctionClose i l.tokens l.market .expiredNoBids]
  | some b =>
    match settle c { s with bids := upd s.bids i none } b.1 l.seller l.asset l.tokens b.2 l.royalties with
    | .ok _ => [.auctionSold i l.tokens l.market l.asset b.2 b.1]
    | .error _ => [.auctionClose i l.tokens l.market .settlementFailed]

/-- 436-456: one listing closes. -/
def closeEv (c : Cfg) (s : St) (i : Nat) : List Ev :=
  match s.listings i with
  | none => []
  | some l =>
    if l.auction = true then closeAuctionEv c (removeListing s i l) i l
    else [.saleClose i l.tokens l.market .expired]

/-- 434-457 `close_listings_at`. -/
def closeAllEv (c : Cfg) : List Nat → St → List Ev
  | [], _ => []
  | i :: is, s => closeEv c s i ++ closeAllEv c is (closeOne c s i)

/-- The events of a successful operation. -/
def events (c : Cfg) (s : St) : Op → List Ev
  | .list b w t _ a p d m => listEv c s b w t a p d m
  | .updatePrice _ i p => priceEv s i p
  | .buy w i => buyEv s w i
  | .buyMulti w is => buyMultiEv c w is s
  | .bid w i x => bidEv s w i x
  | .cancelSale _ i => cancelEv s i
  | .makeOffer w _ _ x a m => offerEv s w x a m
  | .cancelOffer _ i => cancelOfferEv s i
  | .acceptOffer _ i => acceptEv s i
  | .registerMarket w a p => [.register (a.getD w) p s.nextMarket]
  | .setFeeTo f => [.feeToSet f]
  | .nextBlock ids => closeAllEv c ids { s with
      now := s.now + 1
      sched := upd s.sched (s.now + 1) [] }
  | .nft _ => []
  | .sft _ => []
  | .assets _ => []

/-- From `s` to `t` by operations that satisfy `G`, depositing the events `log`. -/
inductive Told (c : Cfg) (G : St → Op → Prop) (s : St) : St → List Ev → Prop
  | refl : Told c G s s []
  | step {t t' : St} {log : List Ev} {op : Op} : Told c G s t log → G t op → step c t op = .ok t' →
      Told c G s t' (log ++ events c t op)

end Verif.Market
