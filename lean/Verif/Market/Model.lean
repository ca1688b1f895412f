import Verif.Nft.Model
import Verif.Sft.Model
import Verif.Holds.Model

/-!
# The marketplace pallet

Models `/repo/pallet/marketplace/src/{lib,impls,types}.rs` on top of the models of the NFT pallet, the SFT pallet and
the holds of the assets extension. Line numbers without a file refer to `impls.rs`.

Not modelled: weights; events are in `Market/Log.lean`. The ledgers inside the NFT and SFT
states (mint fees) are separate from `hs.ledger`; money other pallets move is the operation `assets`.
A listing id is a `u128` counter; `do_sell` does not check it for overflow, the model does. Block numbers stay
away from the end of `u32`.
-/

namespace Verif.Market

/-- types.rs:42-63 `ListingTokens`. -/
inductive Tokens where
  | nft (id : Nat) (ns : List Nat)
  | sft (id : Nat) (xs : List (Nat × Nat))
deriving DecidableEq

/-- types.rs:87-92 `get_collection_id`. -/
def Tokens.coll : Tokens → Nat
  | .nft id _ => id
  | .sft id _ => id

/-- types.rs:229-277 `Listing`, both kinds in one record; `price` is the fixed price or the reserve price. -/
structure Listing where
  auction : Bool
  asset : AssetId
  price : Nat
  close : Nat
  tokens : Tokens
  buyer : Option Acct
  seller : Acct
  royalties : List (Acct × Nat)
  market : Option Nat
deriving DecidableEq

/-- types.rs:182-190 `SimpleOffer`; the token is (`coll`, `serial`). -/
structure Offer where
  coll : Nat
  serial : Nat
  asset : AssetId
  amount : Nat
  buyer : Acct
  market : Option Nat
deriving DecidableEq

/-- Runtime constants; shares are in millionths. -/
structure Cfg where
  nft : Nft.Cfg
  sft : Sft.Cfg
  holds : Holds.Cfg
  /-- `PalletId` of the marketplace -/
  pid : Nat
  maxTokens : Nat
  maxOffers : Nat
  netFee : Nat
  defaultDur : Nat

/-- Storage (/repo/pallet/marketplace/src/lib.rs `#[pallet::storage]`). -/
structure St where
  nft : Nft.St
  sft : Sft.St
  hs : Holds.St
  listings : Nat → Option Listing
  /-- `ListingWinningBid` -/
  bids : Nat → Option (Acct × Nat)
  offers : Nat → Option Offer
  tokenOffers : Nat → Nat → List Nat
  /-- `ListingEndSchedule` -/
  sched : Nat → List Nat
  nextListing : Nat
  nextOffer : Nat
  nextMarket : Nat
  markets : Nat → Option (Acct × Nat)
  feeTo : Option Acct
  now : Nat
  /-- ghost: the payment asset of every listing ever made -/
  assetOf : Nat → AssetId
  /-- `OpenCollectionListings`: collection, listing -/
  index : Nat → Nat → Bool := fun _ _ => false

/-- types.rs:69-84 `validate`, with the bound of the vector. -/
def validate (c : Cfg) : Tokens → Except Err Unit
  | .nft _ ns => ensure (ns ≠ [] ∧ ns.length ≤ c.maxTokens) "EmptyTokens"
  | .sft _ xs => do
    ensure (xs ≠ [] ∧ xs.length ≤ c.maxTokens) "EmptyTokens"
    ensure (∀ x ∈ xs, x.2 ≠ 0) "ZeroBalance"

/-- types.rs:172-179 `get_royalties_schedule`. -/
def collRoyalties (s : St) : Tokens → Except Err (List (Acct × Nat))
  | .nft id _ => do
    let k ← okOr (s.nft.coll id) "NoCollectionFound"
    pure (k.royalties.getD [])
  | .sft id _ => do
    let k ← okOr (s.sft.coll id) "NoCollectionFound"
    pure (k.royalties.getD [])

/-- `entitlements.try_push`, at most 8 entries (613-617, 622-626). -/
def pushShare (l : List (Acct × Nat)) (x : Acct × Nat) : Except Err (List (Acct × Nat)) := do
  ensure (l.length < 8) "RoyaltiesInvalid"
  pure (l ++ [x])

/-- 608-618: the network fee. -/
def pushFee (c : Cfg) (s : St) (l : List (Acct × Nat)) : Except Err (List (Acct × Nat)) :=
  match s.feeTo with
  | none => .ok l
  | some f => pushShare l (f, c.netFee)

/-- 620-631: the share of the marketplace. -/
def pushMarket (s : St) (l : List (Acct × Nat)) : Option Nat → Except Err (List (Acct × Nat))
  | none => .ok l
  | some m => do
    let x ← okOr (s.markets m) "MarketplaceNotRegistered"
    pushShare l x

/-- /repo/primitives/src/nft.rs:93-98 `validate`. -/
def validShares (l : List (Acct × Nat)) : Bool :=
  !l.isEmpty && decide (l.length ≤ 8) && decide ((l.map Prod.snd).sum ≤ 1000000)

/-- 599-638 `calculate_bundle_royalties`. -/
def bundle (c : Cfg) (s : St) (t : Tokens) (m : Option Nat) : Except Err (List (Acct × Nat)) := do
  let l ← collRoyalties s t
  let l1 ← pushFee c s l
  let l2 ← pushMarket s l1 m
  ensure (l2 = [] ∨ validShares l2 = true) "RoyaltiesInvalid"
  pure l2

/-- `Permill * amount` (dependency): rounds to nearest, ties down. -/
def share (p amount : Nat) : Nat := (p * amount + 499999) / 1000000

/-- 572-592 `calculate_royalty_payouts`: `for_seller -= royalty` wraps in the release profile. -/
def payouts (seller : Acct) (roy : List (Acct × Nat)) (amount : Nat) : List (Acct × Nat) :=
  if validShares roy = true ∧ (roy.map Prod.snd).sum ≠ 0 then
    roy.map (fun x => (x.1, share x.2 amount)) ++
      [(seller, roy.foldl (fun acc x => (acc + U128 - share x.2 amount) % U128) amount)]
  else [(seller, amount)]

/-- types.rs:98-107: lock NFTs one after the other. -/
def lockNft (who : Acct) (id listing : Nat) : List Nat → Nft.St → Except Err Nft.St
  | [], s => .ok s
  | n :: ns, s => do
    let s1 ← Nft.setLock s who id n listing
    lockNft who id listing ns s1

/-- types.rs:108-113: reserve SFTs one after the other. -/
def reserveAll (who : Acct) (id : Nat) : List (Nat × Nat) → Sft.St → Except Err Sft.St
  | [], s => .ok s
  | x :: xs, s => do
    let s1 ← Sft.reserve s id x.1 x.2 who
    reserveAll who id xs s1

/-- types.rs:96-116 `lock_tokens`. -/
def lockTokens (s : St) (who : Acct) (listing : Nat) : Tokens → Except Err St
  | .nft id ns => do
    let t ← lockNft who id listing ns s.nft
    pure { s with nft := t }
  | .sft id xs => do
    let t ← reserveAll who id xs s.sft
    pure { s with sft := t }

/-- types.rs:122-125, 143-145: remove the locks of NFTs. -/
def unlockNft (id : Nat) (ns : List Nat) (s : Nft.St) : Nft.St := ns.foldl (fun t n => Nft.removeLock t id n) s

/-- types.rs:128-131, 154-157: free reserved SFTs, stopping at the first error. -/
def unreserveAll (who : Acct) (id : Nat) : List (Nat × Nat) → Sft.St → Except Err Sft.St
  | [], s => .ok s
  | x :: xs, s => do
    let s1 ← Sft.unreserve s id x.1 x.2 who
    unreserveAll who id xs s1

/-- The same loop outside a transaction: what was freed before an error stays freed. -/
def unreserveSoft (who : Acct) (id : Nat) : List (Nat × Nat) → Sft.St → Sft.St
  | [], s => s
  | x :: xs, s =>
    match Sft.unreserve s id x.1 x.2 who with
    | .ok s1 => unreserveSoft who id xs s1
    | .error _ => s

/-- types.rs:119-135 `unlock_tokens` inside an extrinsic. -/
def unlockTokens (s : St) (owner : Acct) : Tokens → Except Err St
  | .nft id ns => .ok { s with nft := unlockNft id ns s.nft }
  | .sft id xs => do
    let t ← unreserveAll owner id xs s.sft
    pure { s with sft := t }

/-- `let _ = unlock_tokens(..)` in a hook (443, 504). -/
def unlockSoft (s : St) (owner : Acct) : Tokens → St
  | .nft id ns => { s with nft := unlockNft id ns s.nft }
  | .sft id xs => { s with sft := unreserveSoft owner id xs s.sft }

/-- types.rs:139-167 `unlock_and_transfer`. -/
def unlockTransfer (c : Cfg) (s : St) (src dst : Acct) : Tokens → Except Err St
  | .nft id ns => do
    ensure (ns ≠ []) "EmptyTokens"
    let t ← Nft.doTransfer c.nft (unlockNft id ns s.nft) id ns src dst
    pure { s with nft := t }
  | .sft id xs => do
    let t ← unreserveAll src id xs s.sft
    let t' ← Sft.transfer c.sft t src id xs dst
    pure { s with sft := t' }

/-- 649-661 `get_listing_end_block`. -/
def endBlock (c : Cfg) (s : St) : Option Nat → Except Err Nat
  | some d => do
    ensure (0 < d) "DurationTooShort"
    pure (min (s.now + d) (U32 - 1))
  | none => .ok (min (s.now + c.defaultDur) (U32 - 1))

/-- The storage writes at the end of `do_sell` and `do_auction` (78-81, 202-205). -/
def addListing (s : St) (l : Listing) : St :=
  { s with
    listings := upd s.listings s.nextListing (some l)
    sched := upd s.sched l.close (s.nextListing :: s.sched l.close)
    assetOf := upd s.assetOf s.nextListing l.asset
    index := upd s.index l.tokens.coll (upd (s.index l.tokens.coll) s.nextListing true)
    nextListing := s.nextListing + 1 }

/-- 48-93 `do_sell` (`auction = false`) and 168-217 `do_auction`. -/
def list (c : Cfg) (s : St) (auction : Bool) (who : Acct) (t : Tokens) (buyer : Option Acct) (a : AssetId) (price : Nat)
    (dur : Option Nat) (m : Option Nat) : Except Err St := do
  ensure (price < U128) "not a u128"
  validate c t
  let roy ← bundle c s t m
  ensure (s.nextListing + 1 < U128) "NoAvailableIds"
  let s1 ← lockTokens s who s.nextListing t
  let e ← endBlock c s dur
  pure (addListing s1 ⟨auction, a, price, e, t, buyer, who, roy, m⟩)

/-- 95-115 `do_update_fixed_price`. -/
def updatePrice (s : St) (who : Acct) (i price : Nat) : Except Err St := do
  ensure (price < U128) "not a u128"
  let l ← okOr (s.listings i) "NotForFixedPriceSale"
  ensure (l.auction = false) "NotForFixedPriceSale"
  ensure (l.seller = who) "NotSeller"
  pure { s with listings := upd s.listings i (some { l with price := price }) }

/-- 460-475 `remove_listing`. -/
def removeListing (s : St) (i : Nat) (l : Listing) : St :=
  { s with
    listings := upd s.listings i none
    sched := upd s.sched l.close ((s.sched l.close).filter (fun j => decide (j ≠ i)))
    index := upd s.index l.tokens.coll (upd (s.index l.tokens.coll) i false) }

/-- Replace the balances. -/
def setLedger (s : St) (L : Ledger) : St := { s with hs := { s.hs with ledger := L } }

/-- 134-165 `do_buy`. -/
def buy (c : Cfg) (s : St) (who : Acct) (i : Nat) : Except Err St := do
  let l ← okOr (s.listings i) "NotForFixedPriceSale"
  ensure (l.auction = false) "NotForFixedPriceSale"
  ensure (∀ b, l.buyer = some b → who = b) "NotBuyer"
  let L ← Holds.splitTransfer s.hs.ledger l.asset who (payouts l.seller l.royalties l.price)
  unlockTransfer c (setLedger (removeListing s i l) L) l.seller who l.tokens

/-- lib.rs:464-473 `buy_multi`. -/
def buyMulti (c : Cfg) (who : Acct) : List Nat → St → Except Err St
  | [], s => .ok s
  | i :: is, s => do
    let s1 ← buy c s who i
    buyMulti c who is s1

/-- 226-231: the amount has to exceed the current bid, or reach the reserve price. -/
def beats (amount price : Nat) : Option (Acct × Nat) → Bool
  | some b => decide (b.2 < amount)
  | none => decide (price ≤ amount)

/-- 236-247: give the previous bidder their money back. -/
def refund (c : Cfg) (h : Holds.St) (a : AssetId) : Option (Acct × Nat) → Except Err Holds.St
  | some b => Holds.release c.holds h c.pid b.1 a b.2
  | none => .ok h

/-- 249-260: late bids extend the auction (`AUCTION_EXTENSION_PERIOD` is 40, types.rs:32). -/
def extend (s : St) (i : Nat) (l : Listing) : St :=
  if l.close - s.now ≤ 40 then
    { s with
      listings := upd s.listings i (some { l with close := s.now + 40 })
      sched := upd (upd s.sched l.close ((s.sched l.close).filter (fun j => decide (j ≠ i)))) (s.now + 40)
        (i :: (upd s.sched l.close ((s.sched l.close).filter (fun j => decide (j ≠ i))) (s.now + 40))) }
  else s

/-- 219-270 `do_bid`. -/
def bid (c : Cfg) (s : St) (who : Acct) (i amount : Nat) : Except Err St := do
  ensure (amount < U128) "not a u128"
  let l ← okOr (s.listings i) "NotForAuction"
  ensure (l.auction = true) "NotForAuction"
  ensure (beats amount l.price (s.bids i) = true) "BidTooLow"
  let h ← Holds.place c.holds s.hs c.pid who l.asset amount
  let h' ← refund c h l.asset (s.bids i)
  pure (extend { s with
    hs := h'
    bids := upd s.bids i (some (who, amount)) } i l)

/-- 272-304 `do_cancel_sale`. -/
def cancelSale (s : St) (who : Acct) (i : Nat) : Except Err St := do
  let l ← okOr (s.listings i) "TokenNotListed"
  ensure (l.seller = who) "NotSeller"
  ensure (l.auction = true → s.bids i = none) "TokenLocked"
  let s1 ← unlockTokens s who l.tokens
  pure (removeListing s1 i l)

/-- 316-322: the token is on an open auction. -/
def onAuction (s : St) (id n : Nat) : Bool :=
  (((s.nft.locks id n).bind s.listings).map Listing.auction).getD false

/-- 306-344 `do_make_simple_offer`. -/
def makeOffer (c : Cfg) (s : St) (who : Acct) (id n amount : Nat) (a : AssetId) (m : Option Nat) : Except Err St := do
  ensure (amount < U128) "not a u128"
  ensure (amount ≠ 0) "ZeroOffer"
  let o ← okOr (Nft.ownerOf s.nft id n) "NoToken"
  ensure (o ≠ who) "IsTokenOwner"
  ensure (s.nextOffer + 1 < U64) "NoAvailableIds"
  ensure (onAuction s id n = false) "TokenOnAuction"
  let h ← Holds.place c.holds s.hs c.pid who a amount
  ensure ((s.tokenOffers id n).length < c.maxOffers) "MaxOffersReached"
  pure { s with
    hs := h
    tokenOffers := upd s.tokenOffers id (upd (s.tokenOffers id) n (s.tokenOffers id n ++ [s.nextOffer]))
    offers := upd s.offers s.nextOffer (some ⟨id, n, a, amount, who, m⟩)
    nextOffer := s.nextOffer + 1 }

/-- 415-429 `remove_offer`. The list is sorted, so the binary search finds the id iff it is there. -/
def removeOffer (s : St) (i id n : Nat) : Except Err St := do
  ensure (s.tokenOffers id n = [] ∨ i ∈ s.tokenOffers id n) "NoAvailableIds"
  pure { s with
    offers := upd s.offers i none
    tokenOffers := upd s.tokenOffers id (upd (s.tokenOffers id) n ((s.tokenOffers id n).erase i)) }

/-- 346-360 `do_cancel_offer`. -/
def cancelOffer (c : Cfg) (s : St) (who : Acct) (i : Nat) : Except Err St := do
  let o ← okOr (s.offers i) "InvalidOffer"
  ensure (o.buyer = who) "NotBuyer"
  let h ← Holds.release c.holds s.hs c.pid who o.asset o.amount
  removeOffer { s with hs := h } i o.coll o.serial

/-- 551-569 `process_payment_and_transfer` (transactional). -/
def settle (c : Cfg) (s : St) (buyer seller : Acct) (a : AssetId) (t : Tokens) (amount : Nat) (roy : List (Acct × Nat)) :
    Except Err St := do
  let h ← Holds.spend c.holds s.hs c.pid buyer a (payouts seller roy amount)
  unlockTransfer c { s with hs := h } seller buyer t

/-- The listing a token is locked by, if it is still open. -/
def lockedBy (s : St) (id n : Nat) : Option (Nat × Listing) :=
  (s.nft.locks id n).bind (fun i => (s.listings i).map (fun l => (i, l)))

/-- 373-388: accepting an offer removes the listing the token is in. -/
def unlist (s : St) (id n : Nat) : St :=
  match lockedBy s id n with
  | some x => removeListing s x.1 x.2
  | none => s

/-- 362-412 `do_accept_offer`. -/
def acceptOffer (c : Cfg) (s : St) (who : Acct) (i : Nat) : Except Err St := do
  let o ← okOr (s.offers i) "InvalidOffer"
  ensure (Nft.ownerOf s.nft o.coll o.serial = some who) "NotTokenOwner"
  let roy ← bundle c (unlist s o.coll o.serial) (.nft o.coll [o.serial]) o.market
  let s1 ← settle c (unlist s o.coll o.serial) o.buyer who o.asset (.nft o.coll [o.serial]) o.amount roy
  removeOffer s1 i o.coll o.serial

/-- 519-533: the winner gets the money back if settlement fails; failing to do so is ignored. -/
def releaseSoft (c : Cfg) (s : St) (w : Acct) (a : AssetId) (amt : Nat) : St :=
  match Holds.release c.holds s.hs c.pid w a amt with
  | .ok h => { s with hs := h }
  | .error _ => s

/-- 478-546 `process_auction_closure`; the listing has been removed. -/
def closeAuction (c : Cfg) (s : St) (i : Nat) (l : Listing) : St :=
  match s.bids i with
  | none => unlockSoft s l.seller l.tokens
  | some b =>
    match settle c { s with bids := upd s.bids i none } b.1 l.seller l.asset l.tokens b.2 l.royalties with
    | .ok s' => s'
    | .error _ => releaseSoft c { s with bids := upd s.bids i none } b.1 l.asset b.2

/-- 436-456: close one listing. -/
def closeOne (c : Cfg) (s : St) (i : Nat) : St :=
  match s.listings i with
  | none => s
  | some l =>
    if l.auction = true then closeAuction c (removeListing s i l) i l
    else unlockSoft (removeListing s i l) l.seller l.tokens

/-- lib.rs:328-334 `on_initialize` and 434-457 `close_listings_at`. `ids` is the order in which the storage map yields
the scheduled listings. -/
def nextBlock (c : Cfg) (s : St) (ids : List Nat) : Except Err St := do
  ensure (s.now + 41 < U32) "end of block numbers"
  ensure (ids.Perm (s.sched (s.now + 1))) "not the scheduled listings"
  pure (ids.foldl (closeOne c) { s with
    now := s.now + 1
    sched := upd s.sched (s.now + 1) [] })

/-- 25-46 `do_register_marketplace`. -/
def registerMarket (s : St) (who : Acct) (acct : Option Acct) (p : Nat) : Except Err St := do
  ensure (p ≤ 1000000) "RoyaltiesInvalid"
  ensure (s.nextMarket + 1 < U32) "NoAvailableIds"
  pure { s with
    markets := upd s.markets s.nextMarket (some (acct.getD who, p))
    nextMarket := s.nextMarket + 1 }

/-- Calls, the block hook, and what the other pallets do in between. -/
inductive Op where
  | list (auction : Bool) (who : Acct) (t : Tokens) (buyer : Option Acct) (a : AssetId) (price : Nat) (dur : Option Nat)
      (m : Option Nat)
  | updatePrice (who : Acct) (i price : Nat)
  | buy (who : Acct) (i : Nat)
  | buyMulti (who : Acct) (is : List Nat)
  | bid (who : Acct) (i amount : Nat)
  | cancelSale (who : Acct) (i : Nat)
  | makeOffer (who : Acct) (id n amount : Nat) (a : AssetId) (m : Option Nat)
  | cancelOffer (who : Acct) (i : Nat)
  | acceptOffer (who : Acct) (i : Nat)
  | registerMarket (who : Acct) (acct : Option Acct) (p : Nat)
  | setFeeTo (f : Option Acct)
  | nextBlock (ids : List Nat)
  | nft (op : Nft.Op)
  | sft (op : Sft.Op)
  | assets (op : Holds.Op)

/-- Each case is the function of that name above, or written out. -/
def step (c : Cfg) (s : St) : Op → Except Err St
  | .list b w t y a p d m => list c s b w t y a p d m
  | .updatePrice w i p => updatePrice s w i p
  | .buy w i => buy c s w i
  | .buyMulti w is => buyMulti c w is s
  | .bid w i x => bid c s w i x
  | .cancelSale w i => cancelSale s w i
  | .makeOffer w id n x a m => makeOffer c s w id n x a m
  | .cancelOffer w i => cancelOffer c s w i
  | .acceptOffer w i => acceptOffer c s w i
  | .registerMarket w a p => registerMarket s w a p
  | .setFeeTo f => .ok { s with feeTo := f }
  | .nextBlock ids => nextBlock c s ids
  | .nft op => do
    let t ← Nft.step c.nft s.nft op
    pure { s with nft := t }
  | .sft op => do
    let t ← Sft.step c.sft s.sft op
    pure { s with sft := t }
  | .assets op => do
    let t ← Holds.step c.holds s.hs op
    pure { s with hs := t }

/-- Token operations of others: anything but the calls reserved to the marketplace, and bridges mint into bridged
collections only (`Nft.Bridged`). -/
def NftOutside (s : Nft.St) : Nft.Op → Prop
  | .setLock _ _ _ _ => False
  | .removeLock _ _ => False
  | op => Nft.Bridged s op

/-- Operations of the SFT pallet that users can make; reserving is the marketplace's own (impls.rs `do_sell`, `close_listing`). -/
def SftOutside : Sft.Op → Prop
  | .reserve _ _ _ _ => False
  | .unreserve _ _ _ _ => False
  | _ => True

/-- Money movements of others: the holding account signs nothing, the holds of the marketplace are its own, and
issuances stay a little below `2^128`. -/
def AssetsOutside (c : Cfg) (s : Holds.St) : Holds.Op → Prop
  | .place p w _ _ => p ≠ c.pid ∧ w ≠ c.holds.pot
  | .release p w _ _ => p ≠ c.pid ∧ w ≠ c.holds.pot
  | .spend p w _ xs => p ≠ c.pid ∧ w ≠ c.holds.pot ∧ ∀ x ∈ xs, x.1 ≠ c.holds.pot
  | .split _ src _ => src ≠ c.holds.pot
  | .transfer _ src _ _ => src ≠ c.holds.pot
  | .mint a _ x => s.ledger.iss a + x + 8 < U128
  | .burn _ src _ => src ≠ c.holds.pot

/-- The environment: the keyless holding account signs no call, other pallets keep to their own operations. -/
def Env (c : Cfg) (s : St) : Op → Prop
  | .list _ w _ _ _ _ _ _ => w ≠ c.holds.pot
  | .buy w _ => w ≠ c.holds.pot
  | .buyMulti w _ => w ≠ c.holds.pot
  | .bid w _ _ => w ≠ c.holds.pot
  | .makeOffer w _ _ _ _ _ => w ≠ c.holds.pot
  | .nft op => NftOutside s.nft op
  | .sft op => SftOutside op
  | .assets op => AssetsOutside c s.hs op
  | _ => True

/-- The chain before the first listing. -/
structure Genesis (c : Cfg) (s : St) : Prop where
  dur : 0 < c.defaultDur
  nft : Nft.Genesis s.nft
  sft : Sft.Genesis s.sft
  hs : Holds.Genesis s.hs
  iss : ∀ a, s.hs.ledger.iss a + 8 < U128
  listings : ∀ i, s.listings i = none
  bids : ∀ i, s.bids i = none
  offers : ∀ i, s.offers i = none
  tokenOffers : ∀ i n, s.tokenOffers i n = []
  sched : ∀ b, s.sched b = []
  index : ∀ k i, s.index k i = false
  now : s.now + 40 < U32

/-- States reached by operations that satisfy `G`. -/
inductive Reach (c : Cfg) (G : St → Op → Prop) : St → Prop
  | init {s : St} : Genesis c s → Reach c G s
  | step {s s' : St} {op : Op} : Reach c G s → G s op → step c s op = .ok s' → Reach c G s'

/-- Run operations, ignoring failing ones. -/
def exec (c : Cfg) (s : St) : List Op → St
  | [] => s
  | op :: ops => exec c (match step c s op with | .ok s1 => s1 | .error _ => s) ops

end Verif.Market
