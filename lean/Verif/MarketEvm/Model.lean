import Verif.Market.Model
import Verif.DexEvm.Model

/-!
# Model of the marketplace as a contract (`/repo/evm-precompiles/marketplace/src/lib.rs`)

A call of the built-in marketplace contract on top of the marketplace model `Verif.Market`. Simplifications: gas, logs
and the byte encoding of arguments and results are dropped; an argument is the number it decodes to (an address of 160
bits, any other of 256 bits). Whether the pallet's function is called directly or by dispatch makes no difference here
(the filters are modelled in `Verif.Entry`). The two functions `…WithMarketplaceId` and the ones without the suffix are
the same code (lib.rs:188-189, 193-194, 198-201).
-/

namespace Verif.MarketEvm

open Market (Tokens Listing Offer)

/-- lib.rs:103-136 `Action`: the functions with their arguments, in the order of the Solidity interface. -/
inductive Input where
  | registerMarketplace (account entitlement : Nat)
  | sellNft (collection : Nat) (serials : List Nat) (buyer asset price duration market : Nat)
  | sellSft (collection : Nat) (serials quantities : List Nat) (buyer asset price duration market : Nat)
  | updateFixedPrice (listing price : Nat)
  | buy (listing : Nat)
  | auctionNft (collection : Nat) (serials : List Nat) (asset reserve duration market : Nat)
  | auctionSft (collection : Nat) (serials quantities : List Nat) (asset reserve duration market : Nat)
  | bid (listing amount : Nat)
  | cancelSale (listing : Nat)
  | makeSimpleOffer (collection serial amount asset market : Nat)
  | cancelOffer (offer : Nat)
  | acceptOffer (offer : Nat)
  | getMarketplaceAccount (market : Nat)
  | getListingFromId (listing : Nat)
  | getOfferFromId (offer : Nat)
deriving DecidableEq

/-- What a function returns. A listing is reported as its kind, collection, serial numbers, price and asset
(1120-1143), an offer as collection, serial number, amount and buyer (1161-1168). -/
inductive Answer where
  | nothing
  | id (n : Nat)
  | account (a : Acct)
  | listing (auction : Bool) (collection : Nat) (serials : List Nat) (price : Nat) (asset : AssetId)
  | offer (collection serial amount : Nat) (buyer : Acct)
deriving DecidableEq

/-- 165-182: `FunctionModifier`. -/
def isView : Input → Bool
  | .getMarketplaceAccount _ | .getListingFromId _ | .getOfferFromId _ => true
  | _ => false

/-- `None` for zero: 241-247, 302-305, 314-317, 348-350. -/
def nonZero (n : Nat) : Option Nat := if n = 0 then none else some n

/-- 313, 92-99 and 314-317: the duration in blocks. -/
def duration (d : Nat) : Except Err (Option Nat) := do
  let n ← DexEvm.toBlock d
  pure (nonZero n)

/-- 331-345: serial numbers of a listing. -/
def serialList (c : Market.Cfg) (ns : List Nat) : Except Err (List Nat) := do
  ensure (∀ n ∈ ns, n < U32) "serial"
  ensure (ns.length ≤ c.maxTokens) "TooManySerials"
  pure ns

/-- 436-460: serial numbers with quantities. -/
def pieces (c : Market.Cfg) (ns qs : List Nat) : Except Err (List (Nat × Nat)) := do
  ensure (ns.length = qs.length) "length"
  ensure ((∀ n ∈ ns, n < U32) ∧ ∀ q ∈ qs, q < U128) "serial"
  ensure (ns.length ≤ c.maxTokens) "TooManySerials"
  pure (ns.zip qs)

/-- The collection at an address, by `evm_id_to_runtime_id`. -/
def collAt (pre a : Nat) : Except Err Nat := okOr (Precompile.decode pre a) "InvalidCollectionAddress"

/-- The asset at an address. -/
def assetAt (a : Nat) : Except Err AssetId := okOr (DexEvm.assetAt a) "InvalidAssetAddress"

/-- A `u32`, `u64` or `u128` argument. -/
def fits (n b : Nat) : Except Err Unit := ensure (n < b) "too large"

/-- 1171-1193 `split_listing_tokens`. -/
def splitTokens : Tokens → Nat × List Nat
  | .nft id ns => (id, ns)
  | .sft id xs => (id, xs.map Prod.fst)

/-- 284-387 `sell_nft`, 389-502 `sell_sft` (after the tokens are read); id 0 is no marketplace. -/
def sell (c : Market.Cfg) (s : Market.St) (caller : Acct) (t : Tokens) (buyer asset price dur market : Nat) :
    Except Err (Market.St × Answer) := do
  fits market U32
  let a ← assetAt asset
  let d ← duration dur
  fits price U128
  let s' ← Market.list c s false caller t (nonZero buyer) a price d (nonZero market)
  pure (s', .id s.nextListing)

/-- 610-713, 715-829: auctions (after the tokens are read); the marketplace is always given. -/
def auction (c : Market.Cfg) (s : Market.St) (caller : Acct) (t : Tokens) (asset reserve dur market : Nat) :
    Except Err (Market.St × Answer) := do
  fits market U32
  let d ← duration dur
  fits reserve U128
  let a ← assetAt asset
  let s' ← Market.list c s true caller t none a reserve d (some market)
  pure (s', .nothing)

/-- The functions. -/
def run (c : Market.Cfg) (s : Market.St) (caller : Acct) : Input → Except Err (Market.St × Answer)
  -- 229-282; `Permill::from_parts` cuts at one
  | .registerMarketplace account entitlement => do
    fits entitlement U32
    let s' ← Market.registerMarket s caller (nonZero account) (min entitlement 1000000)
    pure (s', .id s.nextMarket)
  | .sellNft coll ns buyer asset price dur market => do
    let id ← collAt Precompile.prefix721 coll
    let ns ← serialList c ns
    sell c s caller (.nft id ns) buyer asset price dur market
  | .sellSft coll ns qs buyer asset price dur market => do
    let id ← collAt Precompile.prefix1155 coll
    let xs ← pieces c ns qs
    sell c s caller (.sft id xs) buyer asset price dur market
  -- 504-557
  | .updateFixedPrice i price => do
    fits i U128
    fits price U128
    let s' ← Market.updatePrice s caller i price
    pure (s', .nothing)
  -- 559-608
  | .buy i => do
    fits i U128
    let s' ← Market.buy c s caller i
    pure (s', .nothing)
  | .auctionNft coll ns asset reserve dur market => do
    let id ← collAt Precompile.prefix721 coll
    let ns ← serialList c ns
    auction c s caller (.nft id ns) asset reserve dur market
  | .auctionSft coll ns qs asset reserve dur market => do
    let id ← collAt Precompile.prefix1155 coll
    let xs ← pieces c ns qs
    auction c s caller (.sft id xs) asset reserve dur market
  -- 831-871
  | .bid i amount => do
    fits i U128
    fits amount U128
    let s' ← Market.bid c s caller i amount
    pure (s', .nothing)
  -- 873-937
  | .cancelSale i => do
    fits i U128
    let s' ← Market.cancelSale s caller i
    pure (s', .nothing)
  -- 939-1008; the marketplace is cut to `u32` and always given
  | .makeSimpleOffer coll n amount asset market => do
    fits amount U128
    let id ← collAt Precompile.prefix721 coll
    fits n U32
    let a ← assetAt asset
    let s' ← Market.makeOffer c s caller id n amount a (some (min market (U32 - 1)))
    pure (s', .id s.nextOffer)
  -- 1010-1044
  | .cancelOffer i => do
    fits i U64
    let s' ← Market.cancelOffer c s caller i
    pure (s', .nothing)
  -- 1046-1083
  | .acceptOffer i => do
    fits i U64
    let s' ← Market.acceptOffer c s caller i
    pure (s', .nothing)
  -- 1085-1105
  | .getMarketplaceAccount m => do
    fits m U32
    let x ← okOr (s.markets m) "not registered"
    pure (s, .account x.1)
  -- 1107-1145
  | .getListingFromId i => do
    fits i U128
    let l ← okOr (s.listings i) "not found"
    pure (s, .listing l.auction (splitTokens l.tokens).1 (splitTokens l.tokens).2 l.price l.asset)
  -- 1147-1169
  | .getOfferFromId i => do
    fits i U64
    let o ← okOr (s.offers i) "not found"
    pure (s, .offer o.coll o.serial o.amount o.buyer)

/-- 159-208 `execute`: no change in a static call, no value. -/
def call (c : Market.Cfg) (s : Market.St) (isStatic : Bool) (caller : Acct) (value : Nat) (i : Input) :
    Except Err (Market.St × Answer) := do
  DexEvm.checkModifier isStatic value (if isView i then .view else .nonPayable)
  run c s caller i

end Verif.MarketEvm
