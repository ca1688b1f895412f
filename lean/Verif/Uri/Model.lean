import Verif.Abi.Read

/-!
# Model of the URIs of tokens

/repo/primitives/src/nft.rs (`MetadataScheme`), and what sets, shows and sends it in pallet-nft, pallet-sft, pallet-xls20, pallet-nft-peg
and the ERC-721 and ERC-1155 contracts. Fees, limits of supply, permissions to mint and the ownership of tokens are left out (other
modules have them), so that more histories are considered than there are.
-/

namespace Verif.Uri

open Abi (Byte)

/-- The digits of a number below `10 ^ k`, without leading zeros, as text (`{}` of `u32`, in `write!`). -/
def decimal : Nat → Nat → List Byte
  | 0, _ => []
  | k + 1, n => if n < 10 then [Fin.ofNat 256 (48 + n)] else decimal k (n / 10) ++ [Fin.ofNat 256 (48 + n % 10)]

/-- A continuation byte within bounds. -/
def cont (lo hi : Nat) (b : Byte) : Bool := decide (lo ≤ b.val ∧ b.val ≤ hi)

/-- `core::str::from_utf8(…).is_ok()` (core library, RFC 3629), for texts of at most so many characters. -/
def utf8 : Nat → List Byte → Bool
  | _, [] => true
  | 0, _ :: _ => false
  | k + 1, a :: rest =>
    if a.val < 128 then utf8 k rest
    else match rest with
      | b :: rest2 =>
        if 194 ≤ a.val ∧ a.val ≤ 223 then cont 128 191 b && utf8 k rest2
        else match rest2 with
          | c :: rest3 =>
            if 224 ≤ a.val ∧ a.val ≤ 239 then
              cont (if a.val = 224 then 160 else 128) (if a.val = 237 then 159 else 191) b && cont 128 191 c && utf8 k rest3
            else match rest3 with
              | d :: rest4 =>
                if 240 ≤ a.val ∧ a.val ≤ 244 then
                  cont (if a.val = 240 then 144 else 128) (if a.val = 244 then 143 else 191) b && cont 128 191 c && cont 128 191 d &&
                    utf8 k rest4
                else false
              | [] => false
          | [] => false
      | [] => false

/-- nft.rs:63-68 `construct_token_uri`. -/
def tokenUriOf (base : List Byte) (serial : Nat) : List Byte :=
  (if utf8 base.length base = true then base else []) ++ decimal 10 serial

/-- nft.rs:41-46 `OriginChain`. -/
inductive Chain where
  | ethereum
  | root
  | xrpl
deriving DecidableEq

/-- The parts of /repo/pallet/nft/src/types.rs:89-110 `CollectionInformation` that matter. -/
structure Coll where
  owner : Nat
  base : List Byte
  chain : Chain
  /-- `cross_chain_compatibility.xrpl` -/
  xrpl : Bool
  /-- `next_serial_number` -/
  next : Nat
  /-- the tokens there are; `collection_issuance` is their number (C22) -/
  tokens : List Nat

/-- Of the storage of the pallets (/repo/pallet/nft/src/lib.rs:142-166, /repo/pallet/sft/src/lib.rs:101-126,
/repo/pallet/nft-peg/src/lib.rs:68-88, /repo/pallet/xls20/src/lib.rs:95-109) what concerns URIs. -/
structure St where
  coll : Nat → Option Coll
  nextColl : Nat
  /-- pallet-sft: owner and metadata scheme of a collection -/
  sft : Nat → Option (Nat × List Byte)
  /-- pallet-nft-peg `EthToRootNft`; an address is twenty bytes -/
  eth : List Byte → Option Nat
  /-- pallet-xls20 `CollectionMapping`: issuer and taxon -/
  xrplMap : Nat × Nat → Option Nat
  /-- ghost: what relayers were told to mint on XRPL (`Xls20MintRequest`): collection, serial number, URI -/
  told : List (Nat × Nat × List Byte)
  /-- ghost: the tokens on Ethereum that tokens here stand for: collection, address -/
  origin : Nat → Option (List Byte)

/-- /repo/pallet/nft/src/impls.rs:73-80 `token_uri`. -/
def tokenUri (s : St) (c n : Nat) : List Byte :=
  match s.coll c with
  | none => []
  | some k => tokenUriOf k.base n

/-- /repo/evm-precompiles/erc721/src/lib.rs:691-716 `tokenURI`. -/
def erc721Uri (s : St) (c n : Nat) : Except Err (List Byte) := do
  ensure (n < U32) "ERC721: Expected token id <= 2^32"
  pure (tokenUri s c n)

/-- /repo/pallet/sft/src/impls.rs:474-479 `token_uri`, /repo/evm-precompiles/erc1155/src/lib.rs:762-774 `uri`. -/
def erc1155Uri (s : St) (c n : Nat) : Except Err (List Byte) := do
  ensure (n < U32) "ERC1155: Expected token id <= 2^32"
  pure (match s.sft c with
    | none => []
    | some k => tokenUriOf k.2 n)

/-- /repo/pallet/nft/src/impls.rs:376-476 `do_create_collection`, without checks of names, royalties and limits. Ids are not reused. -/
def create (s : St) (k : Coll) : St := { s with
  coll := upd s.coll s.nextColl (some k)
  nextColl := s.nextColl + 1 }

/-- /repo/pallet/nft/src/lib.rs:412-435 `create_collection`; the length is a bound of the type. -/
def createCollection (s : St) (who : Nat) (base : List Byte) (xrpl : Bool) (initial : Nat) : Except Err St := do
  ensure (base.length ≤ 200) "decoding of the call"
  ensure (initial < U32) "not a u32"
  -- impls.rs:417-424
  ensure (initial = 0 ∨ xrpl = false) "InitialIssuanceNotZero"
  pure (create s ⟨who, base, .root, xrpl, initial, List.range initial⟩)

/-- /repo/pallet/nft/src/lib.rs:369-398 `set_base_uri`. -/
def setBaseUri (s : St) (who c : Nat) (base : List Byte) : Except Err St := do
  let k ← okOr (s.coll c) "NoCollectionFound"
  ensure (k.owner = who) "NotCollectionOwner"
  ensure (k.xrpl = false) "CannotUpdateMetadata"
  ensure (k.chain = .root) "CannotUpdateMetadata"
  ensure (base.length ≤ 200) "InvalidMetadataPath"
  pure { s with coll := upd s.coll c (some { k with base := base }) }

/-- /repo/pallet/nft/src/impls.rs:527-543 `do_set_owner`. -/
def setOwner (s : St) (who c new : Nat) : Except Err St := do
  let k ← okOr (s.coll c) "NoCollectionFound"
  ensure (k.owner = who) "NotCollectionOwner"
  pure { s with coll := upd s.coll c (some { k with owner := new }) }

/-- /repo/pallet/nft/src/lib.rs:302-322 `claim_unowned_collection`, by root. -/
def claim (s : St) (c new : Nat) : Except Err St := do
  let k ← okOr (s.coll c) "NoCollectionFound"
  pure { s with coll := upd s.coll c (some { k with owner := new }) }

/-- /repo/pallet/nft/src/impls.rs:506-524 `enable_xls20_compatibility`. -/
def enable (s : St) (who c : Nat) : Except Err St := do
  let k ← okOr (s.coll c) "NoCollectionFound"
  ensure (k.owner = who) "NotCollectionOwner"
  ensure (k.tokens = []) "CollectionIssuanceNotZero"
  pure { s with coll := upd s.coll c (some { k with xrpl := true }) }

/-- /repo/pallet/xls20/src/lib.rs:329-350 `send_xls20_requests`. -/
def requests (c : Nat) (k : Coll) (ns : List Nat) : List (Nat × Nat × List Byte) := ns.map (fun n => (c, n, tokenUriOf k.base n))

/-- /repo/pallet/nft/src/lib.rs:518-590 `mint`, by whoever may. -/
def mint (s : St) (c q : Nat) : Except Err St := do
  let k ← okOr (s.coll c) "NoCollectionFound"
  -- impls.rs:224-228 and 230-232
  ensure (k.chain = .root) "AttemptedMintOnBridgedToken"
  ensure (k.next + q < U32) "NoAvailableIds"
  let ns := (List.range q).map (k.next + ·)
  pure { s with
    coll := upd s.coll c (some { k with
      next := k.next + q
      tokens := k.tokens ++ ns })
    told := s.told ++ if k.xrpl = true then requests c k ns else [] }

/-- /repo/pallet/nft/src/impls.rs:474-504 `do_burn`, by whoever may. -/
def burn (s : St) (c n : Nat) : Except Err St := do
  let k ← okOr (s.coll c) "NoCollectionFound"
  ensure (n ∈ k.tokens) "NoToken"
  pure { s with coll := upd s.coll c (some { k with tokens := k.tokens.filter (· ≠ n) }) }

/-- /repo/pallet/xls20/src/lib.rs:198-239 `re_request_xls20_mint`; the mapping of a token is left out. -/
def reRequest (s : St) (who c : Nat) (ns : List Nat) : Except Err St := do
  let k ← okOr (s.coll c) "NoCollectionFound"
  ensure (k.owner = who) "NotCollectionOwner"
  ensure (k.xrpl = true) "NotXLS20Compatible"
  ensure (∀ n ∈ ns, n ∈ k.tokens) "NoToken"
  pure { s with told := s.told ++ requests c k ns }

/-- A digit of a hexadecimal number, in lower case. -/
def hexDigit (n : Nat) : Byte := if n < 10 then Fin.ofNat 256 (48 + n) else Fin.ofNat 256 (87 + n)

/-- Bytes in hexadecimal (`{:?}` of `H160`, after `0x`). -/
def hex : List Byte → List Byte
  | [] => []
  | b :: bs => hexDigit (b.val / 16) :: hexDigit (b.val % 16) :: hex bs

/-- "ethereum://0x", the address, "/" (/repo/pallet/nft-peg/src/lib.rs:306-311). -/
def ethBase (a : List Byte) : List Byte := [101, 116, 104, 101, 114, 101, 117, 109, 58, 47, 47, 48, 120] ++ hex a ++ [47]

/-- "xls20://" (/repo/pallet/xls20/src/lib.rs:401). -/
def xls20Base : List Byte := [120, 108, 115, 50, 48, 58, 47, 47]

/-- New tokens of a bridged collection (`mint_bridged_nft`); those there are already are left out. -/
def mintBridged (s : St) (c : Nat) (ns : List Nat) : St :=
  match s.coll c with
  | none => s
  | some k => { s with coll := upd s.coll c (some { k with tokens := k.tokens ++ ns.filter (· ∉ k.tokens) }) }

/-- /repo/pallet/nft-peg/src/lib.rs:290-385 `do_deposit`: the deposit of tokens of an ERC-721 contract at an address; `peg` is the pallet's account. -/
def depositEth (s : St) (peg : Nat) (a : List Byte) (ns : List Nat) : Except Err St := do
  ensure (a.length = 20) "not an address"
  ensure (∀ n ∈ ns, n < U32) "not u32"
  match s.eth a with
  | some c => pure (mintBridged s c ns)
  | none =>
    let s1 := create s ⟨peg, ethBase a, .ethereum, false, 0, []⟩
    pure (mintBridged { s1 with
      eth := upd s1.eth a (some s.nextColl)
      origin := upd s1.origin s.nextColl (some a) } s.nextColl ns)

/-- /repo/pallet/xls20/src/lib.rs:366-424 `deposit_xls20_token`, of a token that did not come from here. -/
def depositXrpl (s : St) (pallet : Nat) (issuer taxon n : Nat) : Except Err St := do
  ensure (n < U32) "not a u32"
  match s.xrplMap (issuer, taxon) with
  | some c => pure (mintBridged s c [n])
  | none =>
    let s1 := create s ⟨pallet, xls20Base, .xrpl, true, 0, []⟩
    pure (mintBridged { s1 with xrplMap := upd s1.xrplMap (issuer, taxon) (some s.nextColl) } s.nextColl [n])

/-- /repo/pallet/sft/src/impls.rs:369-385 `do_set_base_uri`, and the creation of a collection. -/
def setSft (s : St) (who c : Nat) (base : List Byte) : Except Err St := do
  ensure (base.length ≤ 200) "decoding of the call"
  match s.sft c with
  | none => pure { s with sft := upd s.sft c (some (who, base)) }
  | some k => do
    ensure (k.1 = who) "NotCollectionOwner"
    pure { s with sft := upd s.sft c (some (who, base)) }

/-- The calls and events that set or show a URI; each cites its function where it is defined above. -/
inductive Op where
  | create (who : Nat) (base : List Byte) (xrpl : Bool) (initial : Nat)
  | setBaseUri (who c : Nat) (base : List Byte)
  | setOwner (who c new : Nat)
  | claim (c new : Nat)
  | enable (who c : Nat)
  | mint (c q : Nat)
  | burn (c n : Nat)
  | reRequest (who c : Nat) (ns : List Nat)
  | depositEth (peg : Nat) (a : List Byte) (ns : List Nat)
  | depositXrpl (pallet issuer taxon n : Nat)
  | setSft (who c : Nat) (base : List Byte)

/-- Each case is the function of that name above, or written out. -/
def step (s : St) : Op → Except Err St
  | .create w b x i => createCollection s w b x i
  | .setBaseUri w c b => setBaseUri s w c b
  | .setOwner w c n => setOwner s w c n
  | .claim c n => claim s c n
  | .enable w c => enable s w c
  | .mint c q => mint s c q
  | .burn c n => burn s c n
  | .reRequest w c ns => reRequest s w c ns
  | .depositEth p a ns => depositEth s p a ns
  | .depositXrpl p i t n => depositXrpl s p i t n
  | .setSft w c b => setSft s w c b

/-- Before there are any collections. -/
def init : St where
  coll := fun _ => none
  nextColl := 0
  sft := fun _ => none
  eth := fun _ => none
  xrplMap := fun _ => none
  told := []
  origin := fun _ => none

/-- What can be reached from the start by these operations; an operation that fails changes nothing.
Histories have no counterpart in the code. -/
inductive Reach : St → Prop
  | init : Reach init
  | step {s s' : St} {op : Op} : Reach s → step s op = .ok s' → Reach s'

/-- Run operations, `none` if one fails. -/
def exec (s : St) : List Op → Option St
  | [] => some s
  | op :: ops => match step s op with
    | .ok s' => exec s' ops
    | .error _ => none

theorem exec_reach : ∀ (ops : List Op) {s s' : St}, Reach s → exec s ops = some s' → Reach s'
  | [], _, _, h, e => by cases e; exact h
  | op :: ops, s, s', h, e => by
    unfold exec at e
    split at e
    · rename_i s1 h1
      exact exec_reach ops (.step h h1) e
    · exact absurd e (by simp)

end Verif.Uri
