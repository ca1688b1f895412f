import Verif.Nft.Props
import Verif.Nft.Pages

/-!
# Model of the ERC-721 contract of a collection

/repo/evm-precompiles/erc721/src/lib.rs, its dispatch, arguments, answers and logs, and `initializeCollection` of
/repo/evm-precompiles/nft/src/lib.rs, on top of the model of the NFT pallet and of the token approvals. Arguments have
been decoded (the decoding is the subject of `Verif.Abi`): numbers are below `2^256`, addresses are accounts. Gas, names,
base URIs and token URIs are not modelled. The call of a receiver contract by `safeTransferFrom` is the subject of
`Verif.Callback`; here its second half, the transfer made after the receiver has answered, is an event of its own.
-/

namespace Verif.Evm721

open Nft (Cfg St)

/-- The call: collection addressed, caller, XRP attached in wei, static or not; `others` says whether the XLS-20 and NFI
pallets accept what is asked of them. -/
structure Msg where
  coll : Nat
  caller : Acct
  value : Nat
  static : Bool
  others : Bool
deriving DecidableEq

/-- lib.rs:83-118: the functions of the contract, without those about names and URIs. -/
inductive Call where
  | balanceOf (a : Acct)
  | ownerOf (n : Nat)
  | getApproved (n : Nat)
  | isApprovedForAll (o p : Acct)
  | totalSupply
  | owner
  | ownedTokens (a : Acct) (limit cursor : Nat)
  | supportsInterface (w : Nat)
  | transferFrom (src dst : Acct) (n : Nat)
  | approve (p : Acct) (n : Nat)
  | setApprovalForAll (p : Acct) (ok : Bool)
  | burn (n : Nat)
  | mint (dst : Acct) (q : Nat)
  | setMaxSupply (m : Nat)
  | togglePublicMint (on : Bool)
  /-- the asset is what the address of the payment token stands for, if anything -/
  | setMintFee (asset : Option AssetId) (fee : Nat)
  | renounceOwnership
  | transferOwnership (new : Acct)
  | enableXls20
  | reRequestXls20 (ns : List Nat)
deriving DecidableEq

/-- The logs, lib.rs:39-66. -/
inductive Log where
  | transfer (src dst : Acct) (n : Nat)
  | approval (owner operator : Acct) (n : Nat)
  | approvalForAll (owner operator : Acct) (ok : Bool)
  | ownership (old new : Acct)
  | maxSupply (m : Nat)
  | publicMint (on : Bool)
  | mintFee (asset : AssetId) (fee : Nat)
  | xls20Enabled
  | xls20Requested (n : Nat)
deriving DecidableEq

/-- Answers. -/
inductive Out where
  | unit
  | addr (a : Acct)
  | num (n : Nat)
  | flag (b : Bool)
  | page (cursor total : Nat) (l : List Nat)
deriving DecidableEq

/-- State, logs and answer of a call; an error is a revert, except `"Panic"`. -/
abbrev Res := Except Err (St × List Log × Out)

/-- lib.rs:172-188: the functions that are let through in a static call. All those that are not listed there are. -/
def view : Call → Bool
  | .approve _ _ => false
  | .transferFrom _ _ _ => false
  | .setApprovalForAll _ _ => false
  | .setMaxSupply _ => false
  | .renounceOwnership => false
  | .transferOwnership _ => false
  | .enableXls20 => false
  | .reRequestXls20 _ => false
  | .togglePublicMint _ => false
  | .setMintFee _ _ => false
  | .mint _ _ => false
  | _ => true

/-- Little-endian bytes. -/
def le : Nat → Nat → List Nat
  | 0, _ => []
  | k + 1, x => x % 256 :: le k (x / 256)

/-- `u32::from_le_bytes` and longer. -/
def ofLe : List Nat → Nat
  | [] => 0
  | b :: l => b + 256 * ofLe l

/-- lib.rs:72-79. -/
def interfaces : List Nat := [0x01ffc9a7, 0x80ac58cd, 0x5b5e139f, 0x42966c68, 0x0e083076, 0x2a4288ec]

/-- lib.rs:1167-1187 `supports_interface`: the argument is encoded, bytes 28 to 31 are read. -/
def supports (w : Nat) : Bool :=
  if ofLe (((le 32 w).drop 28).take 4) = 0xffffffff then false
  else decide (ofLe (((le 32 w).drop 28).take 4) ∈ interfaces)

/-- lib.rs:303-306: token ids above `u32::MAX` are refused. -/
def serial (n : Nat) : Except Err Unit := ensure (n < U32) "ERC721: Expected token id <= 2^32"

/-- The functions. `lim` is `MaxTokensPerXls20Mint`. -/
def run (c : Cfg) (lim : Nat) (s : St) (m : Msg) : Call → Res
  /- lib.rs:320-340 `balance_of` -/
  | .balanceOf a => .ok (s, [], .num (((s.coll m.coll).map (fun k => Nft.balanceOf k.owned a)).getD 0))
  /- lib.rs:291-318 `owner_of` -/
  | .ownerOf n => do
    serial n
    let a ← okOr (Nft.ownerOf s m.coll n) "ERC721: Token does not exist"
    pure (s, [], .addr a)
  /- lib.rs:575-601 `get_approved` -/
  | .getApproved n => do
    serial n
    pure (s, [], .addr ((s.approvals m.coll n).getD 0))
  /- lib.rs:603-622 `is_approved_for_all` -/
  | .isApprovedForAll o p => .ok (s, [], .flag (s.forAll o m.coll p))
  /- lib.rs:719-733 `total_supply` -/
  | .totalSupply => do
    let k ← okOr (s.coll m.coll) "ERC721: Collection does not exist"
    pure (s, [], .num k.issuance)
  /- lib.rs:966-980 `owner` -/
  | .owner => do
    let k ← okOr (s.coll m.coll) "ERC721: Collection does not exist"
    pure (s, [], .addr k.owner)
  /- lib.rs:858-893 `owned_tokens` -/
  | .ownedTokens a limit cursor => do
    ensure (limit < 65536) "ERC721: Expected limit <= 2^32"
    ensure (cursor < U32) "ERC721: Expected cursor <= 2^32"
    let k ← okOr (s.coll m.coll) "no collection"
    let p := Nft.ownedTokens k.owned a cursor limit
    pure (s, [], .page p.1 p.2.1 p.2.2)
  /- lib.rs:1167-1187 -/
  | .supportsInterface w => .ok (s, [], .flag (supports w))
  /- lib.rs:342-399 `transfer_from` -/
  | .transferFrom src dst n => do
    serial n
    let s1 ← Nft.transferFrom c s m.caller m.coll n src dst
    pure (s1, [.transfer src dst n], .unit)
  /- lib.rs:524-573 `approve` -/
  | .approve p n => do
    serial n
    let s1 ← Nft.approve s m.caller p m.coll n
    pure (s1, [.approval m.caller p n], .unit)
  /- lib.rs:624-655 `set_approval_for_all` -/
  | .setApprovalForAll p ok => do
    let s1 ← Nft.approveAll s m.caller p m.coll ok
    pure (s1, [.approvalForAll m.caller p ok], .unit)
  /- lib.rs:1040-1095 `burn`; the log names the owner -/
  | .burn n => do
    serial n
    let s1 ← Nft.burnPrecompile s m.caller m.coll n
    pure (s1, [.transfer ((Nft.ownerOf s m.coll n).getD 0) 0 n], .unit)
  /- lib.rs:735-792 `mint` -/
  | .mint dst q => do
    ensure (q < U32) "ERC721: Expected quantity <= 2^32"
    let k ← okOr (s.coll m.coll) "Collection does not exist"
    let s1 ← Nft.mint c s m.caller m.coll q (some dst) m.others
    pure (s1, (List.range' k.next (min (k.next + q) (U32 - 1) - k.next)).map (fun n => .transfer 0 dst n), .unit)
  /- lib.rs:794-827 `set_max_supply` -/
  | .setMaxSupply x => do
    ensure (x < U32) "ERC721: Expected max_supply <= 2^32"
    let s1 ← Nft.setMaxIssuance s m.caller m.coll x
    pure (s1, [.maxSupply x], .unit)
  /- lib.rs:895-919 `toggle_public_mint`, /repo/pallet/nft/src/lib.rs:438-464 -/
  | .togglePublicMint on => do
    let s1 ← Nft.setPubMint s m.caller m.coll { s.pubMint m.coll with enabled := on }
    pure (s1, [.publicMint on], .unit)
  /- lib.rs:921-964 `set_mint_fee`, /repo/pallet/nft/src/lib.rs:468-505; a fee of zero is no fee -/
  | .setMintFee asset fee => do
    let a ← okOr asset "ERC721: Invalid payment asset address"
    ensure (fee < U128) "ERC721: Expected mint_fee <= 2^128"
    let s1 ← Nft.setPubMint s m.caller m.coll
      { s.pubMint m.coll with price := if fee = 0 then none else some (a, fee) }
    pure (s1, [.mintFee a fee], .unit)
  /- lib.rs:982-1013 `renounce_ownership` -/
  | .renounceOwnership => do
    let s1 ← Nft.setOwner s m.caller m.coll 0
    pure (s1, [.ownership m.caller 0], .flag true)
  /- lib.rs:1015-1038 `transfer_ownership` -/
  | .transferOwnership new => do
    let s1 ← Nft.setOwner s m.caller m.coll new
    pure (s1, [.ownership m.caller new], .flag true)
  /- lib.rs:1097-1116, /repo/pallet/xls20/src/lib.rs:185-195 -/
  | .enableXls20 => do
    let s1 ← Nft.enableXls20 s m.caller m.coll
    pure (s1, [.xls20Enabled], .flag true)
  /- lib.rs:1118-1165: the `expect` panics if there are more serial numbers than the pallet takes in one call. What the
  XLS-20 pallet does with an accepted request is modelled in `Verif.Xls20`. -/
  | .reRequestXls20 ns => do
    ensure (∀ n ∈ ns, n < U32) "XLS20: Expected serial_number <= 2^32"
    ensure (ns.length ≤ lim) "Panic"
    ensure (m.others = true) "the XLS-20 pallet refuses"
    pure (s, ns.map .xls20Requested, .flag true)

/-- lib.rs:158-247 `execute` with /repo/evm-precompiles/utils/src/modifier.rs:36-50: `none` if there is no such
collection, hence no contract. -/
def call (c : Cfg) (lim : Nat) (s : St) (m : Msg) (k : Call) : Option Res :=
  match s.coll m.coll with
  | none => none
  | some _ => some (do
      ensure (m.static = false ∨ view k = true) "Can't call non-static function in static context"
      ensure (m.value = 0) "Function is not payable"
      run c lim s m k)

/-- What happens to collections: a call of a contract; the transfer made by `safeTransferFrom` after the receiver has
answered (lib.rs:499-521; who may make it has been checked before, and is not checked here); or anything else the pallets
do, which leaves no log of the contract. -/
inductive Ev where
  | call (m : Msg) (k : Call)
  | deliver (id n : Nat) (src dst : Acct)
  | other (op : Nft.Op)

/-- State and logs, each with its collection, after an event; a call that fails leaves neither. -/
def next (c : Cfg) (lim : Nat) (s : St) : Ev → St × List (Nat × Log)
  | .call m k =>
    match call c lim s m k with
    | some (.ok (s1, l, _)) => (s1, l.map (fun x => (m.coll, x)))
    | _ => (s, [])
  | .deliver id n src dst =>
    match Nft.doTransfer c s id [n] src dst with
    | .ok s1 => (s1, [(id, .transfer src dst n)])
    | .error _ => (s, [])
  | .other op =>
    match Nft.step c s op with
    | .ok s1 => (s1, [])
    | .error _ => (s, [])

/-- State and all logs in order after some events. -/
def runs (c : Cfg) (lim : Nat) (s : St) : List Ev → St × List (Nat × Log)
  | [] => (s, [])
  | e :: es => ((runs c lim (next c lim s e).1 es).1, (next c lim s e).2 ++ (runs c lim (next c lim s e).1 es).2)

/-- /repo/evm-precompiles/nft/src/lib.rs:150-153: an entitlement is cut to 32 bits and `Permill::from_parts` cuts it to
one million. -/
def permill (e : Nat) : Nat := min (min e (U32 - 1)) 1000000

/-- /repo/evm-precompiles/nft/src/lib.rs:154-173: no addresses, no royalties. -/
def royalties (addrs : List Acct) (ents : List Nat) : Option (List (Acct × Nat)) :=
  if addrs = [] then none else some (addrs.zip (ents.map permill))

/-- /repo/evm-precompiles/nft/src/lib.rs:104-216 `initialize_collection`, called by anybody: owner, maximum issuance (zero
is none), royalties. `MAX_COLLECTION_ENTITLEMENTS` is 6 (/repo/primitives/src/nft.rs). The answer is the id. Names and
paths are taken to be valid. -/
def initialize721 (c : Cfg) (s : St) (value : Nat) (static : Bool) (owner : Acct) (max : Nat) (addrs : List Acct)
    (ents : List Nat) : Except Err (St × Nat) := do
  ensure (static = false) "Can't call non-static function in static context"
  ensure (value = 0) "Function is not payable"
  ensure (max < U32) "NFT: Expected max_issuance <= 2^32"
  ensure (addrs.length = ents.length) "NFT: Royalty addresses and entitlements must be the same length"
  ensure (addrs.length ≤ 6) "NFT: Too many royalty entitlements provided"
  let id ← Nft.nextUuid c s
  let s1 ← Nft.doCreate c s owner 0 (if max = 0 then none else some max) none (royalties addrs ents) .root false
  pure (s1, id)

end Verif.Evm721
