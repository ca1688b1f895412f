import Verif.Sft.Props
import Verif.Evm721.Model

/-!
# Model of the ERC-1155 contract of a collection

/repo/evm-precompiles/erc1155/src/lib.rs, its dispatch, arguments, answers and logs, and `initializeCollection` of
/repo/evm-precompiles/sft/src/lib.rs, on top of the model of the SFT pallet. Arguments have been decoded (see `Verif.Abi`):
numbers are below `2^256`, addresses are accounts. Gas, names, base URIs and token URIs are not modelled. The receiver, if it
is a contract, is asked before anything else happens (lib.rs:387, 476; see `Verif.Callback`): what it does then are events
before the call, and a call it refuses is one that fails.
-/

namespace Verif.Evm1155

open Sft (Cfg St)

/-- The call: collection addressed, caller, XRP attached in wei, static or not; `others` says whether the NFI pallet accepts
what is asked of it. -/
structure Msg where
  coll : Nat
  caller : Acct
  value : Nat
  static : Bool
  others : Bool
deriving DecidableEq

/-- lib.rs:78-109: the functions of the contract, without those about names and URIs. -/
inductive Call where
  | balanceOf (a : Acct) (n : Nat)
  | balanceOfBatch (as : List Acct) (ns : List Nat)
  | isApprovedForAll (o p : Acct)
  | totalSupply (n : Nat)
  | exist (n : Nat)
  | owner
  | setApprovalForAll (p : Acct) (ok : Bool)
  | transferFrom (src dst : Acct) (n q : Nat)
  | batchTransferFrom (src dst : Acct) (ns qs : List Nat)
  | burn (a : Acct) (n q : Nat)
  | burnBatch (a : Acct) (ns qs : List Nat)
  | mint (dst : Acct) (n q : Nat)
  | mintBatch (dst : Acct) (ns qs : List Nat)
  | createToken (initial max : Nat) (rcv : Acct)
  | setMaxSupply (n m : Nat)
  | togglePublicMint (n : Nat) (on : Bool)
  /-- the asset is what the address of the payment token stands for, if anything -/
  | setMintFee (n : Nat) (asset : Option AssetId) (fee : Nat)
  | renounceOwnership
  | transferOwnership (new : Acct)
deriving DecidableEq

/-- The logs, lib.rs:38-74. -/
inductive Log where
  | single (operator src dst : Acct) (n q : Nat)
  | batch (operator src dst : Acct) (ns qs : List Nat)
  | approvalForAll (owner operator : Acct) (ok : Bool)
  | ownership (old new : Acct)
  | created (n : Nat)
  | maxSupply (m : Nat)
  | publicMint (n : Nat) (on : Bool)
  | mintFee (n : Nat) (asset : AssetId) (fee : Nat)
deriving DecidableEq

/-- Answers. -/
inductive Out where
  | unit
  | addr (a : Acct)
  | num (n : Nat)
  | flag (b : Bool)
  | nums (l : List Nat)
deriving DecidableEq

/-- State, logs and answer of a call; an error is a revert. -/
abbrev Res := Except Err (St × List Log × Out)

/-- lib.rs:159-170: the functions that are let through in a static call. All those that are not listed there are. -/
def view : Call → Bool
  | .setApprovalForAll _ _ => false
  | .transferFrom _ _ _ _ => false
  | .batchTransferFrom _ _ _ _ => false
  | .burn _ _ _ => false
  | .burnBatch _ _ _ => false
  | .mint _ _ _ => false
  | .togglePublicMint _ _ => false
  | .setMintFee _ _ _ => false
  | .mintBatch _ _ _ => false
  | _ => true

/-- lib.rs:265: token ids above `u32::MAX` are refused. -/
def serial (n : Nat) : Except Err Unit := ensure (n < U32) "ERC1155: Expected token id <= 2^32"

/-- lib.rs:390: amounts above `u128::MAX` are refused. -/
def amount (q : Nat) : Except Err Unit := ensure (q < U128) "ERC1155: Expected amounts <= 2^128"

/-- lib.rs:485-502, 671-688, 965-981: ids and amounts of a batch; all are checked, and there are as many of the one as of
the other. -/
def pairs (ns qs : List Nat) : Except Err (List (Nat × Nat)) := do
  ensure (∀ n ∈ ns, n < U32) "ERC1155: Expected token id <= 2^32"
  ensure (∀ q ∈ qs, q < U128) "ERC1155: Expected amounts <= 2^128"
  ensure (ns.length = qs.length) "ERC1155: ids and amounts length mismatch"
  pure (ns.zip qs)

/-- /repo/pallet/sft/src/impls.rs:457-460 `balance_of`. -/
def balance (s : St) (id n : Nat) (a : Acct) : Nat := ((s.tok id n).map (fun t => Sft.freeOf t.owned a)).getD 0

/-- The functions. -/
def run (c : Cfg) (s : St) (m : Msg) : Call → Res
  /- lib.rs:257-276 `balance_of` -/
  | .balanceOf a n => do
    serial n
    pure (s, [], .num (balance s m.coll n a))
  /- lib.rs:278-314 `balance_of_batch` -/
  | .balanceOfBatch as ns => do
    ensure (as.length = ns.length) "ERC1155: accounts and ids length mismatch"
    ensure (∀ n ∈ ns, n < U32) "ERC1155: Expected token id <= 2^32"
    pure (s, [], .nums ((as.zip ns).map (fun x => balance s m.coll x.2 x.1)))
  /- lib.rs:316-333 `is_approved_for_all` -/
  | .isApprovedForAll o p => .ok (s, [], .flag (s.forAll o m.coll p))
  /- lib.rs:729-744 `total_supply`, /repo/pallet/sft/src/impls.rs:463-466 -/
  | .totalSupply n => do
    serial n
    pure (s, [], .num (((s.tok m.coll n).map Sft.Tok.iss).getD 0))
  /- lib.rs:746-760 `exists`, /repo/pallet/sft/src/impls.rs:469-471 -/
  | .exist n => do
    serial n
    pure (s, [], .flag (s.tok m.coll n).isSome)
  /- lib.rs:777-791 `owner` -/
  | .owner => do
    let k ← okOr (s.coll m.coll) "ERC1155: Collection does not exist"
    pure (s, [], .addr k.owner)
  /- lib.rs:335-366 `set_approval_for_all` -/
  | .setApprovalForAll p ok => do
    let s1 ← Sft.approveAll s m.caller p m.coll ok
    pure (s1, [.approvalForAll m.caller p ok], .unit)
  /- lib.rs:368-415 `safe_transfer_from` and 561-607 `do_safe_transfer` -/
  | .transferFrom src dst n q => do
    serial n
    amount q
    ensure (dst ≠ 0) "ERC1155: transfer to the zero address"
    let s1 ← Sft.safeTransfer c s m.caller m.coll [(n, q)] src dst
    pure (s1, [.single m.caller src dst n q], .unit)
  /- lib.rs:457-519 `safe_batch_transfer_from` -/
  | .batchTransferFrom src dst ns qs => do
    let xs ← pairs ns qs
    ensure (dst ≠ 0) "ERC1155: transfer to the zero address"
    let s1 ← Sft.safeTransfer c s m.caller m.coll xs src dst
    pure (s1, [.batch m.caller src dst ns qs], .unit)
  /- lib.rs:609-658 `burn` -/
  | .burn a n q => do
    serial n
    amount q
    let s1 ← Sft.safeBurn c s m.caller m.coll [(n, q)] a
    pure (s1, [.single m.caller a 0 n q], .unit)
  /- lib.rs:660-727 `burn_batch` -/
  | .burnBatch a ns qs => do
    let xs ← pairs ns qs
    let s1 ← Sft.safeBurn c s m.caller m.coll xs a
    pure (s1, [.batch m.caller a 0 ns qs], .unit)
  /- lib.rs:909-952 `mint` -/
  | .mint dst n q => do
    serial n
    amount q
    let s1 ← Sft.mint c s m.caller m.coll [(n, q)] (some dst)
    pure (s1, [.single m.caller 0 dst n q], .unit)
  /- lib.rs:954-1013 `mint_batch` -/
  | .mintBatch dst ns qs => do
    let xs ← pairs ns qs
    let s1 ← Sft.mint c s m.caller m.coll xs (some dst)
    pure (s1, [.batch m.caller 0 dst ns qs], .unit)
  /- lib.rs:851-907 `create_token`: a maximum of zero is none, a receiver of zero is the caller; the answer and the log are
  the next serial number of the collection -/
  | .createToken initial max rcv => do
    ensure (initial < U128) "ERC1155: Expected initial issuance <= 2^128"
    ensure (max < U128) "ERC1155: Expected max issuance <= 2^128"
    let k ← okOr (s.coll m.coll) "NoCollectionFound"
    let s1 ← Sft.createToken s m.caller m.coll initial (if max = 0 then none else some max)
      (if rcv = 0 then none else some rcv) m.others
    pure (s1, [.created k.next], .num k.next)
  /- lib.rs:1015-1055 `set_max_supply` -/
  | .setMaxSupply n x => do
    serial n
    ensure (x < U128) "ERC1155: Expected max_supply <= 2^128"
    let s1 ← Sft.setMax s m.caller m.coll n x
    pure (s1, [.maxSupply x], .unit)
  /- lib.rs:1089-1118 `toggle_public_mint`, /repo/pallet/sft/src/lib.rs `toggle_public_mint` -/
  | .togglePublicMint n on => do
    serial n
    let s1 ← Sft.setPubMint s m.caller m.coll n { s.pubMint m.coll n with enabled := on }
    pure (s1, [.publicMint n on], .unit)
  /- lib.rs:1120-1167 `set_mint_fee`; a fee of zero is no fee -/
  | .setMintFee n asset fee => do
    serial n
    let a ← okOr asset "ERC1155: Invalid payment asset address"
    ensure (fee < U128) "ERC1155: Expected mint_fee <= 2^128"
    let s1 ← Sft.setPubMint s m.caller m.coll n
      { s.pubMint m.coll n with price := if fee = 0 then none else some (a, fee) }
    pure (s1, [.mintFee n a fee], .unit)
  /- lib.rs:793-824 `renounce_ownership` -/
  | .renounceOwnership => do
    let s1 ← Sft.setOwner s m.caller m.coll 0
    pure (s1, [.ownership m.caller 0], .flag true)
  /- lib.rs:826-849 `transfer_ownership` -/
  | .transferOwnership new => do
    let s1 ← Sft.setOwner s m.caller m.coll new
    pure (s1, [.ownership m.caller new], .flag true)

/-- lib.rs:145-219 `execute` with /repo/evm-precompiles/utils/src/modifier.rs:36-50: `none` if there is no such
collection, hence no contract. -/
def call (c : Cfg) (s : St) (m : Msg) (k : Call) : Option Res :=
  match s.coll m.coll with
  | none => none
  | some _ => some (do
      ensure (m.static = false ∨ view k = true) "Can't call non-static function in static context"
      ensure (m.value = 0) "Function is not payable"
      run c s m k)

/-- What happens to collections: a call of a contract, or anything else the pallets do, which leaves no log of the
contract. -/
inductive Ev where
  | call (m : Msg) (k : Call)
  | other (op : Sft.Op)

/-- State and logs, each with its collection, after an event; a call that fails leaves neither. -/
def next (c : Cfg) (s : St) : Ev → St × List (Nat × Log)
  | .call m k =>
    match call c s m k with
    | some (.ok (s1, l, _)) => (s1, l.map (fun x => (m.coll, x)))
    | _ => (s, [])
  | .other op =>
    match Sft.step c s op with
    | .ok s1 => (s1, [])
    | .error _ => (s, [])

/-- State and all logs in order after some events. -/
def runs (c : Cfg) (s : St) : List Ev → St × List (Nat × Log)
  | [] => (s, [])
  | e :: es => ((runs c (next c s e).1 es).1, (next c s e).2 ++ (runs c (next c s e).1 es).2)

/-- /repo/evm-precompiles/sft/src/lib.rs:99-189 `initialize_collection`, called by anybody: owner and royalties, made as in
the NFT contract. The answer is the id. Names and paths are taken to be valid. -/
def initialize1155 (c : Cfg) (s : St) (value : Nat) (static : Bool) (owner : Acct) (addrs : List Acct) (ents : List Nat) :
    Except Err (St × Nat) := do
  ensure (static = false) "Can't call non-static function in static context"
  ensure (value = 0) "Function is not payable"
  ensure (addrs.length = ents.length) "SFT: Royalty addresses and entitlements must be the same length"
  ensure (addrs.length ≤ 6) "SFT: Too many royalty entitlements provided"
  let id ← okOr (Nft.nextAssetUuid s.nextId c.chainId) "NoAvailableIds"
  let s1 ← Sft.createColl c s owner (Evm721.royalties addrs ents)
  pure (s1, id)

end Verif.Evm1155
