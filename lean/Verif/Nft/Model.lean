import Verif.Ledger
import Mathlib.Data.List.Sort

/-!
# Model of the NFT pallet and of the ERC-721 approvals

/repo/pallet/nft/src/{types,impls,lib}.rs and /repo/pallet/token-approvals/src/lib.rs. Names, metadata
schemes and events are not modelled. The requests to the XLS-20 and NFI pallets made by `mint` are
represented by a flag saying whether they succeed. Extrinsics are transactional: an error leaves the state
unchanged.
-/

namespace Verif.Nft

/-- types.rs:38-46 `TokenOwnership`. -/
structure Own where
  owner : Acct
  serials : List Nat
deriving DecidableEq

/-- primitives/src/nft.rs `OriginChain`. -/
inductive Chain where
  | root | ethereum | xrpl
deriving DecidableEq

/-- types.rs:78-107 `CollectionInformation`. Royalties are pairs of an account and parts per million. -/
structure Coll where
  owner : Acct
  royalties : Option (List (Acct × Nat))
  maxIss : Option Nat
  origin : Chain
  next : Nat
  issuance : Nat
  xls20 : Bool
  owned : List Own
deriving DecidableEq

/-- pallet/common/src/utils.rs:76-87 `CollectionUtilityFlags`. -/
structure Flags where
  transferable : Bool
  burnable : Bool
  mintable : Bool
deriving DecidableEq

/-- pallet/common/src/utils.rs:67-73 `PublicMintInformation`. -/
structure PubMint where
  enabled : Bool
  price : Option (AssetId × Nat)
deriving DecidableEq

/-- Constants of `Config` (/repo/pallet/nft/src/lib.rs:108-139). -/
structure Cfg where
  /-- `MaxTokensPerCollection` -/
  maxTokens : Nat
  /-- `MintLimit` -/
  mintLimit : Nat
  /-- `ParachainId` -/
  chainId : Nat
  /-- the account of the pallet, first owner of bridged collections -/
  palletAcct : Acct

/-- The storage of the pallet (/repo/pallet/nft/src/lib.rs:142-166), the approvals
(/repo/pallet/token-approvals/src/lib.rs:60-93) and the balances. -/
structure St where
  /-- `CollectionInfo` -/
  coll : Nat → Option Coll
  /-- `TokenLocks`: the listing a token is locked by -/
  locks : Nat → Nat → Option Nat
  /-- `UtilityFlags` -/
  flags : Nat → Flags
  /-- `PublicMintInfo` -/
  pubMint : Nat → PubMint
  /-- `NextCollectionId` -/
  nextId : Nat
  /-- `ERC721Approvals` -/
  approvals : Nat → Nat → Option Acct
  /-- `ERC721ApprovalsForAll`: owner, collection, operator -/
  forAll : Acct → Nat → Acct → Bool
  ledger : Ledger
  /-- ghost: every token ever minted, newest first -/
  minted : List (Nat × Nat)

/-- pallet/common/src/utils.rs:35-45 `next_asset_uuid`. -/
def nextAssetUuid (nextId chain : Nat) : Option Nat :=
  if (nextId + 1) % U32 > 4194303 ∨ chain > 1023 then none else some ((nextId <<< 10) ||| chain)

/-- impls.rs:41-47 `next_collection_uuid`. -/
def nextUuid (c : Cfg) (s : St) : Except Err Nat := okOr (nextAssetUuid s.nextId c.chainId) "NoAvailableIds"

/-- types.rs:133-141 `is_token_owner`. -/
def isTokenOwner (o : List Own) (who : Acct) (n : Nat) : Bool :=
  o.any (fun e => decide (e.owner = who) && decide (n ∈ e.serials))

/-- types.rs:121-125 `token_exists`. -/
def tokenExists (o : List Own) (n : Nat) : Bool := o.any (fun e => decide (n ∈ e.serials))

/-- types.rs:144-147 `get_token_owner`. -/
def getOwner (o : List Own) (n : Nat) : Option Acct := (o.find? (fun e => decide (n ∈ e.serials))).map Own.owner

/-- impls.rs:590-593 `get_token_owner` of a token id. -/
def ownerOf (s : St) (id n : Nat) : Option Acct := (s.coll id).bind (fun k => getOwner k.owned n)

/-- impls.rs:56-69 `token_balance_of`. -/
def balanceOf (o : List Own) (who : Acct) : Nat :=
  ((o.find? (fun e => decide (e.owner = who))).map (fun e => e.serials.length)).getD 0

/-- `sort` on a list of serial numbers. -/
def sortN (l : List Nat) : List Nat := l.insertionSort (· ≤ ·)

/-- types.rs:64-70 `TokenOwnership::add`, for each serial of a list. -/
def addAll (max : Nat) (l : List Nat) : List Nat → Except Err (List Nat)
  | [] => .ok l
  | n :: ns => do
    ensure (l.length < max) "TokenLimitExceeded"
    addAll max (sortN (l ++ [n])) ns

/-- types.rs:161-169: add to the entries of the owner. -/
def addEntries (max : Nat) (who : Acct) (ns : List Nat) : List Own → Except Err (List Own)
  | [] => .ok []
  | e :: o =>
    if e.owner = who then do
      let l ← addAll max e.serials ns
      let o' ← addEntries max who ns o
      pure (⟨e.owner, l⟩ :: o')
    else do
      let o' ← addEntries max who ns o
      pure (e :: o')

/-- types.rs:150-177 `add_user_tokens`. -/
def addUser (max : Nat) (o : List Own) (who : Acct) (ns : List Nat) : Except Err (List Own) :=
  if o.any (fun e => decide (e.owner = who)) then addEntries max who ns o
  else do
    ensure (o.length < max) "TokenLimitExceeded"
    pure (o ++ [⟨who, sortN ns⟩])

/-- types.rs:185-193: remove from the first entry of the owner; whether it is now empty. -/
def retainFirst (who : Acct) (ns : List Nat) : List Own → List Own × Bool
  | [] => ([], false)
  | e :: o =>
    if e.owner = who then
      (⟨e.owner, e.serials.filter (fun n => decide (n ∉ ns))⟩ :: o, (e.serials.filter (fun n => decide (n ∉ ns))).isEmpty)
    else (e :: (retainFirst who ns o).1, (retainFirst who ns o).2)

/-- types.rs:180-199 `remove_user_tokens`. -/
def removeUser (o : List Own) (who : Acct) (ns : List Nat) : List Own :=
  if (retainFirst who ns o).2 then (retainFirst who ns o).1.filter (fun e => decide (e.owner ≠ who))
  else (retainFirst who ns o).1

/-- Write a collection record. -/
def setColl (s : St) (id : Nat) (k : Coll) : St := { s with coll := upd s.coll id (some k) }

/-- token-approvals lib.rs:290-293 `on_nft_transfer`, for a list of serials of a collection. -/
def clearApprovals (s : St) (id : Nat) (ns : List Nat) : St :=
  { s with approvals := fun j n => if j = id ∧ n ∈ ns then none else s.approvals j n }

/-- impls.rs:84-128 `do_transfer`. A `BoundedVec` of serials longer than the limit cannot be built. -/
def doTransfer (c : Cfg) (s : St) (id : Nat) (ns : List Nat) (cur new : Acct) : Except Err St := do
  ensure (ns.length ≤ c.maxTokens) "TokenLimitExceeded"
  ensure (cur ≠ new) "InvalidNewOwner"
  ensure ((s.flags id).transferable = true) "TransferUtilityBlocked"
  let k ← okOr (s.coll id) "NoCollectionFound"
  ensure (∀ n ∈ ns, isTokenOwner k.owned cur n = true ∧ s.locks id n = none) "NotTokenOwner or TokenLocked"
  let o ← addUser c.maxTokens (removeUser k.owned cur ns) new ns
  pure (clearApprovals (setColl s id { k with owned := o }) id ns)

/-- impls.rs:287-316 `do_mint`; `k` is the collection record to be written. -/
def doMint (c : Cfg) (s : St) (id : Nat) (k : Coll) (who : Acct) (ns : List Nat) : Except Err St := do
  ensure (k.issuance + ns.length < U32) "Overflow"
  ensure (k.issuance + ns.length ≤ c.maxTokens) "TokenLimitExceeded"
  let o ← addUser c.maxTokens k.owned who ns
  pure { setColl s id { k with issuance := k.issuance + ns.length, owned := o } with
    minted := ns.map (fun n => (id, n)) ++ s.minted }

/-- impls.rs:154-170: the new serials of a bridged mint. -/
def trim (k : Coll) (ns : List Nat) : List Nat :=
  (sortN ns).dedup.filter (fun n => !tokenExists k.owned n)

/-- impls.rs:134-197 `mint_bridged_token`. -/
def bridgedMint (c : Cfg) (s : St) (id : Nat) (who : Acct) (ns : List Nat) : Except Err St :=
  if ns = [] then .ok s
  else match s.coll id with
    | none => .ok s
    | some k => if c.maxTokens < (trim k ns).length then .ok s else doMint c s id k who (trim k ns)

/-- impls.rs:201-251 `pre_mint`. -/
def preMint (c : Cfg) (who : Acct) (q : Nat) (k : Coll) (pub : Bool) : Except Err (List Nat) := do
  ensure (0 < q) "NoToken"
  ensure (k.owner = who ∨ pub = true) "PublicMintDisabled"
  ensure (min (k.issuance + q) (U32 - 1) < c.maxTokens) "TokenLimitExceeded"
  ensure (k.origin = .root) "AttemptedMintOnBridgedToken"
  ensure (k.next + q < U32) "NoAvailableIds"
  ensure (k.next + q ≤ c.maxTokens) "TokenLimitExceeded"
  ensure (∀ m, k.maxIss = some m → k.next + q ≤ m) "MaxIssuanceReached"
  pure (List.range' k.next q)

/-- impls.rs:253-283 `charge_mint_fee`. -/
def chargeMintFee (L : Ledger) (who owner : Acct) (p : PubMint) (q : Nat) : Except Err Ledger :=
  match p.price with
  | none => .ok L
  | some (a, x) => L.transfer a who owner (min (x * q) (U128 - 1))

/-- lib.rs:541-551: the fee is charged when public minting is on and the caller is not the owner. -/
def maybeCharge (s : St) (id : Nat) (k : Coll) (who : Acct) (q : Nat) : Except Err Ledger :=
  if (s.pubMint id).enabled = true ∧ k.owner ≠ who then chargeMintFee s.ledger who k.owner (s.pubMint id) q
  else .ok s.ledger

/-- lib.rs:518-583 `mint`. `ext`: the requests to the XLS-20 and NFI pallets succeed. -/
def mint (c : Cfg) (s : St) (who : Acct) (id q : Nat) (rcv : Option Acct) (ext : Bool) : Except Err St := do
  ensure (q ≤ c.mintLimit) "MintLimitExceeded"
  ensure ((s.flags id).mintable = true) "MintUtilityBlocked"
  let k ← okOr (s.coll id) "NoCollectionFound"
  let ns ← preMint c who q k (s.pubMint id).enabled
  let L ← maybeCharge s id k who q
  let s1 ← doMint c { s with ledger := L } id { k with next := k.next + q } (rcv.getD who) ns
  ensure (ext = true) "Xls20 or NFI request failed"
  pure s1

/-- primitives/src/nft.rs:93-98 `RoyaltiesSchedule::validate` (a `Permill` is at most a million, so the sum of
six does not wrap) and impls.rs:404-411, lib.rs:657-661. -/
def royaltiesOk (r : Option (List (Acct × Nat))) : Bool :=
  match r with
  | none => true
  | some l => decide (l.length ≤ 6) && !l.isEmpty && decide ((l.map Prod.snd).sum ≤ 1000000)

/-- impls.rs:413-435: the first owner entry of a new collection. -/
def firstOwned (c : Cfg) (initial : Nat) (xls20 : Bool) (rcv : Acct) : Except Err (List Own) :=
  if initial = 0 then .ok []
  else do
    ensure (initial ≤ c.mintLimit) "MintLimitExceeded"
    ensure (xls20 = false) "InitialIssuanceNotZero"
    ensure (initial ≤ c.maxTokens ∧ 1 ≤ c.maxTokens) "TokenLimitExceeded"
    pure [⟨rcv, sortN (List.range initial)⟩]

/-- impls.rs:377-471 `do_create_collection`; the name is assumed to be valid. -/
def doCreate (c : Cfg) (s : St) (owner : Acct) (initial : Nat) (maxIss : Option Nat) (rcv : Option Acct)
    (royalties : Option (List (Acct × Nat))) (origin : Chain) (xls20 : Bool) : Except Err St := do
  let id ← nextUuid c s
  ensure (∀ m, maxIss = some m → 0 < m ∧ initial ≤ m ∧ m ≤ c.maxTokens) "InvalidMaxIssuance"
  ensure (royaltiesOk royalties = true) "RoyaltiesInvalid"
  let o ← firstOwned c initial xls20 (rcv.getD owner)
  pure { setColl s id ⟨owner, royalties, maxIss, origin, initial, initial, xls20, o⟩ with
    nextId := s.nextId + 1
    minted := (List.range initial).map (fun n => (id, n)) ++ s.minted }

/-- types.rs and impls.rs:489-497: remove one serial from the entries of an account. -/
def burnFrom (o : List Own) (who : Acct) (n : Nat) : List Own :=
  o.map (fun e => if e.owner = who then ⟨e.owner, e.serials.filter (fun m => decide (m ≠ n))⟩ else e)

/-- impls.rs:474-504 `do_burn`. -/
def doBurn (s : St) (who : Acct) (id n : Nat) : Except Err St := do
  ensure (s.locks id n = none) "TokenLocked"
  ensure ((s.flags id).burnable = true) "BurnUtilityBlocked"
  let k ← okOr (s.coll id) "NoCollectionFound"
  ensure (isTokenOwner k.owned who n = true) "NotTokenOwner"
  pure (clearApprovals (setColl s id { k with issuance := k.issuance - 1, owned := burnFrom k.owned who n }) id [n])

/-- impls.rs:528-544 `do_set_owner`. -/
def setOwner (s : St) (who : Acct) (id : Nat) (new : Acct) : Except Err St := do
  let k ← okOr (s.coll id) "NoCollectionFound"
  ensure (k.owner = who) "NotCollectionOwner"
  pure (setColl s id { k with owner := new })

/-- lib.rs:302-323 `claim_unowned_collection` (root). -/
def claimUnowned (c : Cfg) (s : St) (id : Nat) (new : Acct) : Except Err St := do
  let k ← okOr (s.coll id) "NoCollectionFound"
  ensure (k.owner = c.palletAcct) "CannotClaimNonClaimableCollections"
  pure (setColl s id { k with owner := new })

/-- lib.rs:342-362 `set_max_issuance`. -/
def setMaxIssuance (s : St) (who : Acct) (id m : Nat) : Except Err St := do
  let k ← okOr (s.coll id) "NoCollectionFound"
  ensure (m ≠ 0) "InvalidMaxIssuance"
  ensure (k.owner = who) "NotCollectionOwner"
  ensure (k.maxIss = none) "MaxIssuanceAlreadySet"
  ensure (k.issuance ≤ m) "InvalidMaxIssuance"
  pure (setColl s id { k with maxIss := some m })

/-- lib.rs:439-464 `toggle_public_mint`, 469-505 `set_mint_fee`. -/
def setPubMint (s : St) (who : Acct) (id : Nat) (p : PubMint) : Except Err St := do
  let k ← okOr (s.coll id) "NoCollectionFound"
  ensure (k.owner = who) "NotCollectionOwner"
  pure { s with pubMint := upd s.pubMint id p }

/-- lib.rs:643-670 `set_royalties_schedule`. -/
def setRoyalties (s : St) (who : Acct) (id : Nat) (r : List (Acct × Nat)) : Except Err St := do
  let k ← okOr (s.coll id) "NoCollectionFound"
  ensure (k.owner = who) "NotCollectionOwner"
  ensure (royaltiesOk (some r) = true) "RoyaltiesInvalid"
  pure (setColl s id { k with royalties := some r })

/-- lib.rs:677-700 `set_utility_flags`. -/
def setFlags (s : St) (who : Acct) (id : Nat) (f : Flags) : Except Err St := do
  let k ← okOr (s.coll id) "NoCollectionFound"
  ensure (k.owner = who) "NotCollectionOwner"
  pure { s with flags := upd s.flags id f }

/-- impls.rs:507-525 `enable_xls20_compatibility`. -/
def enableXls20 (s : St) (who : Acct) (id : Nat) : Except Err St := do
  let k ← okOr (s.coll id) "NoCollectionFound"
  ensure (k.owner = who) "NotCollectionOwner"
  ensure (k.issuance = 0) "CollectionIssuanceNotZero"
  pure (setColl s id { k with xls20 := true })

/-- impls.rs:647-651 `increment_collection_uuid`, called by the SFT pallet after it has taken an id with
`next_collection_uuid` (/repo/pallet/sft/src/impls.rs:34-62). -/
def takeUuid (c : Cfg) (s : St) : Except Err St := do
  let _ ← nextUuid c s
  ensure (s.nextId + 1 < U32) "NoAvailableIds"
  pure { s with nextId := s.nextId + 1 }

/-- impls.rs:657-666 `set_token_lock`. -/
def setLock (s : St) (who : Acct) (id n listing : Nat) : Except Err St := do
  ensure (s.locks id n = none) "TokenLocked"
  ensure (ownerOf s id n = some who) "NotTokenOwner"
  pure { s with locks := upd s.locks id (upd (s.locks id) n (some listing)) }

/-- impls.rs:668-670 `remove_token_lock`. -/
def removeLock (s : St) (id n : Nat) : St := { s with locks := upd s.locks id (upd (s.locks id) n none) }

/-- token-approvals lib.rs:124-147 `erc721_approval`; the ERC-721 precompile passes the EVM caller. -/
def approve (s : St) (caller operator : Acct) (id n : Nat) : Except Err St := do
  ensure (caller ≠ operator) "CallerNotOperator"
  let owner ← okOr (ownerOf s id n) "NoToken"
  ensure (owner = caller ∨ s.forAll owner id caller = true) "NotTokenOwnerOrApproved"
  pure { s with approvals := upd s.approvals id (upd (s.approvals id) n (some operator)) }

/-- token-approvals lib.rs:152-161 `erc721_remove_approval`. -/
def removeApproval (s : St) (who : Acct) (id n : Nat) : Except Err St := do
  ensure (s.approvals id n ≠ none) "ApprovalDoesntExist"
  ensure (ownerOf s id n = some who) "NotTokenOwner"
  pure (clearApprovals s id [n])

/-- token-approvals lib.rs:209-228 `erc721_approval_for_all`. -/
def approveAll (s : St) (caller operator : Acct) (id : Nat) (ok : Bool) : Except Err St := do
  ensure (caller ≠ operator) "CallerNotOperator"
  pure { s with forAll := upd s.forAll caller (upd (s.forAll caller) id (upd (s.forAll caller id) operator ok)) }

/-- token-approvals lib.rs:267-285 `is_approved_or_owner`. -/
def isApprovedOrOwner (s : St) (id n : Nat) (spender : Acct) : Bool :=
  decide (ownerOf s id n = some spender) ||
  (match ownerOf s id n with | some o => s.forAll o id spender | none => false) ||
  decide (s.approvals id n = some spender)

/-- /repo/evm-precompiles/erc721/src/lib.rs:342-399 `transfer_from` (and 401-520 `safe_transfer_from`
without the receiver callback). -/
def transferFrom (c : Cfg) (s : St) (caller : Acct) (id n : Nat) (src dst : Acct) : Except Err St := do
  ensure (isApprovedOrOwner s id n caller = true) "ERC721: Caller not approved"
  doTransfer c s id [n] src dst

/-- /repo/evm-precompiles/erc721/src/lib.rs:1040-1095 `burn`. -/
def burnPrecompile (s : St) (caller : Acct) (id n : Nat) : Except Err St := do
  ensure (isApprovedOrOwner s id n caller = true) "ERC721: Caller not approved"
  let owner ← okOr (ownerOf s id n) "ERC721: Token does not exist"
  doBurn s owner id n

/-- The calls (/repo/pallet/nft/src/lib.rs:295-698) and those of the approvals. -/
inductive Op where
  | create (owner : Acct) (initial : Nat) (maxIss : Option Nat) (rcv : Option Acct)
      (royalties : Option (List (Acct × Nat))) (xls20 : Bool)
  /-- creation by a bridge -/
  | createBridged (initialOwner : Acct) (origin : Chain) (xls20 : Bool)
  | mint (who : Acct) (id q : Nat) (rcv : Option Acct) (ext : Bool)
  | bridgedMint (id : Nat) (who : Acct) (ns : List Nat)
  | transfer (who : Acct) (id : Nat) (ns : List Nat) (new : Acct)
  | burn (who : Acct) (id n : Nat)
  | setOwner (who : Acct) (id : Nat) (new : Acct)
  | claimUnowned (id : Nat) (new : Acct)
  | setMaxIssuance (who : Acct) (id m : Nat)
  | setPubMint (who : Acct) (id : Nat) (p : PubMint)
  | setRoyalties (who : Acct) (id : Nat) (r : List (Acct × Nat))
  | setFlags (who : Acct) (id : Nat) (f : Flags)
  | enableXls20 (who : Acct) (id : Nat)
  | takeUuid
  | setLock (who : Acct) (id n listing : Nat)
  | removeLock (id n : Nat)
  | approve (caller operator : Acct) (id n : Nat)
  | removeApproval (who : Acct) (id n : Nat)
  | approveAll (caller operator : Acct) (id : Nat) (ok : Bool)
  | transferFrom (caller : Acct) (id n : Nat) (src dst : Acct)
  | burnPrecompile (caller : Acct) (id n : Nat)
  /-- other pallets move money -/
  | ledger (L : Ledger)

/-- Each case is the function of that name above, or written out. -/
def step (c : Cfg) (s : St) : Op → Except Err St
  | .create o i m t r x => doCreate c s o i m t r .root x
  | .createBridged o g x => do
      ensure (g ≠ .root) "not a bridge"
      doCreate c s o 0 none none none g x
  | .mint w id q t e => mint c s w id q t e
  | .bridgedMint id w ns => bridgedMint c s id w ns
  | .transfer w id ns n => doTransfer c s id ns w n
  | .burn w id n => doBurn s w id n
  | .setOwner w id n => setOwner s w id n
  | .claimUnowned id n => claimUnowned c s id n
  | .setMaxIssuance w id m => setMaxIssuance s w id m
  | .setPubMint w id p => setPubMint s w id p
  | .setRoyalties w id r => setRoyalties s w id r
  | .setFlags w id f => setFlags s w id f
  | .enableXls20 w id => enableXls20 s w id
  | .takeUuid => takeUuid c s
  | .setLock w id n l => setLock s w id n l
  | .removeLock id n => .ok (removeLock s id n)
  | .approve a b id n => approve s a b id n
  | .removeApproval w id n => removeApproval s w id n
  | .approveAll a b id ok => approveAll s a b id ok
  | .transferFrom a id n f t => transferFrom c s a id n f t
  | .burnPrecompile a id n => burnPrecompile s a id n
  | .ledger L => .ok { s with ledger := L }

/-- The chain before the first collection. -/
structure Genesis (s : St) : Prop where
  coll : ∀ i, s.coll i = none
  nextId : s.nextId = 0
  locks : ∀ i n, s.locks i n = none
  approvals : ∀ i n, s.approvals i n = none
  forAll : ∀ a i b, s.forAll a i b = false
  minted : s.minted = []

/-- States reached from genesis by successful operations satisfying `G`. -/
inductive Reach (c : Cfg) (G : St → Op → Prop) : St → Prop where
  | init {s : St} : Genesis s → Reach c G s
  | step {s s' : St} {op : Op} : Reach c G s → G s op → step c s op = .ok s' → Reach c G s'

/-- No restriction on operations. -/
def Any : St → Op → Prop := fun _ _ => True

/-- The bridges mint only into collections that came over a bridge. `nft-peg` always does; the XLS-20
pallet does unless root maps an XRPL collection to a native one with `set_collection_mappings`. -/
def Bridged (s : St) : Op → Prop
  | .bridgedMint id _ _ => ∀ k, s.coll id = some k → k.origin ≠ .root
  | _ => True

/-- As `Bridged`, and no transfer names the same token twice. -/
def NoRepeat (s : St) (op : Op) : Prop :=
  Bridged s op ∧ match op with | .transfer _ _ ns _ => ns.Nodup | _ => True

/-- Run a list of operations; rejected ones change nothing. -/
def exec (c : Cfg) (s : St) : List Op → St
  | [] => s
  | op :: ops => exec c (match step c s op with | .ok s1 => s1 | .error _ => s) ops

theorem exec_reach {c : Cfg} : ∀ (ops : List Op) {s : St}, Reach c Any s → Reach c Any (exec c s ops)
  | [], _, h => h
  | op :: ops, s, h => by
    unfold exec
    refine exec_reach ops ?_
    cases hs : step c s op with
    | ok s1 => exact h.step trivial hs
    | error _ => exact h

theorem Reach.mono {c : Cfg} {G H : St → Op → Prop} (hGH : ∀ s op, G s op → H s op) {s : St}
    (h : Reach c G s) : Reach c H s := by
  induction h with
  | init hg => exact .init hg
  | step _ hG hs ih => exact ih.step (hGH _ _ hG) hs

end Verif.Nft
