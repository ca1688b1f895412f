import Verif.Nft.Model

/-!
# Model of the SFT pallet and of the ERC-1155 approvals

/repo/pallet/sft/src/{types,impls,lib}.rs, the ERC-1155 part of /repo/pallet/token-approvals/src/lib.rs and of
/repo/evm-precompiles/erc1155/src/lib.rs. Names, metadata schemes and events are not modelled; names are taken
to be valid. The NFI request of `create_token` is a flag saying whether it succeeds. Every entry point is
transactional: an error leaves the state unchanged.
-/

namespace Verif.Sft

open Verif.Nft (Flags PubMint)

/-- types.rs:180-186 `SftTokenBalance`. -/
structure Bal where
  free : Nat
  res : Nat
deriving DecidableEq

/-- types.rs:33-51 `SftCollectionInformation`. -/
structure Coll where
  owner : Acct
  royalties : Option (List (Acct × Nat))
  next : Nat
deriving DecidableEq

/-- types.rs:58-71 `SftTokenInformation`. -/
structure Tok where
  max : Option Nat
  iss : Nat
  owned : List (Acct × Bal)
deriving DecidableEq

/-- Constants of `Config` (/repo/pallet/sft/src/lib.rs:65-98). -/
structure Cfg where
  /-- `MaxOwnersPerSftToken` -/
  maxOwners : Nat
  /-- `MaxSerialsPerMint` -/
  maxSerials : Nat
  /-- `ParachainId` -/
  chainId : Nat

/-- The storage of the pallet (/repo/pallet/sft/src/lib.rs:101-126), the approvals and the balances. -/
structure St where
  /-- `SftCollectionInfo` -/
  coll : Nat → Option Coll
  /-- `TokenInfo` -/
  tok : Nat → Nat → Option Tok
  /-- `UtilityFlags` -/
  flags : Nat → Flags
  /-- `PublicMintInfo` (absent is the default) -/
  pubMint : Nat → Nat → PubMint
  /-- `NextCollectionId` of the NFT pallet -/
  nextId : Nat
  /-- `ERC1155ApprovalsForAll`: owner, collection, operator -/
  forAll : Acct → Nat → Acct → Bool
  ledger : Ledger

/-- The entry of an account: `iter().find(|(account, _)| account == who)`. -/
def lookup (o : List (Acct × Bal)) (a : Acct) : Option Bal := (o.find? (fun e => decide (e.1 = a))).map Prod.snd

/-- types.rs:81-87 `free_balance_of`. -/
def freeOf (o : List (Acct × Bal)) (a : Acct) : Nat := ((lookup o a).map Bal.free).getD 0

/-- The reserved balance of an account. -/
def resOf (o : List (Acct × Bal)) (a : Acct) : Nat := ((lookup o a).map Bal.res).getD 0

/-- types.rs:214-218 `add_free_balance`. -/
def addFree (amt : Nat) (b : Bal) : Except Err Bal := do
  ensure (b.free + amt < U128) "Overflow"
  pure { b with free := b.free + amt }

/-- types.rs:221-227 `remove_free_balance`. -/
def remFree (amt : Nat) (b : Bal) : Except Err Bal := do
  ensure (amt ≤ b.free) "InsufficientBalance"
  pure { b with free := b.free - amt }

/-- types.rs:230-235 `place_reserve`. -/
def placeReserve (amt : Nat) (b : Bal) : Except Err Bal := do
  let b1 ← remFree amt b
  ensure (b1.res + amt < U128) "Overflow"
  pure { b1 with res := b1.res + amt }

/-- types.rs:238-245 `remove_reserve`. -/
def removeReserve (amt : Nat) (b : Bal) : Except Err Bal := do
  ensure (amt ≤ b.res) "InsufficientBalance"
  addFree amt { b with res := b.res - amt }

/-- `iter_mut().find(..)` followed by a change of the entry found. -/
def modFirst (who : Acct) (f : Bal → Except Err Bal) : List (Acct × Bal) → Except Err (List (Acct × Bal))
  | [] => .error "InsufficientBalance"
  | e :: o =>
    if e.1 = who then do
      let b ← f e.2
      pure ((e.1, b) :: o)
    else do
      let o' ← modFirst who f o
      pure (e :: o')

/-- types.rs:90-108 `add_balance`. -/
def addBalance (max : Nat) (o : List (Acct × Bal)) (who : Acct) (amt : Nat) : Except Err (List (Acct × Bal)) :=
  if o.any (fun e => decide (e.1 = who)) then modFirst who (addFree amt) o
  else do
    ensure (o.length < max) "MaxOwnersReached"
    pure (o ++ [(who, ⟨amt, 0⟩)])

/-- types.rs:209-211 `total_balance` (unchecked addition). -/
def total (b : Bal) : Nat := (b.free + b.res) % U128

/-- types.rs:121-125: drop the entry of an account with no balance. -/
def dropEmpty (o : List (Acct × Bal)) (who : Acct) : List (Acct × Bal) :=
  if (lookup o who).map total = some 0 then o.filter (fun e => decide (e.1 ≠ who)) else o

/-- types.rs:111-128 `remove_balance`. -/
def removeBalance (o : List (Acct × Bal)) (who : Acct) (amt : Nat) : Except Err (List (Acct × Bal)) := do
  let o' ← modFirst who (remFree amt) o
  pure (dropEmpty o' who)

/-- types.rs:133-145 `transfer_balance`. -/
def transferBalance (max : Nat) (o : List (Acct × Bal)) (src dst : Acct) (amt : Nat) :
    Except Err (List (Acct × Bal)) :=
  if src = dst then .ok o
  else do
    let o' ← removeBalance o src amt
    addBalance max o' dst amt

/-- Write a token record. -/
def setTok (s : St) (id n : Nat) (t : Tok) : St := { s with tok := upd s.tok id (upd (s.tok id) n (some t)) }

/-- A `for` loop over a list that stops at the first error. -/
def batch (f : St → Nat × Nat → Except Err St) : St → List (Nat × Nat) → Except Err St
  | s, [] => .ok s
  | s, x :: xs => do
    let s' ← f s x
    batch f s' xs

/-- impls.rs:25-80 `do_create_collection`. -/
def createColl (c : Cfg) (s : St) (owner : Acct) (r : Option (List (Acct × Nat))) : Except Err St := do
  let id ← okOr (Nft.nextAssetUuid s.nextId c.chainId) "NoAvailableIds"
  ensure (Nft.royaltiesOk r = true) "RoyaltiesInvalid"
  ensure (s.nextId + 1 < U32) "NoAvailableIds"
  pure { s with
    coll := upd s.coll id (some ⟨owner, r, 0⟩)
    nextId := s.nextId + 1 }

/-- impls.rs:108-115: the owner list of a new token (`MaxOwnersPerSftToken` is not zero). -/
def firstOwned (owner : Acct) (initial : Nat) : List (Acct × Bal) :=
  if 0 < initial then [(owner, ⟨initial, 0⟩)] else []

/-- impls.rs:82-137 `do_create_token`. `ext`: the NFI request succeeds. The initial issuance is a `u128`. -/
def createToken (s : St) (who : Acct) (id initial : Nat) (max : Option Nat) (owner : Option Acct) (ext : Bool) :
    Except Err St := do
  ensure (initial < U128) "not a u128"
  let k ← okOr (s.coll id) "NoCollectionFound"
  ensure (who = k.owner) "NotCollectionOwner"
  ensure (∀ m, max = some m → 0 < m ∧ initial ≤ m) "InvalidMaxIssuance"
  ensure (k.next + 1 < U32) "Overflow"
  ensure (ext = true) "NFI request failed"
  pure { setTok s id k.next ⟨max, initial, firstOwned (owner.getD who) initial⟩ with
    coll := upd s.coll id (some { k with next := k.next + 1 }) }

/-- impls.rs:139-171 `charge_mint_fee`. -/
def chargeFee (L : Ledger) (who owner : Acct) (p : PubMint) (q : Nat) : Except Err Ledger :=
  match p.price with
  | none => .ok L
  | some (a, x) => L.transfer a who owner (min (x * q) (U128 - 1))

/-- impls.rs:197-207: charge unless the caller is the owner or public minting is off. -/
def maybeCharge (s : St) (id : Nat) (k : Coll) (who : Acct) (n q : Nat) : Except Err Ledger :=
  if (s.pubMint id n).enabled = true ∧ k.owner ≠ who then chargeFee s.ledger who k.owner (s.pubMint id n) q
  else .ok s.ledger

/-- impls.rs:189-233: one round of the loop of `do_mint`. -/
def mintOne (c : Cfg) (id : Nat) (k : Coll) (who owner : Acct) (s : St) (x : Nat × Nat) : Except Err St := do
  ensure (x.2 ≠ 0) "InvalidQuantity"
  let L ← maybeCharge s id k who x.1 x.2
  ensure (k.owner = who ∨ (s.pubMint id x.1).enabled = true) "PublicMintDisabled"
  let t ← okOr (s.tok id x.1) "NoToken"
  ensure (t.iss + x.2 < U128) "Overflow"
  ensure (∀ m, t.max = some m → t.iss + x.2 ≤ m) "MaxIssuanceReached"
  let o ← addBalance c.maxOwners t.owned owner x.2
  pure { setTok s id x.1 { t with iss := t.iss + x.2, owned := o } with ledger := L }

/-- impls.rs:174-240 `do_mint`. -/
def mint (c : Cfg) (s : St) (who : Acct) (id : Nat) (xs : List (Nat × Nat)) (owner : Option Acct) : Except Err St := do
  ensure (xs.length ≤ c.maxSerials) "bounded"
  ensure (xs ≠ []) "NoToken"
  let k ← okOr (s.coll id) "NoCollectionFound"
  ensure ((s.flags id).mintable = true) "MintUtilityBlocked"
  batch (mintOne c id k who (owner.getD who)) s xs

/-- impls.rs:258-271: one round of the loop of `do_transfer`. -/
def transferOne (c : Cfg) (id : Nat) (who new : Acct) (s : St) (x : Nat × Nat) : Except Err St := do
  ensure (x.2 ≠ 0) "InvalidQuantity"
  let t ← okOr (s.tok id x.1) "NoToken"
  let o ← transferBalance c.maxOwners t.owned who new x.2
  pure (setTok s id x.1 { t with owned := o })

/-- impls.rs:244-284 `do_transfer`. -/
def transfer (c : Cfg) (s : St) (who : Acct) (id : Nat) (xs : List (Nat × Nat)) (new : Acct) : Except Err St := do
  ensure (xs.length ≤ c.maxSerials) "TokenLimitExceeded"
  ensure (xs ≠ []) "NoToken"
  ensure (who ≠ new) "InvalidNewOwner"
  ensure ((s.flags id).transferable = true) "TransferUtilityBlocked"
  batch (transferOne c id who new) s xs

/-- impls.rs:298-310: one round of the loop of `do_burn`. -/
def burnOne (id : Nat) (who : Acct) (s : St) (x : Nat × Nat) : Except Err St := do
  ensure (x.2 ≠ 0) "InvalidQuantity"
  let t ← okOr (s.tok id x.1) "NoToken"
  let o ← removeBalance t.owned who x.2
  pure (setTok s id x.1 { t with iss := t.iss - x.2, owned := o })

/-- impls.rs:289-320 `do_burn`. -/
def burn (c : Cfg) (s : St) (who : Acct) (id : Nat) (xs : List (Nat × Nat)) : Except Err St := do
  ensure (xs.length ≤ c.maxSerials) "bounded"
  ensure (xs ≠ []) "NoToken"
  ensure ((s.flags id).burnable = true) "BurnUtilityBlocked"
  batch (burnOne id who) s xs

/-- impls.rs:322-336 `do_set_owner`. -/
def setOwner (s : St) (who : Acct) (id : Nat) (new : Acct) : Except Err St := do
  let k ← okOr (s.coll id) "NoCollectionFound"
  ensure (k.owner = who) "NotCollectionOwner"
  pure { s with coll := upd s.coll id (some { k with owner := new }) }

/-- impls.rs:341-365 `do_set_max_issuance`. -/
def setMax (s : St) (who : Acct) (id n m : Nat) : Except Err St := do
  ensure (m ≠ 0) "InvalidMaxIssuance"
  let k ← okOr (s.coll id) "NoCollectionFound"
  ensure (k.owner = who) "NotCollectionOwner"
  let t ← okOr (s.tok id n) "NoToken"
  ensure (t.max = none) "MaxIssuanceAlreadySet"
  ensure (t.iss ≤ m) "InvalidMaxIssuance"
  pure (setTok s id n { t with max := some m })

/-- impls.rs:410-433 `do_set_royalties_schedule`. -/
def setRoyalties (s : St) (who : Acct) (id : Nat) (r : List (Acct × Nat)) : Except Err St := do
  let k ← okOr (s.coll id) "NoCollectionFound"
  ensure (k.owner = who) "NotCollectionOwner"
  ensure (Nft.royaltiesOk (some r) = true) "RoyaltiesInvalid"
  pure { s with coll := upd s.coll id (some { k with royalties := some r }) }

/-- lib.rs `toggle_public_mint` and `set_mint_fee`. -/
def setPubMint (s : St) (who : Acct) (id n : Nat) (p : PubMint) : Except Err St := do
  let k ← okOr (s.coll id) "NoCollectionFound"
  ensure (k.owner = who) "NotCollectionOwner"
  pure { s with pubMint := upd s.pubMint id (upd (s.pubMint id) n p) }

/-- lib.rs `set_utility_flags`. -/
def setFlags (s : St) (who : Acct) (id : Nat) (f : Flags) : Except Err St := do
  let k ← okOr (s.coll id) "NoCollectionFound"
  ensure (k.owner = who) "NotCollectionOwner"
  pure { s with flags := upd s.flags id f }

/-- impls.rs:496-505 `reserve_balance` with types.rs:148-160, called by the marketplace. -/
def reserve (s : St) (id n amt : Nat) (who : Acct) : Except Err St := do
  let t ← okOr (s.tok id n) "NoToken"
  let o ← modFirst who (placeReserve amt) t.owned
  pure (setTok s id n { t with owned := o })

/-- impls.rs:507-516 `free_reserved_balance` with types.rs:163-175, called by the marketplace. -/
def unreserve (s : St) (id n amt : Nat) (who : Acct) : Except Err St := do
  let t ← okOr (s.tok id n) "NoToken"
  let o ← modFirst who (removeReserve amt) t.owned
  pure (setTok s id n { t with owned := o })

/-- token-approvals lib.rs:234-253 `erc1155_approval_for_all`; the precompile passes the EVM caller. -/
def approveAll (s : St) (caller operator : Acct) (id : Nat) (ok : Bool) : Except Err St := do
  ensure (caller ≠ operator) "CallerNotOperator"
  pure { s with forAll := upd s.forAll caller (upd (s.forAll caller) id (upd (s.forAll caller id) operator ok)) }

/-- erc1155/src/lib.rs:561-607 `do_safe_transfer`, without the receiver callback. -/
def safeTransfer (c : Cfg) (s : St) (caller : Acct) (id : Nat) (xs : List (Nat × Nat)) (src dst : Acct) :
    Except Err St := do
  ensure (src = caller ∨ s.forAll src id caller = true) "ERC1155: Caller is not token owner or approved"
  transfer c s src id xs dst

/-- erc1155/src/lib.rs:609-658 `burn` and 660-727 `burn_batch`. -/
def safeBurn (c : Cfg) (s : St) (caller : Acct) (id : Nat) (xs : List (Nat × Nat)) (src : Acct) : Except Err St := do
  ensure (src = caller ∨ s.forAll src id caller = true) "ERC1155: Caller is not token owner or approved"
  burn c s src id xs

/-- The calls (/repo/pallet/sft/src/lib.rs:244-516) and those of the approvals. -/
inductive Op where
  | createColl (owner : Acct) (r : Option (List (Acct × Nat)))
  /-- the NFT pallet takes a collection id -/
  | takeUuid
  | createToken (who : Acct) (id initial : Nat) (max : Option Nat) (owner : Option Acct) (ext : Bool)
  | mint (who : Acct) (id : Nat) (xs : List (Nat × Nat)) (owner : Option Acct)
  | transfer (who : Acct) (id : Nat) (xs : List (Nat × Nat)) (new : Acct)
  | burn (who : Acct) (id : Nat) (xs : List (Nat × Nat))
  | setOwner (who : Acct) (id : Nat) (new : Acct)
  | setMax (who : Acct) (id n m : Nat)
  | setRoyalties (who : Acct) (id : Nat) (r : List (Acct × Nat))
  | setPubMint (who : Acct) (id n : Nat) (p : PubMint)
  | setFlags (who : Acct) (id : Nat) (f : Flags)
  | reserve (id n amt : Nat) (who : Acct)
  | unreserve (id n amt : Nat) (who : Acct)
  | approveAll (caller operator : Acct) (id : Nat) (ok : Bool)
  | safeTransfer (caller : Acct) (id : Nat) (xs : List (Nat × Nat)) (src dst : Acct)
  | safeBurn (caller : Acct) (id : Nat) (xs : List (Nat × Nat)) (src : Acct)
  /-- other pallets move money -/
  | ledger (L : Ledger)

/-- Each case is the function of that name above, or written out. -/
def step (c : Cfg) (s : St) : Op → Except Err St
  | .createColl o r => createColl c s o r
  | .takeUuid => do
      let _ ← okOr (Nft.nextAssetUuid s.nextId c.chainId) "NoAvailableIds"
      pure { s with nextId := s.nextId + 1 }
  | .createToken w id i m o e => createToken s w id i m o e
  | .mint w id xs o => mint c s w id xs o
  | .transfer w id xs n => transfer c s w id xs n
  | .burn w id xs => burn c s w id xs
  | .setOwner w id n => setOwner s w id n
  | .setMax w id n m => setMax s w id n m
  | .setRoyalties w id r => setRoyalties s w id r
  | .setPubMint w id n p => setPubMint s w id n p
  | .setFlags w id f => setFlags s w id f
  | .reserve id n a w => reserve s id n a w
  | .unreserve id n a w => unreserve s id n a w
  | .approveAll a b id ok => approveAll s a b id ok
  | .safeTransfer a id xs f t => safeTransfer c s a id xs f t
  | .safeBurn a id xs f => safeBurn c s a id xs f
  | .ledger L => .ok { s with ledger := L }

/-- The chain before the first collection. -/
structure Genesis (s : St) : Prop where
  coll : ∀ i, s.coll i = none
  tok : ∀ i n, s.tok i n = none
  nextId : s.nextId = 0

/-- States reached from genesis by successful operations. -/
inductive Reach (c : Cfg) : St → Prop where
  | init {s : St} : Genesis s → Reach c s
  | step {s s' : St} {op : Op} : Reach c s → step c s op = .ok s' → Reach c s'

/-- Run a list of operations; rejected ones change nothing. -/
def exec (c : Cfg) (s : St) : List Op → St
  | [] => s
  | op :: ops => exec c (match step c s op with | .ok s1 => s1 | .error _ => s) ops

theorem exec_reach {c : Cfg} : ∀ (ops : List Op) {s : St}, Reach c s → Reach c (exec c s ops)
  | [], _, h => h
  | op :: ops, s, h => by
    unfold exec
    refine exec_reach ops ?_
    cases hs : step c s op with
    | ok s1 => exact h.step hs
    | error _ => exact h

end Verif.Sft
