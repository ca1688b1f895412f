import Verif.Ledger

/-!
# Crowdsale

Model of /repo/pallet/crowdsale/src/{lib,impls,types}.rs. Line numbers without a file name refer to
lib.rs.

Besides the pallet, the state holds what it uses of its environment: the multi-currency ledger, the account
that may mint and burn each asset, and the part of /repo/pallet/nft that decides whether tokens can
be minted (owner, issuance, next serial, maximum, mint switch, public mint switch). Accounts act on
that environment through `Call`; the same calls can be proxied through a vault by the sale's
administrator. Not modelled: weights, names and symbols, who holds which NFT, mint fees,
XLS-20 and NFI follow-ups of a mint, collections that were bridged in, existential deposits,
maintenance mode. The off-chain worker and the transaction pool are in `Worker.lean`.
-/

namespace Verif.Crowdsale

/-- types.rs 36-50 `SaleStatus`. -/
inductive Status where
  | pending (block : Nat)
  | enabled (block : Nat)
  | distributing (block paid : Nat)
  | ended (block : Nat)
  | failed (block : Nat)
  deriving DecidableEq, Repr

/-- types.rs 13-34 `SaleInformation`. -/
structure Sale where
  status : Status
  admin : Acct
  vault : Acct
  pay : AssetId
  coll : Nat
  price : Nat
  raised : Nat
  count : Nat
  voucher : AssetId
  duration : Nat
  deriving DecidableEq, Repr

/-- /repo/pallet/nft/src/types.rs `CollectionInformation` with the flags `UtilityFlags.mintable` and
`PublicMintInfo.enabled`, reduced to what minting looks at. -/
structure Coll where
  owner : Acct
  issued : Nat
  next : Nat
  max : Option Nat
  mintable : Bool
  pub : Bool
  deriving DecidableEq, Repr

/-- 180-223: the events. The record of the sale that `CrowdsaleEnabled`, `CrowdsaleClosed` and
`CrowdsaleManualDistribution` carry too is left out. -/
inductive Ev where
  | created (id : Nat) (info : Sale)
  | opened (id endBlock : Nat)
  | participated (id : Nat) (who : Acct) (amount : Nat)
  | closed (id : Nat)
  | claimed (id : Nat) (who : Acct) (amount : Nat)
  | complete (id total : Nat)
  | redeemed (id : Nat) (who : Acct) (quantity : Nat)
  | manual (id : Nat)
  | proxied (id : Nat)
  deriving DecidableEq, Repr

/-- 90-143: constants (/repo/runtime/src/lib.rs 460, 1351-1360); `vault` is impls.rs 24-28
`vault_account`, a hash of the sale id; `rank` is the position of an account's hashed key in the
participation map. -/
structure Cfg where
  vault : Nat → Acct
  rank : Acct → Nat
  maxPerBlock : Nat
  maxQueue : Nat
  maxPay : Nat
  maxDuration : Nat
  mintLimit : Nat
  maxTokens : Nat
  vault_inj : ∀ i j, vault i = vault j → i = j

/-- 144-178: the storage, and the environment. `keys id` lists the participants of a sale in
iteration order and `contrib id` their recorded contributions; an absent `SaleEndBlocks` entry is the empty
list. -/
structure St where
  ledger : Ledger
  issuer : AssetId → Option Acct
  colls : Nat → Option Coll
  next : Nat
  sale : Nat → Option Sale
  keys : Nat → List Acct
  contrib : Nat → Acct → Nat
  ending : Nat → List Nat
  queue : List Nat
  now : Nat
  events : List Ev

/-- types.rs 10 `VOUCHER_DECIMALS`: ten to the sixth. -/
def unit : Nat := 1000000

/-- `u128::saturating_mul`. -/
def satMul (a b : Nat) : Nat := min (a * b) (U128 - 1)

/-- `u128::saturating_add`. -/
def satAdd (a b : Nat) : Nat := min (a + b) (U128 - 1)

/-! ## The environment -/

/-- What accounts can do to assets and collections, and what a vault can be asked to do. -/
inductive Call where
  | remark
  | setBaseUri (coll : Nat)
  | setName (coll : Nat)
  | setRoyalties (coll : Nat)
  | transfer (a : AssetId) (dst : Acct) (x : Nat)
  | createAsset (a : AssetId)
  | mintAsset (a : AssetId) (dst : Acct) (x : Nat)
  | burnAsset (a : AssetId) (src : Acct) (x : Nat)
  | createColl (coll : Nat) (max : Option Nat)
  | mintNft (coll quantity : Nat)
  | burnNft (coll : Nat)
  | setOwner (coll : Nat) (new : Acct)
  | setMax (coll max : Nat)
  | setPublic (coll : Nat) (on : Bool)
  | setMintable (coll : Nat) (on : Bool)
  deriving DecidableEq, Repr

/-- /repo/pallet/nft/src/lib.rs 518-585 `mint` and impls.rs 201-250 `pre_mint`, 287-316 `do_mint`, as far
as the counters are concerned. -/
def nftMint (c : Cfg) (s : St) (who : Acct) (coll q : Nat) : Except Err St := do
  ensure (q ≤ c.mintLimit) "MintLimitExceeded"
  let k ← okOr (s.colls coll) "NoCollectionFound"
  ensure (k.mintable = true) "MintUtilityBlocked"
  ensure (0 < q) "NoToken"
  ensure (k.owner = who ∨ k.pub = true) "PublicMintDisabled"
  ensure (k.issued + q < c.maxTokens) "TokenLimitExceeded"
  ensure (k.next + q < U32) "NoAvailableIds"
  ensure (k.next + q ≤ c.maxTokens) "TokenLimitExceeded"
  ensure (k.next + q ≤ k.max.getD (U32 - 1)) "MaxIssuanceReached"
  pure { s with colls := upd s.colls coll (some { k with
    issued := k.issued + q
    next := k.next + q }) }

/-- Change a collection, owner only. -/
def editColl (s : St) (who : Acct) (coll : Nat) (f : Coll → Except Err Coll) : Except Err St := do
  let k ← okOr (s.colls coll) "NoCollectionFound"
  ensure (k.owner = who) "NotCollectionOwner"
  let k' ← f k
  pure { s with colls := upd s.colls coll (some k') }

/-- Dispatch a call of the environment: metadata calls have no modelled effect;
pallet-assets lets only the asset's own administrator mint and burn (dependency);
/repo/pallet/nft/src/lib.rs 329-362 `set_owner`, `set_max_issuance`, 412 `create_collection`, 439
`toggle_public_mint`, 518 `mint`, 607 `burn`, 677 `set_utility_flags`. Simplified: any account may
burn a token here. -/
def run (c : Cfg) (s : St) (who : Acct) : Call → Except Err St
  | .remark => pure s
  | .setBaseUri coll => editColl s who coll pure
  | .setName coll => editColl s who coll pure
  | .setRoyalties coll => editColl s who coll pure
  | .transfer a dst x => do
    let L ← s.ledger.transfer a who dst x
    pure { s with ledger := L }
  | .createAsset a => do
    ensure (s.issuer a = none) "InUse"
    pure { s with issuer := upd s.issuer a (some who) }
  | .mintAsset a dst x => do
    ensure (s.issuer a = some who) "NoPermission"
    let L ← s.ledger.mint a dst x
    pure { s with ledger := L }
  | .burnAsset a src x => do
    ensure (s.issuer a = some who) "NoPermission"
    let L ← s.ledger.burn a src x
    pure { s with ledger := L }
  | .createColl coll max => do
    ensure (s.colls coll = none) "InUse"
    pure { s with colls := upd s.colls coll (some ⟨who, 0, 0, max, true, false⟩) }
  | .mintNft coll q => nftMint c s who coll q
  | .burnNft coll => do
    let k ← okOr (s.colls coll) "NoCollectionFound"
    ensure (0 < k.issued) "NoToken"
    pure { s with colls := upd s.colls coll (some { k with issued := k.issued - 1 }) }
  | .setOwner coll new => editColl s who coll (fun k => pure { k with owner := new })
  | .setMax coll max => editColl s who coll (fun k => do
      ensure (max ≠ 0) "InvalidMaxIssuance"
      ensure (k.max = none) "MaxIssuanceAlreadySet"
      ensure (k.issued ≤ max) "InvalidMaxIssuance"
      pure { k with max := some max })
  | .setPublic coll on => editColl s who coll (fun k => pure { k with pub := on })
  | .setMintable coll on => editColl s who coll (fun k => pure { k with mintable := on })

/-- /repo/runtime/src/impls.rs 1109-1129 `CrowdsaleProxyVaultValidator`. -/
def allowed : Call → Bool
  | .remark => true
  | .setBaseUri _ => true
  | .setName _ => true
  | .setRoyalties _ => true
  | _ => false

/-! ## The pallet -/

/-- 356-429 `initialize`, impls.rs 32-61 `create_voucher_asset`. The id of the new voucher asset is an
argument: /repo/pallet/common/src/utils.rs 35-45 draws it from a counter and the creation fails if
it is in use. -/
def launch (c : Cfg) (s : St) (who : Acct) (pay : AssetId) (coll price dur : Nat) (v : AssetId) :
    Except Err St := do
  ensure (s.next + 1 < U64) "NoAvailableIds"
  ensure (s.issuer pay ≠ none) "InvalidAsset"
  ensure (price ≠ 0) "InvalidSoftCapPrice"
  ensure (dur ≤ c.maxDuration) "SaleDurationTooLong"
  let k ← okOr (s.colls coll) "NoCollectionFound"
  let m ← okOr k.max "MaxIssuanceNotSet"
  ensure (k.issued = 0) "CollectionIssuanceNotZero"
  ensure (k.pub = false) "CollectionPublicMintable"
  ensure (k.owner = who) "NotCollectionOwner"
  ensure (s.issuer v = none) "InUse"
  ensure (m * unit < U128) "InvalidMaxIssuance"
  let L ← s.ledger.mint v (c.vault s.next) (m * unit)
  pure { s with
    ledger := L
    issuer := upd s.issuer v (some (c.vault s.next))
    colls := upd s.colls coll (some { k with owner := c.vault s.next })
    next := s.next + 1
    sale := upd s.sale s.next (some ⟨.pending s.now, who, c.vault s.next, pay, coll, price, 0, 0, v, dur⟩)
    events := .created s.next
      ⟨.pending s.now, who, c.vault s.next, pay, coll, price, 0, 0, v, dur⟩ :: s.events }

/-- 444-486 `enable`. -/
def enable (c : Cfg) (s : St) (who : Acct) (id : Nat) : Except Err St := do
  let i ← okOr (s.sale id) "CrowdsaleNotFound"
  let _ ← (match i.status with | .pending _ => .ok () | _ => .error "InvalidCrowdsaleStatus" : Except Err Unit)
  ensure (i.admin = who) "AccessDenied"
  let e := min (i.duration + s.now) (U32 - 1)
  ensure (s.ending e = [] ∨ (s.ending e).length < c.maxPerBlock) "TooManySales"
  pure { s with
    ending := upd s.ending e (s.ending e ++ [id])
    sale := upd s.sale id (some { i with status := .enabled s.now })
    events := .opened id e :: s.events }

/-- Insert a new key at its place in the iteration order. -/
def insertKey (rank : Acct → Nat) (w : Acct) : List Acct → List Acct
  | [] => [w]
  | k :: ks => if rank w < rank k then w :: k :: ks else k :: insertKey rank w ks

/-- 501-554 `participate`. -/
def participate (c : Cfg) (s : St) (who : Acct) (id x : Nat) : Except Err St := do
  ensure (0 < x) "InvalidAmount"
  let i ← okOr (s.sale id) "CrowdsaleNotFound"
  let _ ← (match i.status with | .enabled _ => .ok () | _ => .error "CrowdsaleNotEnabled" : Except Err Unit)
  let L ← s.ledger.transfer i.pay who i.vault x
  let old := decide (who ∈ s.keys id)
  pure { s with
    ledger := L
    sale := upd s.sale id (some { i with
      raised := satAdd i.raised x
      count := if old then i.count else min (i.count + 1) (U64 - 1) })
    keys := upd s.keys id (if old then s.keys id else insertKey c.rank who (s.keys id))
    contrib := upd s.contrib id (upd (s.contrib id) who (if old then satAdd (s.contrib id who) x else x))
    events := .participated id who x :: s.events }

/-- impls.rs 69-98 `calculate_voucher_rewards`. -/
def rewards (price raised x supply : Nat) : Except Err Nat := do
  let target := satMul price supply
  let y := min (x * unit) (U256 - 1)
  let q ← (if raised > target then
      (if raised = 0 then .error "Total funds raised must be greater than 0"
       else .ok (min (y * supply) (U256 - 1) / raised))
    else
      (if price = 0 then .error "Voucher price must be greater than 0" else .ok (y / price)) : Except Err Nat)
  pure (min q (U128 - 1))

/-- impls.rs 101-134 `transfer_user_vouchers`. -/
def payVouchers (s : St) (i : Sale) (who : Acct) (x supply : Nat) : Except Err (St × Nat) := do
  let n ← rewards i.price i.raised x supply
  let L ← s.ledger.transfer i.voucher i.vault who (min (s.ledger.bal i.voucher i.vault) n)
  pure ({ s with ledger := L }, n)

/-- Remove a participation entry. -/
def dropKey (s : St) (id : Nat) (who : Acct) : St :=
  { s with
    keys := upd s.keys id ((s.keys id).filter (· ≠ who))
    contrib := upd s.contrib id (upd (s.contrib id) who 0) }

/-- 592-617: the payout loop; the result is the state, the total paid, and whether the entries ran out. -/
def payLoop (i : Sale) (id supply : Nat) : Nat → St → Nat → St × Nat × Bool
  | 0, s, t => (s, t, false)
  | n + 1, s, t =>
    match s.keys id with
    | [] => (s, t, true)
    | w :: _ =>
      let s1 := dropKey s id w
      match payVouchers s1 i w (s.contrib id w) supply with
      | .error _ => payLoop i id supply n s1 t
      | .ok (s2, a) =>
        payLoop i id supply n { s2 with events := .claimed id w a :: s2.events } (satAdd t a)

/-- 621-645, 713-739: all entries are paid; the vouchers left in the vault go to the administrator. -/
def finish (s : St) (i : Sale) (id t : Nat) : St :=
  let b := s.ledger.bal i.voucher i.vault
  let L := match s.ledger.transfer i.voucher i.vault i.admin b with
    | .ok L => L
    | .error _ => s.ledger
  { s with
    ledger := if 0 < b then L else s.ledger
    sale := upd s.sale id (some { i with status := .ended s.now })
    events := .complete id t :: s.events }

/-- 570-658 `distribute_crowdsale_rewards`. -/
def distribute (c : Cfg) (s : St) : Except Err St := do
  let id ← okOr s.queue.head? "CrowdsaleNotFound"
  let i ← okOr (s.sale id) "CrowdsaleNotFound"
  let t ← (match i.status with | .distributing _ t => .ok t | _ => .error "InvalidCrowdsaleStatus" : Except Err Nat)
  let k ← okOr (s.colls i.coll) "NoCollectionFound"
  let m ← okOr k.max "MaxIssuanceNotSet"
  let r := payLoop i id m c.maxPay s t
  if r.2.2 = true ∨ r.1.keys id = [] then
    pure { finish r.1 i id r.2.1 with queue := s.queue.tail }
  else
    pure { r.1 with sale := upd r.1.sale id (some { i with status := .distributing s.now r.2.1 }) }

/-- 672-756 `claim_voucher`. -/
def claim (s : St) (who : Acct) (id : Nat) : Except Err St := do
  let i ← okOr (s.sale id) "CrowdsaleNotFound"
  let t ← (match i.status with | .distributing _ t => .ok t | _ => .error "InvalidCrowdsaleStatus" : Except Err Nat)
  ensure (who ∈ s.keys id) "VouchersAlreadyClaimed"
  let s1 := dropKey s id who
  let k ← okOr (s.colls i.coll) "NoCollectionFound"
  let m ← okOr k.max "MaxIssuanceNotSet"
  let r ← payVouchers s1 i who (s.contrib id who) m
  let t' := satAdd t r.2
  let s3 := if r.1.keys id = [] then
      { finish r.1 i id t' with queue := s.queue.filter (· ≠ id) }
    else
      { r.1 with sale := upd r.1.sale id (some { i with status := .distributing s.now t' }) }
  pure { s3 with events := .claimed id who r.2 :: s3.events }

/-- 771-816 `redeem_voucher`; the amount of vouchers is computed in `u32`. -/
def redeem (c : Cfg) (s : St) (who : Acct) (id q : Nat) : Except Err St := do
  ensure (0 < q) "InvalidQuantity"
  let i ← okOr (s.sale id) "CrowdsaleNotFound"
  let _ ← (match i.status with
    | .distributing _ _ => .ok ()
    | .ended _ => .ok ()
    | _ => .error "InvalidCrowdsaleStatus" : Except Err Unit)
  let L ← s.ledger.burn i.voucher who (min (q * unit) (U32 - 1))
  let s2 ← nftMint c { s with ledger := L } i.vault i.coll q
  pure { s2 with events := .redeemed id who q :: s2.events }

/-- 833-859 `proxy_vault_call`. -/
def proxy (c : Cfg) (s : St) (who : Acct) (id : Nat) (call : Call) : Except Err St := do
  let i ← okOr (s.sale id) "CrowdsaleNotFound"
  ensure (i.admin = who) "AccessDenied"
  ensure (allowed call = true) "ExtrinsicForbidden"
  let s1 ← run c s i.vault call
  pure { s1 with events := .proxied id :: s1.events }

/-- 866-898 `try_force_distribution`. -/
def force (c : Cfg) (s : St) (id : Nat) : Except Err St := do
  let i ← okOr (s.sale id) "CrowdsaleNotFound"
  let _ ← (match i.status with | .failed _ => .ok () | _ => .error "InvalidCrowdsaleStatus" : Except Err Unit)
  ensure (s.queue.length < c.maxQueue) "SaleDistributionFailed"
  pure { s with
    queue := s.queue ++ [id]
    sale := upd s.sale id (some { i with
      status := if i.raised = 0 then .ended s.now else .distributing s.now 0 })
    events := .manual id :: s.events }

/-- impls.rs 160-186: the vouchers that go back to the administrator when a sale closes. -/
def refund (i : Sale) (m : Nat) : Nat :=
  if i.raised < satMul i.price m then
    satMul m unit - satMul i.raised unit / i.price
  else 0

/-- impls.rs 145-213: closing one sale. The enclosing hook is not transactional: a transfer already made stays
when a later step fails, but the sale record is only written on success. -/
def closeOne (c : Cfg) (s : St) (id : Nat) : St :=
  match s.sale id with
  | none => s
  | some i =>
    match i.status with
    | .enabled _ =>
      match s.ledger.transfer i.pay i.vault i.admin i.raised with
      | .error _ => s
      | .ok L =>
        match (s.colls i.coll).bind Coll.max with
        | none => { s with ledger := L }
        | some m =>
          match L.transfer i.voucher i.vault i.admin (refund i m) with
          | .error _ => { s with ledger := L }
          | .ok L2 =>
            if i.raised = 0 then
              { s with
                ledger := L2
                sale := upd s.sale id (some { i with status := .ended s.now })
                events := .closed id :: s.events }
            else if s.queue.length < c.maxQueue then
              { s with
                ledger := L2
                queue := s.queue ++ [id]
                sale := upd s.sale id (some { i with status := .distributing s.now 0 })
                events := .closed id :: s.events }
            else
              { s with
                ledger := L2
                sale := upd s.sale id (some { i with status := .failed s.now }) }
    | _ => s

/-- Close the sales of a list one after the other. -/
def closeAll (c : Cfg) (s : St) : List Nat → St
  | [] => s
  | id :: ids => closeAll c (closeOne c s id) ids

/-- 271-287 `on_initialize`, impls.rs 137-145 `close_sales_at`: a new block begins. -/
def block (c : Cfg) (s : St) : St :=
  closeAll c { s with
    now := s.now + 1
    ending := upd s.ending (s.now + 1) [] } (s.ending (s.now + 1))

/-! ## Histories -/

/-- Everything that can happen. -/
inductive Op where
  | launch (who : Acct) (pay : AssetId) (coll price dur : Nat) (v : AssetId)
  | enable (who : Acct) (id : Nat)
  | participate (who : Acct) (id x : Nat)
  | distribute
  | claim (who : Acct) (id : Nat)
  | redeem (who : Acct) (id q : Nat)
  | proxy (who : Acct) (id : Nat) (call : Call)
  | force (id : Nat)
  | block
  | act (who : Acct) (call : Call)
  deriving DecidableEq, Repr

/-- One step; extrinsics are transactional. -/
def step (c : Cfg) (s : St) : Op → Except Err St
  | .launch who pay coll price dur v => launch c s who pay coll price dur v
  | .enable who id => enable c s who id
  | .participate who id x => participate c s who id x
  | .distribute => distribute c s
  | .claim who id => claim s who id
  | .redeem who id q => redeem c s who id q
  | .proxy who id call => proxy c s who id call
  | .force id => force c s id
  | .block => .ok (block c s)
  | .act who call => run c s who call

/-- A fresh pallet on a chain whose ledger adds up and on which assets that were never created have no supply. -/
structure Genesis (s : St) : Prop where
  sound : s.ledger.Sound
  fresh : ∀ a, s.issuer a = none → s.ledger.iss a = 0
  next : s.next = 0
  sale : ∀ id, s.sale id = none
  keys : ∀ id, s.keys id = []
  contrib : ∀ id w, s.contrib id w = 0
  ending : ∀ b, s.ending b = []
  queue : s.queue = []
  events : s.events = []
/-- Histories from `g` whose operations satisfy `G`. -/
inductive Reach (c : Cfg) (G : St → Op → Prop) (g : St) : St → Prop
  | init : Genesis g → Reach c G g g
  | step {s s' : St} {op : Op} : Reach c G g s → G s op → step c s op = .ok s' → Reach c G g s'

/-- A history from one state to another. -/
inductive Run (c : Cfg) (G : St → Op → Prop) : St → St → Prop
  | nil (s : St) : Run c G s s
  | step {s s1 s2 : St} {op : Op} : Run c G s s1 → G s1 op → step c s1 op = .ok s2 → Run c G s s2

/-- No restriction on the operations. -/
def Any : St → Op → Prop := fun _ _ => True

theorem Reach.weaken {c : Cfg} {G H : St → Op → Prop} {g s : St} (hGH : ∀ s op, G s op → H s op)
    (h : Reach c G g s) : Reach c H g s := by
  induction h with
  | init hg => exact .init hg
  | step _ hG hs ih => exact .step ih (hGH _ _ hG) hs

theorem Reach.any {c : Cfg} {G : St → Op → Prop} {g s : St} (h : Reach c G g s) : Reach c Any g s :=
  h.weaken (fun _ _ _ => trivial)

theorem Reach.run {c : Cfg} {G : St → Op → Prop} {g s s' : St} (h : Reach c G g s) (hr : Run c G s s') :
    Reach c G g s' := by
  induction hr with
  | nil => exact h
  | step _ hG hs ih => exact .step ih hG hs

/-- The state after trying an operation. -/
def after (c : Cfg) (s : St) (op : Op) : St :=
  match step c s op with
  | .ok s1 => s1
  | .error _ => s

/-- Run operations, ignoring failing ones. -/
def exec (c : Cfg) (s : St) : List Op → St
  | [] => s
  | op :: ops => exec c (after c s op) ops

/-- Every operation of the run satisfies `G`. -/
def Along (c : Cfg) (G : St → Op → Prop) (s : St) : List Op → Prop
  | [] => True
  | op :: ops => G s op ∧ Along c G (after c s op) ops

theorem exec_reach {c : Cfg} {G : St → Op → Prop} {g : St} : ∀ (ops : List Op) {s : St}, Reach c G g s →
    Along c G s ops → Reach c G g (exec c s ops)
  | [], _, h, _ => h
  | op :: ops, s, h, hg => by
    unfold exec
    refine exec_reach ops ?_ hg.2
    unfold after
    cases he : step c s op with
    | ok s' => exact .step h hg.1 he
    | error _ => exact h

theorem along_any {c : Cfg} : ∀ (ops : List Op) (s : St), Along c Any s ops
  | [], _ => trivial
  | _ :: ops, _ => ⟨trivial, along_any ops _⟩

end Verif.Crowdsale
