import Verif.Ledger

/-!
# Vortex distribution

Model of /repo/pallet/vortex-distribution/src/lib.rs. Line numbers refer to that file.

The order book of a distribution is a storage double map; its iteration order is the order of the
hashed keys. `Cfg.rank` is that order, an arbitrary one-to-one function. A raw storage key is
represented by its position: the bare prefix is `0`, the key of account `w` is `rank w + 1`.
Not modelled: weights, the length bounds of the call arguments, the pivot length bound (a raw key
has a fixed length below it). The off-chain worker and the transaction pool are in `Worker.lean`.
-/

namespace Verif.Vortex

/-- 62-68 `VtxDistStatus`. -/
inductive Status where
  | disabled | enabled | triggered | paying | done
  deriving DecidableEq, Repr

/-- 89-153: the constants of the pallet (/repo/runtime/src/lib.rs 1310-1333). -/
structure Cfg where
  vault : Acct
  feeVault : Acct
  rootVault : Acct
  vtx : AssetId
  native : AssetId
  batch : Nat
  interval : Nat
  rank : Acct → Nat
  rank_inj : ∀ x y, rank x = rank y → x = y
  native_ne : native ≠ vtx

/-- 240-276: the events that report money movements. -/
inductive Ev where
  | started (id minted : Nat)
  | paid (id : Nat) (who : Acct) (amount : Nat)
  | done (id : Nat)
  deriving DecidableEq, Repr

/-- 158-236: the storage. `keys id` lists the accounts with an order book entry in key order, `book` the
entries; `priced id` lists the assets with a price. -/
structure St where
  ledger : Ledger
  admin : Option Acct
  next : Nat
  status : Nat → Status
  eras : Nat → Nat × Nat
  keys : Nat → List Acct
  book : Nat → Acct → Nat × Bool
  priced : Nat → List AssetId
  price : Nat → AssetId → Nat
  total : Nat → Nat
  pivot : Nat → Option Nat
  unsignedAt : Nat
  now : Nat
  events : List Ev

/-- Who calls: `none` is root. -/
abbrev Origin := Option Acct

/-- 791-804 `ensure_root_or_admin`. -/
def rootOrAdmin (s : St) (o : Origin) : Except Err Unit :=
  match o with
  | none => .ok ()
  | some w => ensure (s.admin = some w) "RequireAdmin"

/-- 770-789 `safe_transfer`. -/
def safeTransfer (L : Ledger) (a : AssetId) (src dst : Acct) (x : Nat) : Except Err Ledger :=
  if x = 0 then .ok L else L.transfer a src dst x

/-- 351-361 `set_admin`. -/
def setAdmin (s : St) (o : Origin) (new : Acct) : Except Err St := do
  ensure (o = none) "BadOrigin"
  pure { s with admin := some new }

/-- 367-380 `create_vtx_dist`. -/
def create (s : St) (o : Origin) : Except Err St := do
  rootOrAdmin s o
  ensure (s.next + 1 < U32) "VtxDistIdNotAvailable"
  pure { s with
    next := s.next + 1
    status := upd s.status s.next .enabled }

/-- 388-397 `disable_vtx_dist`, 670-674 `do_disable_vtx_dist`. -/
def disable (s : St) (o : Origin) (id : Nat) : Except Err St := do
  rootOrAdmin s o
  ensure (s.status id ≠ .disabled) "VtxDistDisabled"
  pure { s with status := upd s.status id .disabled }

/-- 405-415 `start_vtx_dist`, 677-687 `do_start_vtx_dist`. -/
def start (c : Cfg) (s : St) (o : Origin) (id : Nat) : Except Err St := do
  rootOrAdmin s o
  ensure (s.status id = .triggered) "NotTriggered"
  let L ← s.ledger.mint c.vtx c.vault (s.total id)
  pure { s with
    ledger := L
    total := upd s.total id 0
    status := upd s.status id .paying
    events := s.events ++ [.started id (s.total id)] }

/-- What the payout loop changes: balances, the order book of the distribution, events, and the position
of the last key visited. -/
structure Acc where
  ledger : Ledger
  book : Acct → Nat × Bool
  events : List Ev
  last : Nat

/-- 447-465: pay one entry; it is marked as paid whether or not the transfer succeeds. -/
def payOne (c : Cfg) (id : Nat) (acc : Acc) (w : Acct) : Acc :=
  match safeTransfer acc.ledger c.vtx c.vault w (acc.book w).1 with
  | .ok L => { ledger := L
               book := upd acc.book w ((acc.book w).1, true)
               events := acc.events ++ [.paid id w (acc.book w).1]
               last := c.rank w + 1 }
  | .error _ => { acc with
               book := upd acc.book w ((acc.book w).1, true)
               last := c.rank w + 1 }

/-- 440-470: the payout loop; `n` entries have been paid in this call. -/
def payLoop (c : Cfg) (id : Nat) : List Acct → Nat → Acc → Acc
  | [], _, acc => acc
  | w :: ws, n, acc =>
    if (acc.book w).2 = true then payLoop c id ws n { acc with last := c.rank w + 1 }
    else if n + 1 > c.batch then payOne c id acc w
    else payLoop c id ws (n + 1) (payOne c id acc w)

/-- 435-438: the entries after the pivot, or all of them. -/
def pending (c : Cfg) (s : St) (id : Nat) : List Acct :=
  match s.pivot id with
  | some p => (s.keys id).filter (fun w => p < c.rank w + 1)
  | none => s.keys id

/-- 440-470 applied to the stored state. -/
def payRun (c : Cfg) (s : St) (id : Nat) : Acc :=
  payLoop c id (pending c s id) 0 ⟨s.ledger, s.book id, s.events, (s.pivot id).getD 0⟩

/-- 424-489 `pay_unsigned`; 633-650 `validate_unsigned` refuses a block number from the future. The
`drain_prefix` of 479 is a lazy iterator that is dropped, so nothing is deleted. -/
def pay (c : Cfg) (s : St) (id block : Nat) : Except Err St := do
  ensure (block ≤ s.now) "Future"
  if s.status id = .paying then
    let acc := payRun c s id
    if s.pivot id = some acc.last then
      pure { s with
        ledger := acc.ledger
        book := upd s.book id acc.book
        events := acc.events ++ [.done id]
        status := upd s.status id .done
        pivot := upd s.pivot id (some acc.last)
        unsignedAt := s.now + c.interval }
    else
      pure { s with
        ledger := acc.ledger
        book := upd s.book id acc.book
        events := acc.events
        pivot := upd s.pivot id (some acc.last)
        unsignedAt := s.now + c.interval }
  else pure { s with unsignedAt := s.now + c.interval }

/-- 499-511 `set_vtx_dist_eras`. -/
def setEras (s : St) (o : Origin) (id a b : Nat) : Except Err St := do
  rootOrAdmin s o
  ensure (a ≤ b) "InvalidEndBlock"
  pure { s with eras := upd s.eras id (a, b) }

/-- 699: insert one price into the prices of a distribution. -/
def addPrice (m : List AssetId × (AssetId → Nat)) (p : AssetId × Nat) : List AssetId × (AssetId → Nat) :=
  (if p.1 ∈ m.1 then m.1 else m.1 ++ [p.1], upd m.2 p.1 p.2)

/-- 520-527 `set_asset_prices`, 690-704 `do_asset_price_setter`. -/
def setPrices (c : Cfg) (s : St) (o : Origin) (ps : List (AssetId × Nat)) (id : Nat) : Except Err St := do
  rootOrAdmin s o
  ensure (∀ p ∈ ps, p.1 ≠ c.vtx) "AssetsShouldNotIncludeVtxAsset"
  let m := ps.foldl addPrice (s.priced id, s.price id)
  pure { s with
    priced := upd s.priced id m.1
    price := upd s.price id m.2 }

/-- Insertion into the key order of the order book. -/
def insertKey (rank : Acct → Nat) (w : Acct) : List Acct → List Acct
  | [] => [w]
  | k :: ks => if w = k then k :: ks else if rank w < rank k then w :: k :: ks else k :: insertKey rank w ks

/-- 549-551: overwrite one entry of the order book of a distribution. -/
def addReward (c : Cfg) (m : List Acct × (Acct → Nat × Bool)) (r : Acct × Nat) :
    List Acct × (Acct → Nat × Bool) :=
  (insertKey c.rank r.1 m.1, upd m.2 r.1 (r.2, false))

/-- 546-548: `total_rewards += *amount`; the release build wraps. -/
def wrapSum (rs : List (Acct × Nat)) : Nat := rs.foldl (fun t r => (t + r.2) % U128) 0

/-- `saturating_add` on `u128`. -/
def satAdd (x y : Nat) : Nat := if x + y < U128 then x + y else U128 - 1

/-- `saturating_mul` on `u128`. -/
def satMul (x y : Nat) : Nat := if x * y < U128 then x * y else U128 - 1

/-- 535-561 `register_rewards`. -/
def register (c : Cfg) (s : St) (o : Origin) (id : Nat) (rs : List (Acct × Nat)) : Except Err St := do
  rootOrAdmin s o
  ensure (s.status id = .enabled) "VtxDistDisabled"
  ensure (∀ r ∈ rs, r.2 < U128) "not a u128"
  let m := rs.foldl (addReward c) (s.keys id, s.book id)
  pure { s with
    keys := upd s.keys id m.1
    book := upd s.book id m.2
    total := upd s.total id (satAdd (s.total id) (wrapSum rs)) }

/-- 715-724: move every priced asset of the fee vault to the vault. -/
def sweep (c : Cfg) : List AssetId → Ledger → Except Err Ledger
  | [], L => .ok L
  | a :: as, L => do
    let L1 ← safeTransfer L a c.feeVault c.vault (L.bal a c.feeVault)
    sweep c as L1

/-- 569-581 `trigger_vtx_distribution`, 707-742 `do_vtx_distribution_trigger`. -/
def trigger (c : Cfg) (s : St) (o : Origin) (id : Nat) : Except Err St := do
  rootOrAdmin s o
  ensure (s.status id = .enabled) "CannotTrigger"
  let L1 ← sweep c (s.priced id) s.ledger
  let L2 ← safeTransfer L1 c.native c.rootVault c.vault (L1.bal c.native c.rootVault)
  pure { s with
    ledger := L2
    status := upd s.status id .triggered }

/-- 607-615: pay the caller's share of every priced asset. -/
def payShares (c : Cfg) (who : Acct) (v tot : Nat) : List AssetId → Ledger → Except Err Ledger
  | [], L => .ok L
  | a :: as, L => do
    let L1 ← safeTransfer L a c.vault who (satMul v (L.bal a c.vault) / tot)
    payShares c who v tot as L1

/-- 590-626 `redeem_tokens_from_vault`. -/
def redeem (c : Cfg) (s : St) (who : Acct) (id v : Nat) : Except Err St := do
  ensure (0 < s.ledger.iss c.vtx) "NoVtxAssetMinted"
  ensure (0 < v ∧ v ≤ s.ledger.bal c.vtx who) "InvalidAmount"
  ensure (s.status id = .done) "CannotRedeem"
  let L1 ← payShares c who v (s.ledger.iss c.vtx) (s.priced id) s.ledger
  let L2 ← L1.burn c.vtx who v
  pure { s with ledger := L2 }

/-- The calls (/repo/pallet/vortex-distribution/src/lib.rs:347-627) and blocks. -/
inductive Op where
  | setAdmin (o : Origin) (new : Acct)
  | create (o : Origin)
  | disable (o : Origin) (id : Nat)
  | start (o : Origin) (id : Nat)
  | pay (id block : Nat)
  | setEras (o : Origin) (id a b : Nat)
  | setPrices (o : Origin) (ps : List (AssetId × Nat)) (id : Nat)
  | register (o : Origin) (id : Nat) (rs : List (Acct × Nat))
  | trigger (o : Origin) (id : Nat)
  | redeem (who : Acct) (id v : Nat)
  | nextBlock
  /-- transfers, mints and burns done by other pallets -/
  | move (a : AssetId) (src dst : Acct) (x : Nat)
  | mint (a : AssetId) (dst : Acct) (x : Nat)
  | burn (a : AssetId) (src : Acct) (x : Nat)

/-- Each case is the function of that name above, or written out. -/
def step (c : Cfg) (s : St) : Op → Except Err St
  | .setAdmin o n => setAdmin s o n
  | .create o => create s o
  | .disable o id => disable s o id
  | .start o id => start c s o id
  | .pay id b => pay c s id b
  | .setEras o id a b => setEras s o id a b
  | .setPrices o ps id => setPrices c s o ps id
  | .register o id rs => register c s o id rs
  | .trigger o id => trigger c s o id
  | .redeem w id v => redeem c s w id v
  | .nextBlock => .ok { s with now := s.now + 1 }
  | .move a x y n => do
    let L ← s.ledger.transfer a x y n
    pure { s with ledger := L }
  | .mint a y n => do
    let L ← s.ledger.mint a y n
    pure { s with ledger := L }
  | .burn a x n => do
    let L ← s.ledger.burn a x n
    pure { s with ledger := L }

/-- A fresh pallet on a chain whose ledger adds up. -/
structure Genesis (s : St) : Prop where
  sound : s.ledger.Sound
  next : s.next = 0
  status : ∀ id, s.status id = .disabled
  keys : ∀ id, s.keys id = []
  book : ∀ id w, s.book id w = (0, false)
  priced : ∀ id, s.priced id = []
  total : ∀ id, s.total id = 0
  pivot : ∀ id, s.pivot id = none
  events : s.events = []

/-- Histories from `g` whose operations satisfy `G`. -/
inductive Reach (c : Cfg) (G : St → Op → Prop) (g : St) : St → Prop
  | init : Genesis g → Reach c G g g
  | step {s s' : St} {op : Op} : Reach c G g s → G s op → step c s op = .ok s' → Reach c G g s'

/-- A history from one state to another. -/
inductive Run (c : Cfg) (G : St → Op → Prop) : St → St → Prop
  | nil (s : St) : Run c G s s
  | step {s s1 s2 : St} {op : Op} : Run c G s s1 → G s1 op → step c s1 op = .ok s2 → Run c G s s2

/-- No restriction on the operations. -/
def Any : St → Op → Prop := fun _ _ => True

theorem Reach.weaken {c : Cfg} {G H : St → Op → Prop} {g s : St} (hGH : ∀ s op, G s op → H s op)
    (h : Reach c G g s) : Reach c H g s := by
  induction h with
  | init hg => exact .init hg
  | step _ hG hs ih => exact .step ih (hGH _ _ hG) hs

theorem Reach.any {c : Cfg} {G : St → Op → Prop} {g s : St} (h : Reach c G g s) : Reach c Any g s :=
  h.weaken (fun _ _ _ => trivial)

theorem Reach.run {c : Cfg} {G : St → Op → Prop} {g s s' : St} (h : Reach c G g s) (hr : Run c G s s') :
    Reach c G g s' := by
  induction hr with
  | nil => exact h
  | step _ hG hs ih => exact .step ih hG hs

/-- The state after trying an operation. -/
def after (c : Cfg) (s : St) (op : Op) : St :=
  match step c s op with
  | .ok s1 => s1
  | .error _ => s

/-- Run operations, ignoring failing ones. -/
def exec (c : Cfg) (s : St) : List Op → St
  | [] => s
  | op :: ops => exec c (after c s op) ops

/-- Every operation of the run satisfies `G`. -/
def Along (c : Cfg) (G : St → Op → Prop) (s : St) : List Op → Prop
  | [] => True
  | op :: ops => G s op ∧ Along c G (after c s op) ops

theorem exec_reach {c : Cfg} {G : St → Op → Prop} {g : St} : ∀ (ops : List Op) {s : St}, Reach c G g s →
    Along c G s ops → Reach c G g (exec c s ops)
  | [], _, h, _ => h
  | op :: ops, s, h, hg => by
    unfold exec
    refine exec_reach ops ?_ hg.2
    unfold after
    cases he : step c s op with
    | ok s' => exact .step h hg.1 he
    | error _ => exact h

theorem along_any {c : Cfg} : ∀ (ops : List Op) (s : St), Along c Any s ops
  | [], _ => trivial
  | _ :: ops, _ => ⟨trivial, along_any ops _⟩

end Verif.Vortex
