import Verif.Nft.Inv
import Verif.Sft.Inv

/-!
# Model of the NFI pallet

/repo/pallet/nfi/src/{lib,types}.rs with its hooks in the NFT and SFT pallets
(/repo/pallet/nft/src/lib.rs:573, /repo/pallet/nft/src/impls.rs:486, /repo/pallet/sft/src/impls.rs:123) and the chain id of
/repo/pallet/evm-chain-id/src/lib.rs. There is a single kind of NFI data (types.rs:26-28), so the sub type is left out. The
data itself (a link and a hash) is a number. The XLS-20 request made between the minting of the tokens and the NFI request is
the flag `ext` of the NFT model; the XLS-20 fee is not charged here (it is in `Verif.Xls20`). Every call is transactional.
-/

namespace Verif.Nfi

/-- types.rs:88-96 `GenericCollectionId`. -/
inductive GColl where
  | u32 (n : Nat)
  | u64 (n : Nat)
  | u128 (n : Nat)
  | h160 (n : Nat)
  | h256 (n : Nat)
  | bytes (b : List Nat)
  | empty
deriving DecidableEq

/-- types.rs:103-108 `GenericSerialNumber`. -/
inductive GSerial where
  | u32 (n : Nat)
  | u64 (n : Nat)
  | u128 (n : Nat)
  | bytes (b : List Nat)
deriving DecidableEq

/-- types.rs:78-82 `MultiChainTokenId`. -/
structure Tid where
  chain : Nat
  coll : GColl
  serial : GSerial
deriving DecidableEq

/-- types.rs:67-71 `FeeDetails`. -/
structure Fee where
  asset : AssetId
  amount : Nat
  receiver : Acct
deriving DecidableEq

/-- lib.rs:116-133 `DataRequestNew` (`old = false`) and `DataRequestExisting` (`old = true`). -/
structure Request where
  caller : Acct
  token : Tid
  old : Bool
deriving DecidableEq

/-- Constants of `Config` (/repo/pallet/nfi/src/lib.rs:55-77) and of the NFT and SFT pallets. -/
structure Cfg where
  nft : Nft.Cfg
  maxOwners : Nat
  maxSerials : Nat
  /-- `NetworkFeePercentage`, parts per million -/
  pct : Nat

/-- The SFT pallet takes its ids from the NFT pallet (same `ParachainId`). -/
def Cfg.sft (c : Cfg) : Sft.Cfg := ⟨c.maxOwners, c.maxSerials, c.nft.chainId⟩

/-- The storage of the pallet (/repo/pallet/nfi/src/lib.rs:80-112) and of the pallets whose hooks it has. -/
structure St where
  nft : Nft.St
  sft : Sft.St
  /-- `ChainId` of the EVM chain id pallet -/
  chain : Nat
  /-- `Relayer` -/
  relayer : Option Acct
  /-- `MintFee` -/
  fee : Option Fee
  /-- `FeeTo` -/
  feeTo : Option Acct
  /-- `NfiData` -/
  data : Tid → Option Nat
  /-- `NfiEnabled` -/
  enabled : Nat → GColl → Bool
  /-- the request events, newest first -/
  requests : List Request

/-- The SFT pallet sees the id counter and the balances of the whole chain. -/
def St.sftView (s : St) : Sft.St :=
  { s.sft with
    nextId := s.nft.nextId
    ledger := s.nft.ledger }

/-- Put back what the SFT pallet left. -/
def St.putSft (s : St) (t : Sft.St) : St :=
  { s with
    sft := t
    nft := { s.nft with
      nextId := t.nextId
      ledger := t.ledger } }

/-- Replace the balances. -/
def St.setLedger (s : St) (L : Ledger) : St := { s with nft := { s.nft with ledger := L } }

/-- `Permill * amount` (dependency): rounds to nearest, ties down. -/
def share (p amount : Nat) : Nat := (p * amount + 499999) / 1000000

/-- lib.rs:325 `total_fee`. -/
def totalFee (f : Fee) (count : Nat) : Nat := min (count * f.amount) (U128 - 1)

/-- lib.rs:318-360 `pay_mint_fee`. -/
def pay (c : Cfg) (s : St) (who : Acct) (count : Nat) : Except Err Ledger :=
  match s.fee with
  | none => .ok s.nft.ledger
  | some f =>
    match s.feeTo with
    | none => s.nft.ledger.transfer f.asset who f.receiver (totalFee f count)
    | some pot => do
      let L ← s.nft.ledger.transfer f.asset who pot (share c.pct (totalFee f count))
      L.transfer f.asset who f.receiver (totalFee f count - share c.pct (totalFee f count))

/-- lib.rs:363-375 `send_data_request`. -/
def send (s : St) (who : Acct) (t : Tid) : St := { s with requests := ⟨who, t, (s.data t).isSome⟩ :: s.requests }

/-- The id of a token of this chain. -/
def trn (s : St) (id n : Nat) : Tid := ⟨s.chain, .u32 id, .u32 n⟩

/-- lib.rs:424-446 `request`. -/
def request (c : Cfg) (s : St) (who : Acct) (id : Nat) (ns : List Nat) : Except Err St :=
  if s.enabled s.chain (.u32 id) = false then .ok s
  else do
    let L ← pay c s who ns.length
    pure (ns.foldl (fun s n => send s who (trn s id n)) (s.setLedger L))

/-- lib.rs:449-461 `on_burn`. -/
def onBurn (s : St) (id n : Nat) : St := { s with data := upd s.data (trn s id n) none }

/-- lib.rs:379-387 `is_collection_owner`. -/
def isCollectionOwner (s : St) (id : Nat) (who : Acct) : Bool :=
  match s.nft.coll id with
  | some k => decide (who = k.owner)
  | none => match s.sft.coll id with
    | some k => decide (who = k.owner)
    | none => false

/-- lib.rs:403-406: the SFT part of `check_permissions`. -/
def sftPermission (s : St) (id : Nat) (who : Acct) : Bool :=
  match s.sft.coll id with
  | some k => decide (who = k.owner)
  | none => false

/-- lib.rs:393-407 `check_permissions`. -/
def checkPermissions (s : St) (id n : Nat) (who : Acct) : Bool :=
  match Nft.ownerOf s.nft id n with
  | some a => decide (who = a) || (match s.nft.coll id with
    | some k => decide (who = k.owner)
    | none => sftPermission s id who)
  | none => sftPermission s id who

/-- lib.rs:410-415 `token_exists`. -/
def tokenExists (s : St) (id n : Nat) : Bool := (Nft.ownerOf s.nft id n).isSome || (s.sft.tok id n).isSome

/-- lib.rs:264-269, 300-305: the `u32` ids of a token id. -/
def format (t : Tid) : Except Err (Nat × Nat) :=
  match t.coll, t.serial with
  | .u32 id, .u32 n => .ok (id, n)
  | _, _ => .error "InvalidTokenFormat"

/-- lib.rs:225-237 `enable_nfi_for_trn_collection`. -/
def enable (s : St) (who : Acct) (id : Nat) : Except Err St := do
  ensure (isCollectionOwner s id who = true) "NotCollectionOwner"
  pure { s with enabled := upd s.enabled s.chain (upd (s.enabled s.chain) (.u32 id) true) }

/-- lib.rs:259-272: the checks on a request for a token of this chain. -/
def checkRequest (s : St) (who : Acct) (t : Tid) : Except Err Unit :=
  if t.chain = s.chain then do
    ensure (s.enabled s.chain t.coll = true) "NotEnabled"
    let p ← format t
    ensure (checkPermissions s p.1 p.2 who = true) "NotTokenOwner"
  else .ok ()

/-- lib.rs:249-276 `manual_data_request`. -/
def manual (c : Cfg) (s : St) (who : Acct) (t : Tid) : Except Err St := do
  checkRequest s who t
  let L ← pay c s who 1
  pure (send (s.setLedger L) who t)

/-- lib.rs:295-308: the checks on data for a token of this chain. -/
def checkData (s : St) (t : Tid) : Except Err Unit :=
  if t.chain = s.chain then do
    ensure (s.enabled s.chain t.coll = true) "NotEnabled"
    let p ← format t
    ensure (tokenExists s p.1 p.2 = true) "NoToken"
  else .ok ()

/-- lib.rs:286-312 `submit_nfi_data`. -/
def submit (s : St) (who : Acct) (t : Tid) (d : Nat) : Except Err St := do
  ensure (s.relayer = some who) "NotRelayer"
  checkData s t
  pure { s with data := upd s.data t (some d) }

/-- /repo/pallet/nft/src/lib.rs:518-583 `mint` with the NFI request. -/
def nftMint (c : Cfg) (s : St) (who : Acct) (id q : Nat) (rcv : Option Acct) (ext : Bool) : Except Err St := do
  let k ← okOr (s.nft.coll id) "NoCollectionFound"
  let n ← Nft.mint c.nft s.nft who id q rcv ext
  request c { s with nft := n } who id (List.range' k.next q)

/-- An operation of the NFT pallet, with the hooks. -/
def nftStep (c : Cfg) (s : St) : Nft.Op → Except Err St
  | .mint who id q rcv ext => nftMint c s who id q rcv ext
  | .burn who id n => do
    let m ← Nft.doBurn s.nft who id n
    pure (onBurn { s with nft := m } id n)
  | .burnPrecompile who id n => do
    let m ← Nft.burnPrecompile s.nft who id n
    pure (onBurn { s with nft := m } id n)
  | op => do
    let m ← Nft.step c.nft s.nft op
    pure { s with nft := m }

/-- /repo/pallet/sft/src/impls.rs:82-137 `do_create_token`: the NFI request is made before the token is stored. -/
def sftCreateToken (c : Cfg) (s : St) (who : Acct) (id initial : Nat) (max : Option Nat) (owner : Option Acct)
    (ext : Bool) : Except Err St := do
  let k ← okOr (s.sft.coll id) "NoCollectionFound"
  ensure (who = k.owner) "NotCollectionOwner"
  let s1 ← request c s who id [k.next]
  let t ← Sft.createToken s1.sftView who id initial max owner ext
  pure (s1.putSft t)

/-- An operation of the SFT pallet, with the hook. -/
def sftStep (c : Cfg) (s : St) : Sft.Op → Except Err St
  | .createToken who id i m o ext => sftCreateToken c s who id i m o ext
  | op => do
    let t ← Sft.step c.sft s.sftView op
    pure (s.putSft t)

/-- The calls (/repo/pallet/nfi/src/lib.rs:172-313) and those of the NFT and SFT pallets. -/
inductive Op where
  /-- lib.rs:178-183 `set_relayer` (root) -/
  | setRelayer (r : Acct)
  /-- lib.rs:189-197 `set_fee_to` (root) -/
  | setFeeTo (a : Option Acct)
  /-- lib.rs:203-218 `set_fee_details` (root) -/
  | setFee (f : Option Fee)
  | enable (who : Acct) (id : Nat)
  | manual (who : Acct) (t : Tid)
  | submit (who : Acct) (t : Tid) (d : Nat)
  /-- /repo/pallet/evm-chain-id/src/lib.rs:85-94 `set_chain_id` (root) -/
  | setChain (n : Nat)
  | nft (op : Nft.Op)
  | sft (op : Sft.Op)

/-- Each case is the function of that name above, or written out. -/
def step (c : Cfg) (s : St) : Op → Except Err St
  | .setRelayer r => .ok { s with relayer := some r }
  | .setFeeTo a => .ok { s with feeTo := a }
  | .setFee f => do
    ensure (∀ x, f = some x → x.amount ≠ 0) "InvalidMintFee"
    pure { s with fee := f }
  | .enable who id => enable s who id
  | .manual who t => manual c s who t
  | .submit who t d => submit s who t d
  | .setChain n => .ok { s with chain := n }
  | .nft op => nftStep c s op
  | .sft op => sftStep c s op

/-- The chain before the first collection and before any use of the NFI pallet. -/
structure Genesis (s : St) : Prop where
  nft : Nft.Genesis s.nft
  sft : Sft.Genesis s.sft
  fee : s.fee = none
  data : ∀ t, s.data t = none
  enabled : ∀ n g, s.enabled n g = false
  requests : s.requests = []

/-- States reached from genesis by successful operations satisfying `G`. -/
inductive Reach (c : Cfg) (G : Op → Prop) : St → Prop where
  | init {s : St} : Genesis s → Reach c G s
  | step {s s' : St} {op : Op} : Reach c G s → G op → step c s op = .ok s' → Reach c G s'

/-- No restriction. -/
def Any : Op → Prop := fun _ => True

/-- Root does not change the EVM chain id. -/
def Fixed (op : Op) : Prop := ∀ n, op ≠ .setChain n

/-- Run a list of operations; rejected ones change nothing. -/
def exec (c : Cfg) (s : St) : List Op → St
  | [] => s
  | op :: ops => exec c (match step c s op with | .ok s1 => s1 | .error _ => s) ops

theorem exec_reach {c : Cfg} {G : Op → Prop} : ∀ (ops : List Op) {s : St}, (∀ op ∈ ops, G op) → Reach c G s →
    Reach c G (exec c s ops)
  | [], _, _, h => h
  | op :: ops, s, hg, h => by
    unfold exec
    refine exec_reach ops (fun o ho => hg o (List.mem_cons_of_mem _ ho)) ?_
    cases hs : step c s op with
    | ok s1 => exact h.step (hg op List.mem_cons_self) hs
    | error _ => exact h

end Verif.Nfi
