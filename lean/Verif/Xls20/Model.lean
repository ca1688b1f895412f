import Verif.NftPeg.Lemmas

/-!
# Model of the XLS-20 bridge

/repo/pallet/xls20/src/{lib,types}.rs and the NFT withdrawals of /repo/pallet/xrpl-bridge/src/lib.rs, on top of the
model of the NFT pallet. Metadata and weights are not modelled. A deposit is not transactional: what was
written before an error stays. Extrinsics are transactional.

The XRP ledger is part of the world the pallet runs in: its door account receives tokens, and gives them out
when a sell offer made by a withdrawal is accepted. How deposits are agreed on is the subject of `Verif.Xrpl`.
-/

namespace Verif.Xls20

/-- Constants of `Config` (/repo/pallet/xls20/src/lib.rs:70-92). -/
structure Cfg where
  /-- constants of the NFT pallet -/
  nft : Nft.Cfg
  /-- `Xls20PaymentAsset` -/
  asset : AssetId
  /-- `MaxTokensPerXls20Mint` -/
  maxPerMint : Nat
  /-- the account of the pallet -/
  palletAcct : Acct

/-! An XLS-20 token id is 32 bytes, here read as a big-endian number. -/

/-- types.rs:69: the first two bytes. -/
def flagsOf (t : Nat) : Nat := t / 2 ^ 240

/-- types.rs:72-73: bytes 4 to 23. -/
def issuerOf (t : Nat) : Nat := t / 2 ^ 64 % 2 ^ 160

/-- types.rs:74: bytes 24 to 27. -/
def scrambledOf (t : Nat) : Nat := t / 2 ^ 32 % 2 ^ 32

/-- types.rs:75: bytes 28 to 31. -/
def seqOf (t : Nat) : Nat := t % 2 ^ 32

/-- types.rs:40-52 `unscramble_taxon`. The products fit 64 bits. -/
def unscramble (taxon seq : Nat) : Nat := taxon ^^^ ((384160001 * seq % 4294967296 + 2459) % 4294967296)

/-- types.rs:76 -/
def taxonOf (t : Nat) : Nat := unscramble (scrambledOf t) (seqOf t)

/-- types.rs:35-37 `is_burnable`. -/
def isBurnable (t : Nat) : Bool := decide (flagsOf t % 2 = 1)

/-- types.rs:83-94 `Xls20Collection`. -/
def keyOf (t : Nat) : Nat × Nat := (issuerOf t, taxonOf t)

/-- lib.rs:94-109: the storage of the pallet, with that of the NFT pallet. -/
structure St where
  nft : Nft.St
  /-- `Relayer` -/
  relayer : Option Acct
  /-- `Xls20MintFee` -/
  fee : Nat
  /-- `Xls20TokenMap` -/
  ids : Nat → Nat → Option Nat
  /-- `CollectionMapping` -/
  colls : Nat × Nat → Option Nat
  /-- a storage migration is in progress (`T::Migrator::ensure_migrated`) -/
  migrating : Bool
  /-- events `Xls20MintRequest` so far: collections with serial numbers -/
  requests : List (Nat × List Nat)

/-- lib.rs:300-324 `pay_xls20_fee`. The fee is cut to 32 bits and the product is at most `u32::MAX`. -/
def payFee (c : Cfg) (s : St) (L : Ledger) (who : Acct) (count : Nat) : Except Err Ledger :=
  if s.fee = 0 then .ok L
  else match s.relayer with
    | none => .ok L
    | some r => L.transfer c.asset who r (min (min count (U32 - 1) * (s.fee % U32)) (U32 - 1))

/-- lib.rs:353-363 `request_xls20_mint`, 329-347 `send_xls20_requests`. -/
def request (c : Cfg) (s : St) (n : Nft.St) (who : Acct) (id : Nat) (ns : List Nat) : Except Err St := do
  let L ← payFee c s n.ledger who ns.length
  pure { s with
    nft := { n with ledger := L }
    requests := s.requests ++ [(id, ns)] }

/-- /repo/pallet/nft/src/lib.rs:518-583 `mint`, with the request to this pallet. `ext`: the request to the NFI
pallet succeeds. -/
def mint (c : Cfg) (s : St) (who : Acct) (id q : Nat) (rcv : Option Acct) (ext : Bool) : Except Err St := do
  let n ← Nft.mint c.nft s.nft who id q rcv ext
  let k ← okOr (s.nft.coll id) "NoCollectionFound"
  if k.xls20 = true then request c s n who id (List.range' k.next q) else pure { s with nft := n }

/-- lib.rs:199-237 `re_request_xls20_mint`. The argument is a bounded vector. -/
def reRequest (c : Cfg) (s : St) (who : Acct) (id : Nat) (ns : List Nat) : Except Err St := do
  ensure (ns.length ≤ c.maxPerMint) "decoding of the call"
  ensure (s.migrating = false) "MigrationInProgress"
  ensure (ns ≠ []) "NoToken"
  let k ← okOr (s.nft.coll id) "NoCollectionFound"
  ensure (k.owner = who) "NotCollectionOwner"
  ensure (k.xls20 = true) "NotXLS20Compatible"
  ensure (∀ n ∈ ns, Nft.tokenExists k.owned n = true) "NoToken"
  ensure (∀ n ∈ ns, s.ids id n = none) "MappingAlreadyExists"
  request c s s.nft who id ns

/-- lib.rs:259-270: the loop of `fulfill_xls20_mint`. -/
def insertAll (k : Nft.Coll) (id : Nat) : (Nat → Nat → Option Nat) → List (Nat × Nat) → Except Err (Nat → Nat → Option Nat)
  | f, [] => .ok f
  | f, (n, t) :: l => do
    ensure (Nft.tokenExists k.owned n = true) "NoToken"
    ensure (f id n = none) "MappingAlreadyExists"
    insertAll k id (upd f id (upd (f id) n (some t))) l

/-- lib.rs:242-277 `fulfill_xls20_mint`. The argument is a bounded vector. -/
def fulfil (c : Cfg) (s : St) (who : Acct) (id : Nat) (l : List (Nat × Nat)) : Except Err St := do
  ensure (l.length ≤ c.maxPerMint) "decoding of the call"
  ensure (s.migrating = false) "MigrationInProgress"
  ensure (l ≠ []) "NoToken"
  ensure (some who = s.relayer) "NotRelayer"
  let k ← okOr (s.nft.coll id) "NoCollectionFound"
  let f ← insertAll k id s.ids l
  pure { s with ids := f }

/-- lib.rs:283-297 `set_collection_mappings`, by root: collections with issuers and taxons. -/
def setMappings (s : St) (l : List (Nat × (Nat × Nat))) : St :=
  { s with colls := l.foldl (fun f p => upd f p.2 (some p.1)) s.colls }

/-- lib.rs:389-397, 419-423: mint the token and record its XLS-20 id. -/
def mintInto (c : Cfg) (s : St) (rcv : Acct) (t id : Nat) : St × Option Err :=
  match Nft.bridgedMint c.nft s.nft id rcv [seqOf t] with
  | .error e => (s, some e)
  | .ok n => ({ s with
      nft := n
      ids := upd s.ids id (upd (s.ids id) (seqOf t) (some t)) }, none)

/-- lib.rs:368-425 `deposit_xls20_token`. -/
def deposit (c : Cfg) (s : St) (rcv : Acct) (t : Nat) : St × Option Err :=
  if s.migrating = true then (s, some "MigrationInProgress")
  else if isBurnable t = true then (s, some "CannotBridgeBurnableToken")
  else match s.colls (keyOf t) with
    | some id => mintInto c s rcv t id
    | none =>
      match Nft.nextUuid c.nft s.nft with
      | .error e => (s, some e)
      | .ok id =>
        match Nft.doCreate c.nft s.nft c.palletAcct 0 none none none .xrpl true with
        | .error e => (s, some e)
        | .ok n => mintInto c { s with
            nft := n
            colls := upd s.colls (keyOf t) (some id) } rcv t id

/-- lib.rs:427-431 `get_xls20_token_id`. -/
def idOf (s : St) (id n : Nat) : Option Nat := if s.migrating = true then none else s.ids id n

/-- /repo/pallet/xrpl-bridge/src/lib.rs:855-868 `withdraw_nft`, 1384-1411 `do_nft_withdrawal`: the sell offer for the
receiver, as XLS-20 id and XRPL account. `ok`: the door has an address and tickets, and signing is requested. -/
def withdraw (s : St) (who : Acct) (id n dest : Nat) (ok : Bool) : Except Err (St × (Nat × Nat)) := do
  let k ← okOr (s.nft.coll id) "NoCollectionFound"
  ensure (k.xls20 = true) "Xls20Incompatible"
  let f ← Nft.doBurn s.nft who id n
  let t ← okOr (idOf s id n) "Xls20TokenIDNotFound"
  ensure (ok = true) "DoorAddressNotSet"
  pure ({ s with nft := f }, (t, dest))

/-- The pallet and the XRP ledger. -/
structure World where
  st : St
  /-- the door account holds the token with this id -/
  door : Nat → Bool
  /-- sell offers of withdrawals that are not accepted yet -/
  offers : List (Nat × Nat)
  /-- token ids deposited so far -/
  seen : List Nat

/-- The calls (/repo/pallet/xls20/src/lib.rs:157-295), deposits and what happens on the XRP ledger. -/
inductive Op where
  /-- the door account received a token and the deposit is processed -/
  | deposit (rcv : Acct) (t : Nat)
  | withdraw (who : Acct) (id n dest : Nat) (ok : Bool)
  /-- an offer is accepted on the XRP ledger -/
  | accept (i : Nat)
  | reRequest (who : Acct) (id : Nat) (ns : List Nat)
  /-- the relayer has minted tokens for the door account -/
  | fulfil (who : Acct) (id : Nat) (l : List (Nat × Nat))
  | setRelayer (r : Acct)
  | setFee (f : Nat)
  | setMappings (l : List (Nat × (Nat × Nat)))
  /-- a storage migration starts or ends -/
  | migration (on : Bool)
  /-- an operation of the NFT pallet -/
  | nft (op : Nft.Op)

/-- Operations of the NFT pallet, minting with the request to this pallet. -/
def nftStep (c : Cfg) (s : St) : Nft.Op → Except Err St
  | .mint who id q rcv ext => mint c s who id q rcv ext
  | op => (Nft.step c.nft s.nft op).map (fun n => { s with nft := n })

/-- One step of the world. -/
def step (c : Cfg) (w : World) : Op → Except Err World
  | .deposit rcv t => .ok { w with
      st := (deposit c w.st rcv t).1
      door := upd w.door t true
      seen := t :: w.seen }
  | .withdraw who id n dest ok => do
      let (s, o) ← withdraw w.st who id n dest ok
      pure { w with
        st := s
        offers := w.offers ++ [o] }
  | .accept i => do
      let o ← okOr w.offers[i]? "no such offer"
      pure { w with
        door := upd w.door o.1 false
        offers := w.offers.eraseIdx i }
  | .reRequest who id ns => do
      let s ← reRequest c w.st who id ns
      pure { w with st := s }
  | .fulfil who id l => do
      let s ← fulfil c w.st who id l
      pure { w with
        st := s
        door := fun t => decide (t ∈ l.map Prod.snd) || w.door t }
  | .setRelayer r => .ok { w with st := { w.st with relayer := some r } }
  | .setFee f => .ok { w with st := { w.st with fee := f } }
  | .setMappings l => .ok { w with st := setMappings w.st l }
  | .migration b => .ok { w with st := { w.st with migrating := b } }
  | .nft op => do
      let s ← nftStep c w.st op
      pure { w with st := s }

/-- What the world outside guarantees. On the XRP ledger, issuer and sequence number determine a token; only a
token the door account does not hold can be sent to it. The relayer mints new tokens, one for each, for native
collections. The Ethereum bridge mints into its own collections. -/
def Env (w : World) : Op → Prop
  | .deposit _ t => w.door t = false ∧ ∀ t' ∈ w.seen, issuerOf t' = issuerOf t → seqOf t' = seqOf t → t' = t
  | .fulfil _ id l => (l.map Prod.snd).Nodup ∧ (∀ p ∈ l, w.door p.2 = false) ∧
      ∀ k, w.st.nft.coll id = some k → k.origin = .root
  | .nft (.createBridged _ g _) => g = .ethereum
  | .nft (.bridgedMint id _ _) => ∀ k, w.st.nft.coll id = some k → k.origin = .ethereum
  | _ => True

/-- As `Env`, and root does not change the mapping of collections by hand. -/
def NoRemap (w : World) (op : Op) : Prop := Env w op ∧ ∀ l, op ≠ .setMappings l

/-- The world before the first deposit. -/
structure Genesis (w : World) : Prop where
  nft : Nft.Genesis w.st.nft
  ids : ∀ i n, w.st.ids i n = none
  colls : ∀ p, w.st.colls p = none
  requests : w.st.requests = []
  door : ∀ t, w.door t = false
  offers : w.offers = []
  seen : w.seen = []

/-- What can be reached from the start by these operations; an operation that fails changes nothing.
Histories have no counterpart in the code. -/
inductive Reach (c : Cfg) (G : World → Op → Prop) : World → Prop where
  | init {w : World} : Genesis w → Reach c G w
  | step {w w' : World} {op : Op} : Reach c G w → G w op → step c w op = .ok w' → Reach c G w'

end Verif.Xls20
