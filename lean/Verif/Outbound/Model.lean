import Verif.Abi.Spec
import Verif.Erc20Peg.Spec
import Verif.NftPeg.Model

/-!
# Messages between the pallets and Ethereum

What leaves for Ethereum as a request to sign, and what arrives from Ethereum, byte for byte:
/repo/pallet/ethy/src/types.rs (`EthereumEventInfo`, `EthySigningRequest`), /repo/pallet/ethy/src/impls.rs
(`send_event`, `do_request_event_proof`, `handle_authorities_change`), the messages of /repo/pallet/erc20-peg,
/repo/pallet/nft-peg and /repo/pallet/echo, and the router of /repo/runtime/src/impls.rs:386-416 with
/repo/pallet/common/src/lib.rs:223-249.

The two pegs are the models `Verif.Erc20Peg` and `Verif.NftPeg`; here their messages become bytes.
`ethabi::encode` (a dependency) is taken to encode as the Solidity documentation says (`Verif.Abi.Spec`). The hash is a
function `keccak` of which nothing is assumed. XRPL requests, covered by `Verif.EthyProof` and `Verif.Xrpl`, are left out.
-/

namespace Verif.Outbound

open Verif Abi

/-- A number given as such to `ethabi` is at most a 256-bit number. -/
abbrev tUint : Ty := .prim (.uint 256)
abbrev tAddr : Ty := .prim .address

/-- types.rs:147-160 `EthereumEventInfo`. -/
structure Req where
  source : Nat
  destination : Nat
  message : List Byte
  setId : Nat
  id : Nat
deriving DecidableEq

/-- types.rs:168-176: the types of `abi_encode`. -/
def reqTys : Tys := .cons tAddr (.cons tAddr (.cons (.bytes u32Max) (.cons tUint (.cons tUint .nil))))

/-- types.rs:168-176 `abi_encode`. -/
def Req.encode (r : Req) : List Byte :=
  layout (reqTys.items ((r.source, r.destination, r.message, r.setId, r.id, ()) :
    Nat × Nat × List Byte × Nat × Nat × Unit))

/-- types.rs:200-209 `data`, and /repo/ethy-gadget/src/types.rs:54-69 `data_to_digest`: what validators sign. -/
def Req.digest (keccak : List Byte → List Byte) (r : Req) : List Byte := keccak r.encode

/-! ## The messages -/

/-- erc20-peg/src/lib.rs:606-610: token, amount, beneficiary. -/
def erc20Tys : Tys := .cons tAddr (.cons tUint (.cons tAddr .nil))

/-- erc20-peg/src/lib.rs:606-610. -/
def erc20Msg (w : Erc20Peg.Wd) : List Byte :=
  layout (erc20Tys.items ((w.token, w.amount, w.ben, ()) : Nat × Nat × Nat × Unit))

/-- nft-peg/src/lib.rs:449-453: token addresses, token ids, receiver. -/
def nftTys : Tys := .cons (.array tAddr u32Max) (.cons (.array (.array tUint u32Max) u32Max) (.cons tAddr .nil))

/-- nft-peg/src/lib.rs:449-453. -/
def nftMsg (groups : List (Nat × List Nat)) (dest : Nat) : List Byte :=
  layout (nftTys.items ((groups.map Prod.fst, groups.map Prod.snd, dest, ()) :
    List Nat × List (List Nat) × Nat × Unit))

/-- echo/src/lib.rs:115-119 and 187-191: kind, session, destination. -/
def echoTys : Tys := .cons tUint (.cons tUint (.cons tAddr .nil))

/-- echo/src/lib.rs:115-119 and 187-191. -/
def echoMsg (kind session dest : Nat) : List Byte :=
  layout (echoTys.items ((kind, session, dest, ()) : Nat × Nat × Nat × Unit))

/-- ethy/src/impls.rs:839-842: validator addresses, set id. -/
def handoverTys : Tys := .cons (.array tAddr u32Max) (.cons tUint .nil)

/-- ethy/src/impls.rs:839-842. -/
def handoverMsg (addrs : List Nat) (setId : Nat) : List Byte :=
  layout (handoverTys.items ((addrs, setId, ()) : List Nat × Nat × Unit))

/-! ## State -/

/-- What was done when a message was sent; recorded for the statements, not part of the chain's state. -/
inductive Act where
  | erc20 (contract : Nat) (w : Erc20Peg.Wd)
  | nft (m : NftPeg.Msg)
  | ping (who dest session : Nat)
  | pong (src dest session : Nat)
  | handover (contract : Nat) (keys : List Nat) (setId : Nat)
deriving DecidableEq

/-- The addresses of the pallets (`PalletId`s as accounts), how a validator's key is turned into an Ethereum address
(`none`: the bytes are not a public key), and the constants of the pegs. -/
structure Cfg where
  bridge : Nat
  echo : Nat
  peg : Nat
  nftPeg : Nat
  keyAddr : Nat → Option Nat
  pegCfg : Erc20Peg.Cfg
  nftCfg : NftPeg.Cfg

/-- `MaxEthData` (runtime/src/lib.rs:1033). -/
def maxEthData : Nat := 3200

/-- The storage of `pallet-ethy` (/repo/pallet/ethy/src/lib.rs:230-372) that messages concern, and the two pegs. -/
structure St where
  /-- `NextEventProofId` -/
  nextId : Nat
  /-- `NotarySetId` -/
  setId : Nat
  /-- `BridgePaused` -/
  manual : Bool
  change : Bool
  /-- `ContractAddress` of the bridge -/
  contract : Nat
  /-- `PendingEventProofs` -/
  pending : List Req
  /-- signing requests in block digests, newest first -/
  sent : List Req
  /-- `NextSessionId` of the echo pallet -/
  session : Nat
  peg : Erc20Peg.St
  nft : NftPeg.St
  /-- record: numbers taken from the counter -/
  taken : Nat
  /-- record: what was sent, oldest first, with its number -/
  log : List (Nat × Act)

/-- ethy/src/impls.rs:95-98 `bridge_paused`. -/
def paused (s : St) : Bool := s.manual || s.change

/-- ethy/src/impls.rs:944-983 `do_request_event_proof`. -/
def request (s : St) (r : Req) : St :=
  if paused s then { s with pending := r :: s.pending.filter (fun p => p.id ≠ r.id) }
  else { s with sent := (if s.setId > r.setId then { r with setId := s.setId } else r) :: s.sent }

/-- ethy/src/impls.rs:50-51. -/
def takeId (s : St) : St := { s with
  nextId := (s.nextId + 1) % U64
  taken := s.taken + 1 }

/-- ethy/src/impls.rs:45-68 `send_event`, before its error is acted on: the state and whether it succeeded. -/
def sendRaw (s : St) (source destination : Nat) (message : List Byte) (a : Act) : St × Bool :=
  if message.length ≤ maxEthData then
    ({ request (takeId s) ⟨source, destination, message, s.setId, s.nextId⟩ with log := s.log ++ [(s.nextId, a)] }, true)
  else (takeId s, false)

/-- `send_event` called by an extrinsic: an error undoes everything. -/
def send (s : St) (source destination : Nat) (message : List Byte) (a : Act) : Except Err St :=
  if (sendRaw s source destination message a).2 then .ok (sendRaw s source destination message a).1
  else .error "MessageTooLarge"

/-! ## Sending -/

/-- echo/src/lib.rs:105-137 `ping`. -/
def ping (s : St) (who dest : Nat) : Except Err St := do
  ensure (s.session + 1 < U64) "NoAvailableIds"
  let s1 ← send s who dest (echoMsg 0 s.session dest) (.ping who dest s.session)
  pure { s1 with session := s.session + 1 }

/-- erc20-peg/src/lib.rs:600-628 `process_withdrawal`: one message. -/
def sendErc20 (c : Cfg) (s : St) (m : Nat × Erc20Peg.Wd) : St :=
  (sendRaw s c.peg m.1 (erc20Msg m.2) (.erc20 m.1 m.2)).1

/-- An operation of the ERC-20 peg and the messages it sends. (Messages of 96 bytes are not refused.) -/
def pegOp (c : Cfg) (s : St) (op : Erc20Peg.Op) : Except Err St := do
  let p ← Erc20Peg.step c.pegCfg s.peg op
  pure ((p.outbox.drop s.peg.outbox.length).foldl (sendErc20 c) { s with peg := p })

/-- nft-peg/src/lib.rs:447-456: the message of a withdrawal. -/
def sendNft (c : Cfg) (s : St) (r : NftPeg.St × NftPeg.Msg) : Except Err St :=
  send { s with nft := r.1 } c.nftPeg r.2.contract (nftMsg r.2.groups r.2.dest) (.nft r.2)

/-- nft-peg/src/lib.rs:167-179 `withdraw`. -/
def nftWithdraw (c : Cfg) (s : St) (who : Acct) (colls : List Nat) (serials : List (List Nat)) (dest : Nat) :
    Except Err St := do
  let r ← NftPeg.withdraw c.nftCfg s.nft who colls serials dest true
  sendNft c s r

/-- nft-peg/src/lib.rs:185-193 `reclaim_blocked_nfts`. -/
def nftReclaim (c : Cfg) (s : St) (who : Acct) (b dest : Nat) : Except Err St := do
  let r ← NftPeg.reclaim s.nft who b dest true
  sendNft c s r

/-- /repo/primitives/src/ethy.rs:218-239 `EthyEcdsaToEthereum`: the zero address for a bad key. -/
def convert (c : Cfg) (k : Nat) : Nat := (c.keyAddr k).getD 0

/-- ethy/src/impls.rs:821-909 `handle_authorities_change` (without the XRPL part) for the next keys. -/
def handleChange (c : Cfg) (s : St) (keys : List Nat) : St :=
  { (sendRaw s c.bridge s.contract (handoverMsg (keys.map (convert c)) ((s.setId + 1) % U64))
      (.handover s.contract keys ((s.setId + 1) % U64))).1 with change := true }

/-- ethy/src/impls.rs:912-941 `do_finalise_authorities_change`. -/
def finalise (s : St) : St := { s with
  change := false
  setId := (s.setId + 1) % U64 }

/-- ethy/src/lib.rs:630-669 `on_idle`, one round: a delayed request is made again. -/
def drain (s : St) (id : Nat) : Except Err St := do
  ensure (paused s = false) "BridgePaused"
  let r ← okOr (s.pending.find? (fun p => p.id = id)) "no such request"
  pure (request { s with pending := s.pending.filter (fun p => p.id ≠ id) } r)

/-! ## Receiving -/

/-- `ethabi::decode` (a dependency) for an array: a pointer, relative to the head it stands in, a length, and the
elements one word apart. Pointers and lengths have to fit `u32`. -/
def decodeArray {α : Type} (elem : List Byte → Nat → Option α) (I : List Byte) (c : Nat) : Option (List α) := do
  let off ← wordAt I c
  guard (off < U32)
  let len ← wordAt I off
  guard (len < U32)
  (List.range len).mapM (fun i => elem (I.drop (off + 32)) (32 * i))

/-- `ethabi::decode` for an address: the high bytes are ignored. -/
def decodeAddr (I : List Byte) (c : Nat) : Option Nat := (wordAt I c).map (· % 2 ^ 160)

/-- erc20-peg/src/lib.rs:854-870: a deposit. -/
def decodeErc20 (data : List Byte) : Option Erc20Peg.Dep := do
  let t ← decodeAddr data 0
  let x ← wordAt data 32
  let b ← decodeAddr data 64
  pure ⟨t, x, b⟩

/-- nft-peg/src/lib.rs:203-226: the body of a deposit. -/
def decodeNft (data : List Byte) : Option (List Nat × List (List Nat) × Acct) := do
  let _ ← wordAt data 0
  let addrs ← decodeArray decodeAddr data 32
  let ids ← decodeArray (decodeArray wordAt) data 64
  let dest ← decodeAddr data 96
  pure (addrs, ids, dest)

/-- nft-peg/src/lib.rs:496-519 `on_event`: which of the events of `Verif.NftPeg` the data is. The slice of the first 32
bytes aborts if there are fewer. The prefix is cut at `u32::MAX`. -/
def decodeNftEvent (data : List Byte) : NftPeg.Event :=
  match wordAt data 0 with
  | none => .short
  | some p => if min p (U32 - 1) = 1 then .deposit (decodeNft data) else if min p (U32 - 1) = 2 then .stateSync else .other

/-- echo/src/lib.rs:151-228 `on_event`. What happens while events are processed is not undone by an error. -/
def echoEvent (s : St) (src : Nat) (data : List Byte) : St :=
  match wordAt data 0, wordAt data 32, decodeAddr data 64 with
  | some k, some n, some dest =>
    if min k 255 = 1 then
      (sendRaw s src dest (echoMsg 1 (min n (U64 - 1)) dest) (.pong src dest (min n (U64 - 1)))).1
    else s
  | _, _, _ => s

/-- erc20-peg/src/lib.rs:843-885: source check and deposit. -/
def pegEvent (c : Cfg) (s : St) (src : Nat) (data : List Byte) : St :=
  match decodeErc20 data with
  | none => s
  | some d =>
    match Erc20Peg.deposit c.pegCfg s.peg src d with
    | .ok p => { s with peg := p }
    | .error _ => s

/-- nft-peg/src/lib.rs:489-519 with the source check of common/src/lib.rs:238-245. -/
def nftEvent (c : Cfg) (s : St) (src : Nat) (data : List Byte) : Except Err St := do
  if src = s.nft.contract then
    ensure ((wordAt data 0).isSome = true) "Panic"
    pure { s with nft := (NftPeg.onEvent c.nftCfg s.nft (decodeNftEvent data)).1 }
  else pure s

/-- runtime/src/impls.rs:393-415 `route`, called while a block is initialised (ethy/src/lib.rs:571-591). The error
`"Panic"` aborts the block. -/
def route (c : Cfg) (s : St) (src dst : Nat) (data : List Byte) : Except Err St :=
  if dst = c.echo then .ok (echoEvent s src data)
  else if dst = c.peg then .ok (pegEvent c s src data)
  else if dst = c.nftPeg then nftEvent c s src data
  else .ok s

/-! ## Histories -/

/-- Operations of the pegs, of the echo pallet and of `pallet-ethy`. -/
inductive Op where
  | ping (who dest : Nat)
  | peg (op : Erc20Peg.Op)
  | nftWithdraw (who : Acct) (colls : List Nat) (serials : List (List Nat)) (dest : Nat)
  | nftReclaim (who : Acct) (b dest : Nat)
  /-- operations of the NFT pallet -/
  | nftPallet (op : Nft.Op)
  | setNftContract (a : Nat)
  | setContract (a : Nat)
  | setPaused (b : Bool)
  | handover (keys : List Nat)
  | finalise
  | drain (id : Nat)
  /-- an accepted event reaches the router -/
  | event (src dst : Nat) (data : List Byte)

/-- Each case is the function of that name above, or written out. -/
def step (c : Cfg) (s : St) : Op → Except Err St
  | .ping who dest => ping s who dest
  | .peg op => pegOp c s op
  | .nftWithdraw who colls serials dest => nftWithdraw c s who colls serials dest
  | .nftReclaim who b dest => nftReclaim c s who b dest
  | .nftPallet op => do
    let n ← Nft.step c.nftCfg.nft s.nft.nft op
    pure { s with nft := { s.nft with nft := n } }
  | .setNftContract a => .ok { s with nft := { s.nft with contract := a } }
  | .setContract a => .ok { s with contract := a }
  | .setPaused b => .ok { s with manual := b }
  | .handover keys => .ok (handleChange c s keys)
  | .finalise => .ok (finalise s)
  | .drain id => drain s id
  | .event src dst data => route c s src dst data

end Verif.Outbound
