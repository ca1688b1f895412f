import Verif.Outbound.Model

/-!
# Vocabulary for the messages between the pallets and Ethereum
-/

namespace Verif.Outbound

open Verif Abi

/-- Who speaks in a message. -/
def Act.source (c : Cfg) : Act → Nat
  | .erc20 _ _ => c.peg
  | .nft _ => c.nftPeg
  | .ping who _ _ => who
  | .pong src _ _ => src
  | .handover _ _ _ => c.bridge

/-- Whom the message is for. -/
def Act.dest : Act → Nat
  | .erc20 d _ => d
  | .nft m => m.contract
  | .ping _ d _ => d
  | .pong _ d _ => d
  | .handover d _ _ => d

/-- What it says. -/
def Act.message (c : Cfg) : Act → List Byte
  | .erc20 _ w => erc20Msg w
  | .nft m => nftMsg m.groups m.dest
  | .ping _ d n => echoMsg 0 n d
  | .pong _ d n => echoMsg 1 n d
  | .handover _ keys n => handoverMsg (keys.map (convert c)) n

/-- A withdrawal whose parts are in the range of their types. -/
structure WdFits (w : Erc20Peg.Wd) : Prop where
  token : w.token < 2 ^ 160
  amount : w.amount < 2 ^ 256
  ben : w.ben < 2 ^ 160

/-- Likewise a withdrawal of NFTs; serial numbers are `u32`. -/
structure MsgFits (m : NftPeg.Msg) : Prop where
  contract : m.contract < 2 ^ 160
  addrs : ∀ g ∈ m.groups, g.1 < 2 ^ 160
  ids : ∀ g ∈ m.groups, ∀ n ∈ g.2, n < U32
  dest : m.dest < 2 ^ 160

/-- The parts of an act are in the range of their types. -/
def Act.fits : Act → Prop
  | .erc20 d w => d < 2 ^ 160 ∧ WdFits w
  | .nft m => MsgFits m
  | .ping who d n => who < 2 ^ 160 ∧ d < 2 ^ 160 ∧ n < U64
  | .pong src d n => src < 2 ^ 160 ∧ d < 2 ^ 160 ∧ n < U64
  | .handover d _ n => d < 2 ^ 160 ∧ n < U64

/-- A request whose parts are in the range of their types, with a message the bridge would take. -/
structure ReqFits (r : Req) : Prop where
  source : r.source < 2 ^ 160
  destination : r.destination < 2 ^ 160
  message : r.message.length ≤ maxEthData
  setId : r.setId < U64
  id : r.id < U64

/-- Two different texts with one hash. -/
def Collide (keccak : List Byte → List Byte) (a b : List Byte) : Prop := a ≠ b ∧ keccak a = keccak b

/-- The validators have been asked to sign the digest of `p`. -/
def Signed (keccak : List Byte → List Byte) (s : St) (p : Req) : Prop := p.digest keccak ∈ s.sent.map (Req.digest keccak)

/-- No request that was sent has, by a collision, the digest of `p`. -/
def NoCollision (keccak : List Byte → List Byte) (s : St) (p : Req) : Prop :=
  ∀ r ∈ s.sent, ¬ Collide keccak r.encode p.encode

/-- What is assumed of the constants: the pallets have different addresses in range, and so do addresses of keys. -/
structure CfgOk (c : Cfg) : Prop where
  bridge : c.bridge < 2 ^ 160
  peg : c.peg < 2 ^ 160
  nftPeg : c.nftPeg < 2 ^ 160
  bridge_peg : c.bridge ≠ c.peg
  bridge_nft : c.bridge ≠ c.nftPeg
  peg_nft : c.peg ≠ c.nftPeg
  echo_peg : c.echo ≠ c.peg
  echo_nft : c.echo ≠ c.nftPeg
  keys : ∀ k a, c.keyAddr k = some a → a < 2 ^ 160

/-- Nobody who sends through the echo pallet, and no contract on Ethereum, has the address of a pallet. -/
def Outsider (c : Cfg) (a : Nat) : Prop := a < 2 ^ 160 ∧ a ≠ c.bridge ∧ a ≠ c.peg ∧ a ≠ c.nftPeg

/-- Arguments are in the range of their types, and outsiders are outsiders. Deposits reach the peg as events only. -/
def Env (c : Cfg) (s : St) : Op → Prop
  | .ping who dest => Outsider c who ∧ dest < 2 ^ 160
  | .peg (.withdraw _ _ _ ben _) => ben < 2 ^ 160
  | .peg (.deposit _ _) => False
  | .peg (.setContracts p r) => p < 2 ^ 160 ∧ r < 2 ^ 160
  | .peg (.setMap _ t) => t < 2 ^ 160
  | .nftWithdraw _ _ serials dest => (∀ l ∈ serials, ∀ n ∈ l, n < U32) ∧ dest < 2 ^ 160
  | .nftReclaim _ _ dest => dest < 2 ^ 160
  | .setNftContract a => a < 2 ^ 160
  | .setContract a => a < 2 ^ 160
  | .event src _ data => Outsider c src ∧ data.length ≤ maxEthData
  | _ => True

/-- As `Env`, and what the accounting of the peg assumes (`Erc20Peg.Env`: the bridge account does not use the bridge,
root leaves the token mappings alone, other pallets leave bridged assets alone). -/
def Money (c : Cfg) (s : St) (op : Op) : Prop :=
  Env c s op ∧
  match op with
  | .peg o => Erc20Peg.Env c.pegCfg s.peg o
  | .event src _ data => ∀ d, decodeErc20 data = some d → Erc20Peg.Env c.pegCfg s.peg (.deposit src d)
  | _ => True

/-- Nothing has been sent or received yet. -/
structure Genesis (c : Cfg) (s : St) : Prop where
  nextId : s.nextId = 0
  setId : s.setId < U64
  contract : s.contract < 2 ^ 160
  pending : s.pending = []
  sent : s.sent = []
  session : s.session < U64
  taken : s.taken = 0
  log : s.log = []
  peg : Erc20Peg.Genesis c.pegCfg s.peg
  toErc : ∀ a t, s.peg.toErc a = some t → t < 2 ^ 160
  pegContract : s.peg.contract < 2 ^ 160
  rootContract : s.peg.rootContract < 2 ^ 160
  toEth : ∀ i, s.nft.toEth i = none
  blocked : ∀ i, s.nft.blocked i = none
  nftContract : s.nft.contract < 2 ^ 160

inductive Reach (c : Cfg) (G : St → Op → Prop) (g : St) : St → Prop where
  | init : Genesis c g → Reach c G g g
  | step {s s' : St} {op : Op} : Reach c G g s → G s op → step c s op = .ok s' → Reach c G g s'

/-- What an operation has to say to Ethereum when it succeeds: a ping its sender, destination and session number; an
operation of the ERC-20 peg the withdrawals it adds to the list of the peg; a withdrawal of NFTs what it withdraws; a
handover the next keys with the next set id; an event for the echo pallet that says `1`, an answer. -/
def made (c : Cfg) (s : St) : Op → List Act
  | .ping who dest => [.ping who dest s.session]
  | .peg o =>
    match Erc20Peg.step c.pegCfg s.peg o with
    | .ok p => (p.outbox.drop s.peg.outbox.length).map (fun m => .erc20 m.1 m.2)
    | .error _ => []
  | .nftWithdraw who colls serials dest =>
    match NftPeg.withdraw c.nftCfg s.nft who colls serials dest true with
    | .ok r => [.nft r.2]
    | .error _ => []
  | .nftReclaim who b dest =>
    match NftPeg.reclaim s.nft who b dest true with
    | .ok r => [.nft r.2]
    | .error _ => []
  | .handover keys => [.handover s.contract keys ((s.setId + 1) % U64)]
  | .event src dst data =>
    match wordAt data 0, wordAt data 32, wordAt data 64 with
    | some k, some n, some d => if dst = c.echo ∧ k = 1 then [.pong src (d % 2 ^ 160) (min n (U64 - 1))] else []
    | _, _, _ => []
  | _ => []

/-- The deposit an event announces: it has to come from one of the two contracts on Ethereum and be for the peg. -/
def received (c : Cfg) (s : St) : Op → List Erc20Peg.Dep
  | .event src dst data =>
    if dst = c.peg ∧ (src = s.peg.contract ∨ src = s.peg.rootContract) then (decodeErc20 data).toList else []
  | _ => []

/-- A history, with what the operations in it had to say and the deposits that were announced, oldest first. -/
inductive Hist (c : Cfg) (G : St → Op → Prop) (g : St) : St → List Act → List Erc20Peg.Dep → Prop where
  | init : Genesis c g → Hist c G g g [] []
  | step {s s' : St} {op : Op} {acts : List Act} {deps : List Erc20Peg.Dep} : Hist c G g s acts deps → G s op →
      step c s op = .ok s' → Hist c G g s' (acts ++ made c s op) (deps ++ received c s op)

/-- A package that a contract on Ethereum may accept: its parts are in range, validators were asked to sign its digest, and
this is not due to a collision of the hash. -/
structure Package (keccak : List Byte → List Byte) (s : St) (p : Req) : Prop where
  fits : ReqFits p
  signed : Signed keccak s p
  clean : NoCollision keccak s p

end Verif.Outbound
