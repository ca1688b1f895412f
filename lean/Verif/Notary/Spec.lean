import Verif.Notary.Model

/-!
# What the notaries of the bridge should do

In terms of what an Ethereum node answers, the log of the bridge and the Solidity encoding of event data.
-/

namespace Verif.Notary

open Abi (Ty Tys layout)

/-- The data of an event with fields `(uint256, address, address, bytes)`. -/
def fourFields (id : Nat) (cl : Claim) : List Abi.Byte :=
  layout (Tys.items (.cons (.prim (.uint 256)) (.cons (.prim .address) (.cons (.prim .address) (.cons (.bytes Abi.u32Max) .nil))))
    (id, cl.source, cl.destination, cl.data, ()))

/-- The data of the event of the bridge contract,
`SendMessage(uint256 messageId, address source, address destination, bytes message, uint256 fee)`
(quoted at impls.rs:153-154). -/
def sendMessage (id : Nat) (cl : Claim) (fee : Nat) : List Abi.Byte :=
  layout (Tys.items (.cons (.prim (.uint 256)) (.cons (.prim .address) (.cons (.prim .address) (.cons (.bytes Abi.u32Max)
      (.cons (.prim (.uint 256)) .nil)))))
    (id, cl.source, cl.destination, cl.data, fee, ()))

/-- The values have the types of the fields. -/
structure Fits (id : Nat) (cl : Claim) : Prop where
  id : id < U64
  source : cl.source < 2 ^ 160
  destination : cl.destination < 2 ^ 160
  data : cl.data.length < U32 - 256

/-- Ethereum, asked through `rpc`, shows this log in this transaction: the transaction succeeded, was sent to the source
contract of the claim, its log from the bridge contract carries the event's topic, and enough blocks are on top. -/
structure ShowsLog (c : Cfg) (rpc : Rpc) (cl : Claim) (r : Receipt) (l : Log) : Prop where
  receipt : rpc.receipt cl.txHash = .ok (some r)
  status : ∃ st, r.status = some st ∧ st ≠ 0
  to_ : r.to_ = some cl.source
  log : l ∈ r.logs
  txHash : l.txHash = some cl.txHash
  topic : c.selector ∈ l.topics
  address : l.address = c.contract
  blocks : ∃ b, rpc.block none = .ok (some b) ∧
    (0 < c.confirmations → ∃ n, b.number = some n ∧ r.block + c.confirmations ≤ n)

/-- Ethereum shows the claim as data of four fields. -/
def Shows (c : Cfg) (rpc : Rpc) (id : Nat) (cl : Claim) : Prop :=
  ∃ r l, ShowsLog c rpc cl r l ∧ l.data = fourFields id cl

/-- Ethereum shows the claim as an event of the bridge contract. -/
def Sent (c : Cfg) (rpc : Rpc) (id : Nat) (cl : Claim) (fee : Nat) : Prop :=
  ∃ r l, ShowsLog c rpc cl r l ∧ l.data = sendMessage id cl fee

/-- Keys that are not honest are fewer than the share of `n` needed for a verdict. -/
def Few (honest : Nat → Prop) (thr n : Nat) : Prop :=
  ∀ l : List Nat, l.Nodup → (∀ k ∈ l, ¬ honest k) → Ethy.percent l.length n < thr

/-- Histories of the bridge in which votes of honest keys are those of their workers, each seeing Ethereum through a
provider satisfying `prov`; everything else is arbitrary, including the votes of other keys. -/
inductive Reach (c : Cfg) (ec : Ethy.Cfg) (claimOf : Nat → Claim) (honest : Nat → Prop) (prov : Rpc → Prop) :
    Ethy.St → Prop where
  | init {s : Ethy.St} : Ethy.Genesis s → Few honest ec.thr s.valCount → Reach c ec claimOf honest prov s
  | other {s s' : Ethy.St} {op : Ethy.Op} : Reach c ec claimOf honest prov s →
      (∀ idx id yes k, op = .notarize idx id yes → s.notaryKeys[idx]? = some k → ¬ honest k) →
      Ethy.step ec s op = .ok s' → Few honest ec.thr s'.valCount → Reach c ec claimOf honest prov s'
  | vote {s s' : Ethy.St} {paused : Bool} {rpc : Rpc} {keys : List Nat} {v : Nat × Nat × Verdict} :
      Reach c ec claimOf honest prov s → prov rpc → v ∈ worker c ec claimOf paused rpc s keys →
      Ethy.step ec s (toOp v) = .ok s' → Reach c ec claimOf honest prov s'

/-- The last claim submitted for this event has been challenged. The log is newest first. -/
def disputed (id : Nat) : List Ethy.Ev → Bool
  | [] => false
  | .challenged i _ :: l => if i = id then true else disputed id l
  | .submitted i _ _ _ :: l => if i = id then false else disputed id l
  | _ :: l => disputed id l

/-! ## Ethereum calls -/

/-- A chain: the time of each block and the answers of calls at each block. -/
structure Chain where
  time : Nat → Nat
  call : Nat → List Abi.Byte → Nat → List Abi.Byte

/-- A provider answering from this chain, up to block `latest`. -/
structure From (ch : Chain) (latest : Nat) (rpc : Rpc) : Prop where
  last : rpc.block none = .ok (some ⟨some latest, ch.time latest⟩)
  past : ∀ n ≤ latest, rpc.block (some n) = .ok (some ⟨some n, ch.time n⟩)
  call : ∀ t i n, n ≤ latest → rpc.ethCall t i n = .ok (ch.call t i n)

/-- The requested block is acceptable when `latest` is the latest: not after it, and at most `maxLookBehind` blocks
before it, plus one block for every twelve seconds since the check was queued. -/
def InWindow (q : Request) (now latest : Nat) : Prop :=
  q.tryBlock ≤ latest ∧ latest ≤ q.tryBlock + q.maxLookBehind + (now - q.checkTimestamp) / 12

end Verif.Notary
