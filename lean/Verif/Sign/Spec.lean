import Verif.Sign.Model

/-!
# What it means that an account signed something

Independent of the verification: what a wallet hashes and signs, and that signatures cannot be forged.
-/

namespace Verif.Sign

/-- The bytes of an Ethereum transaction to be signed: a list of RLP, alone or after the type byte 1 or 2. -/
def EthTx (raw : Bytes) : Prop :=
  (∃ b l, raw = b :: l ∧ 192 ≤ b) ∨ (∃ y b l, raw = y :: b :: l ∧ (y = 1 ∨ y = 2) ∧ 192 ≤ b)

/-- What the owner of an account lets the wallet sign. -/
inductive Act where
  /-- a transaction of this chain, signed as raw bytes -/
  | raw (t : Tx)
  /-- a transaction whose message is signed like a text -/
  | asText (t : Tx)
  /-- a transaction the hash of whose message is signed like a text -/
  | asHash (t : Tx)
  /-- a text (`personal_sign`) -/
  | text (b : Bytes)
  /-- an Ethereum transaction -/
  | eth (b : Bytes)

/-- The transaction that is meant. -/
def Act.tx? : Act → Option Tx
  | .raw t => some t
  | .asText t => some t
  | .asHash t => some t
  | .text _ => none
  | .eth _ => none

/-- The bytes whose Keccak hash the wallet signs. -/
def Act.input (c : Cfg) : Act → Bytes
  | .raw t => t.message c
  | .asText t => personal (t.message c)
  | .asHash t => personal (c.blake (t.message c))
  | .text b => personal b
  | .eth b => b

/-- Parts of the act are as they should be. -/
def Act.WF : Act → Prop
  | .raw t => t.WF
  | .asText t => t.WF
  | .asHash t => t.WF
  | .text _ => True
  | .eth b => EthTx b

/-- Signatures of account `a` cannot be forged: if a public key of the account is recovered from a signature of a
digest, the owner signed that digest. -/
def Unforged (c : Cfg) (a : Bytes) (acts : List Act) : Prop :=
  ∀ sig h pk, c.recover sig h = some pk → address c pk = a → ∃ act ∈ acts, c.keccak (act.input c) = h

/-- Two different strings of the list have the same hash. -/
def Collision (c : Cfg) (l : List Bytes) : Prop :=
  ∃ x ∈ l, ∃ y ∈ l, x ≠ y ∧ (c.keccak x = c.keccak y ∨ c.blake x = c.blake y)

/-- Everything that is hashed for a transaction. -/
def Tx.hashed (c : Cfg) (t : Tx) : List Bytes :=
  [t.encode, t.message c, personal (t.message c), personal (c.blake (t.message c))]

/-- Everything that is hashed for an act. -/
def Act.hashed (c : Cfg) (act : Act) : List Bytes :=
  act.input c :: match act.tx? with
    | some t => t.hashed c
    | none => []

end Verif.Sign
