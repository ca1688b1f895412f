import Verif.Ledger
import Mathlib.Data.Nat.Digits.Defs

/-!
# Model of transaction signatures

/repo/primitives/src/signature.rs, the message of a futurepass delegate's consent
(/repo/pallet/futurepass/src/lib.rs:570-615) and the encoding of a signed transaction that follows from
`SignedExtra` (/repo/runtime/src/lib.rs:1466-1480). Bytes are numbers. Hash functions and the recovery of a
public key are parameters.
-/

namespace Verif.Sign

abbrev Bytes := List Nat

/-- Cryptographic functions (`sp_io`, dependency). -/
structure Cfg where
  /-- `keccak_256` -/
  keccak : Bytes → Bytes
  /-- `blake2_256` -/
  blake : Bytes → Bytes
  keccak_len : ∀ x, (keccak x).length = 32
  keccak_byte : ∀ x, ∀ b ∈ keccak x, b < 256
  blake_len : ∀ x, (blake x).length = 32
  /-- `secp256k1_ecdsa_recover` (signature, digest) -/
  recover : Nat → Bytes → Option Bytes

/-- signature.rs:147: the account of a public key. -/
def address (c : Cfg) (pk : Bytes) : Bytes := (c.keccak pk).drop 12

/-- signature.rs:144-162 `verify_signature`. -/
def verifySig (c : Cfg) (sig : Nat) (digest signer : Bytes) : Bool :=
  match c.recover sig digest with
  | some pk => decide (address c pk = signer)
  | none => false

/-- signature.rs:166: `"\x19Ethereum Signed Message:\n"`. -/
def prefix_ : Bytes :=
  [25, 69, 116, 104, 101, 114, 101, 117, 109, 32, 83, 105, 103, 110, 101, 100, 32, 77, 101, 115, 115, 97, 103, 101, 58,
   10]

/-- `to_string` of a number: its decimal digits. -/
def decimal (n : Nat) : Bytes :=
  if n = 0 then [48] else (Nat.digits 10 n).reverse.map (48 + ·)

/-- signature.rs:165-170 `ethereum_signed_message`. -/
def personal (m : Bytes) : Bytes := prefix_ ++ decimal m.length ++ m

/-- signature.rs:123-141 `EthereumSignature::verify`. -/
def verify (c : Cfg) (sig : Nat) (m signer : Bytes) : Bool :=
  if verifySig c sig (c.keccak m) signer then true
  else if verifySig c sig (c.keccak (personal m)) signer then true
  else verifySig c sig (c.keccak (personal (c.blake m))) signer

/-- A transaction to be signed: the call (pallet index, call index, arguments), the encoded `SignedExtra`
(1466-1477), and what every chain adds itself: specification and transaction version, genesis hash and the
hash of the era's first block (`CheckSpecVersion`, `CheckTxVersion`, `CheckGenesis`, `CheckEra`; the other
extensions add nothing). -/
structure Tx where
  pallet : Nat
  call : Nat
  args : Bytes
  extra : Bytes
  spec : Bytes
  txv : Bytes
  genesis : Bytes
  era : Bytes
deriving DecidableEq

/-- The bytes of the transaction to be signed. -/
def Tx.encode (t : Tx) : Bytes :=
  t.pallet :: t.call :: (t.args ++ t.extra ++ t.spec ++ t.txv ++ t.genesis ++ t.era)

/-- Substrate's `SignedPayload::using_encoded`: more than 256 bytes are hashed first. -/
def Tx.message (c : Cfg) (t : Tx) : Bytes :=
  if 256 < t.encode.length then c.blake t.encode else t.encode

/-- A call of the runtime (runtime/src/lib.rs:1392-1455): pallet indices are at most 51, pallet 25 has calls 0
to 14 (/repo/pallet/ethy/src/lib.rs:785-1071), pallets 1 and 2 (Babe, Timestamp) have fewer than 192 calls.
Superset of the calls there are. -/
def IsCall (p i : Nat) : Prop := p ≤ 51 ∧ (p = 25 → i ≤ 14) ∧ (p = 1 ∨ p = 2 → i < 192)

/-- Lengths of the parts of fixed size, and a call that exists. -/
structure Tx.WF (t : Tx) : Prop where
  call : IsCall t.pallet t.call
  spec : t.spec.length = 4
  txv : t.txv.length = 4
  genesis : t.genesis.length = 32
  era : t.era.length = 32

/-- The chain with genesis `g` accepts the transaction as signed by `signer`: it puts its own genesis hash into
the message. -/
def accepts (c : Cfg) (g : Bytes) (sig : Nat) (t : Tx) (signer : Bytes) : Bool :=
  verify c sig (({ t with genesis := g } : Tx).message c) signer

/-! ## Consent of a futurepass delegate -/

/-- `hex::encode`. -/
def hexDigit (n : Nat) : Nat := if n < 10 then 48 + n else 87 + n

/-- `hex::encode` (dependency). -/
def hex : Bytes → Bytes
  | [] => []
  | b :: l => hexDigit (b / 16) :: hexDigit (b % 16) :: hex l

/-- futurepass lib.rs:570-575: what the delegate signs. -/
structure Consent where
  futurepass : Bytes
  delegate : Bytes
  kind : Nat
  deadline : Bytes
deriving DecidableEq

/-- futurepass lib.rs:578-593: the lengths of the encodings. -/
structure Consent.WF (k : Consent) : Prop where
  futurepass : k.futurepass.length = 20
  delegate : k.delegate.length = 20
  deadline : k.deadline.length = 4

/-- futurepass lib.rs:594-598: the packed message. -/
def Consent.packed (k : Consent) : Bytes := k.futurepass ++ k.delegate ++ [k.kind] ++ k.deadline

/-- futurepass lib.rs:603-610: the text the delegate signs. -/
def Consent.text (c : Cfg) (k : Consent) : Bytes := hex (c.keccak k.packed)

/-- futurepass lib.rs:309-325: the signature of the delegate is accepted on the chain with genesis `_g`, which is
not looked at. -/
def consents (c : Cfg) (_g : Bytes) (sig : Nat) (k : Consent) : Bool :=
  verifySig c sig (c.keccak (personal (k.text c))) k.delegate

end Verif.Sign
