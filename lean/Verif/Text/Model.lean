import Verif.Uri.Model

/-!
# Model of texts that are read from outside

* the memo of an XRPL message that carries a call (/repo/pallet/xrpl/src/types.rs:141-206);
* amounts given to the RPC of the exchange (/repo/pallet/dex/src/types.rs:64-121);
* answers of Ethereum nodes (/repo/pallet/ethy/src/types.rs:440-445, 526-660, ethereum_http_cli.rs:46-63).

Texts are lists of bytes (UTF-8). A panic is the error "Panic".
-/

namespace Verif.Text

open Abi (Byte)

/-! ## Hexadecimal (crate `hex`) -/

/-- The value of a digit of either case: `hex::decode` as called in xrpl types.rs:155-206 and dex types.rs:81-121. -/
def hexVal (b : Byte) : Option Nat :=
  if 48 ≤ b.val ∧ b.val ≤ 57 then some (b.val - 48)
  else if 97 ≤ b.val ∧ b.val ≤ 102 then some (b.val - 87)
  else if 65 ≤ b.val ∧ b.val ≤ 70 then some (b.val - 55)
  else none

/-- `hex::decode` as called in xrpl types.rs:155-206 and dex types.rs:81-121. -/
def hexDecode : List Byte → Option (List Byte)
  | [] => some []
  | [_] => none
  | a :: b :: r => match hexVal a, hexVal b, hexDecode r with
    | some x, some y, some bs => some (Fin.ofNat 256 (16 * x + y) :: bs)
    | _, _, _ => none

/-! ## Decimal (`str::parse`) -/

/-- The loop over the digits, with checked arithmetic: `str::parse` as called in xrpl types.rs:167-203. -/
def digits (bound : Nat) : Nat → List Byte → Option Nat
  | acc, [] => some acc
  | acc, b :: r =>
    if 48 ≤ b.val ∧ b.val ≤ 57 ∧ 10 * acc + (b.val - 48) < bound then digits bound (10 * acc + (b.val - 48)) r else none

/-- `parse::<u32>` and `parse::<u64>` (xrpl types.rs:167-203): not empty; one `+` may be first. -/
def parseNum (bound : Nat) : List Byte → Option Nat
  | [] => none
  | b :: r => if b.val = 43 then (if r = [] then none else digits bound 0 r) else digits bound 0 (b :: r)

/-! ## Memos -/

/-- `str::split(":")` (xrpl types.rs:167-203). -/
def splitColon : List Byte → List (List Byte)
  | [] => [[]]
  | b :: r => if b.val = 58 then [] :: splitColon r else match splitColon r with
    | [] => [[b]]
    | h :: t => (b :: h) :: t

/-- xrpl types.rs:23-30 `ExtrinsicMemoData`. -/
structure Data where
  genesis : List Byte
  nonce : Nat
  maxBlock : Nat
  tip : Nat
  call : List Byte
deriving DecidableEq

/-- A hash: the hexadecimal text of 32 bytes. -/
def hash (t : List Byte) : Option (List Byte) := match hexDecode t with
  | some bs => if bs.length = 32 then some bs else none
  | none => none

/-- xrpl types.rs:167-203: the text of the memo. What follows a fifth colon is not looked at. -/
def parseData (t : List Byte) : Option Data := match splitColon t with
  | g :: n :: m :: p :: h :: _ => match hash g, parseNum U32 n, parseNum U32 m, parseNum U64 p, hash h with
    | some g, some n, some m, some p, some h => some ⟨g, n, m, p, h⟩
    | _, _, _, _, _ => none
  | _ => none

/-- `u8::to_ascii_lowercase`. -/
def lower (b : Byte) : Byte := if 65 ≤ b.val ∧ b.val ≤ 90 then Fin.ofNat 256 (b.val + 32) else b

/-- "extrinsic" (xrpl types.rs:16). -/
def extrinsic : List Byte := [101, 120, 116, 114, 105, 110, 115, 105, 99]

/-- xrpl types.rs:155-206 `get_extrinsic_data`: memos as type and data, in hexadecimal. -/
def extrinsicData : List (List Byte × List Byte) → Option Data
  | [] => none
  | m :: ms => match hexDecode m.1 with
    | none => none
    | some k =>
      if Uri.utf8 k.length k = true then
        if k.map lower = extrinsic then
          match hexDecode m.2 with
          | none => none
          | some d => if Uri.utf8 d.length d = true then parseData d else none
        else extrinsicData ms
      else none

/-! ## Amounts of the exchange's RPC -/

/-- JSON, as `serde_json` gives it to a visitor: whole numbers below `2 ^ 64`, other numbers, texts, all else. -/
inductive Json where
  | num (n : Nat)
  | str (t : List Byte)
  | other

/-- What a client writes: a number of any size. Without arbitrary precision, those that are not `u64` are read as floating point. -/
def ofNumber (n : Nat) : Json := if n < U64 then .num n else .other

/-- A byte that a character begins with (`is_char_boundary`). -/
def starts (b : Byte) : Bool := decide (b.val < 128 ∨ 192 ≤ b.val)

/-- `&s[2..]`. -/
def from2 : List Byte → Except Err (List Byte)
  | [_, _] => .ok []
  | _ :: _ :: c :: r => if starts c = true then .ok (c :: r) else .error "Panic"
  | _ => .error "Panic"

/-- `u128::from_be_bytes`. -/
def bigEndian (bs : List Byte) : Nat := bs.foldl (fun a b => 256 * a + b.val) 0

/-- dex types.rs:81-121 `WrappedBalance::deserialize`. -/
def readAmount : Json → Except Err Nat
  | .num n => .ok n
  | .str s => do
    let t ← from2 s
    let bs ← okOr (hexDecode t) "expected hex encoded string"
    ensure (bs.length = 16) "parse big int as u128 failed"
    pure (bigEndian bs)
  | .other => .error "deserialize failed"

/-- dex types.rs:64-80 `WrappedBalance::serialize`: an object with one field. -/
def writeAmount (_n : Nat) : Json := .other

/-! ## Answers of Ethereum nodes -/

/-- `u8::from_str_radix(…, 16)` of two characters of one byte each: one `+` may be first. -/
def byteOf (a b : Byte) : Option Byte :=
  if a.val = 43 then (hexVal b).map (Fin.ofNat 256)
  else match hexVal a, hexVal b with
    | some x, some y => some (Fin.ofNat 256 (16 * x + y))
    | _, _ => none

/-- ethy types.rs:656-659 `decode_hex` and the `expect` of line 618. Characters of more bytes have no digits in them: slicing panics, or
the number does not parse. -/
def decodeHex : List Byte → Except Err (List Byte)
  | [] => .ok []
  | [_] => .error "Panic"
  | a :: b :: r => match byteOf a b with
    | none => .error "Panic"
    | some x => do
      let bs ← decodeHex r
      pure (x :: bs)

/-- ethy types.rs:603-625 `BytesVisitor`. -/
def readBytes : Json → Except Err (List Byte)
  | .str (a :: b :: r) => if a.val = 48 ∧ b.val = 120 ∧ r.length % 2 = 0 then decodeHex r else .error "Invalid bytes format"
  | _ => .error "Invalid bytes format"

/-- ethy types.rs:636-646: what bytes are written as. -/
def writeBytes (bs : List Byte) : Json := .str ([48, 120] ++ Uri.hex bs)

/-- An answer of a node, by JSON-RPC: a result, or an error (read by ethy types.rs:440-445). -/
inductive Answer where
  | result (j : Json)
  | error (code : Nat)

/-- ethereum_http_cli.rs:46-63 `eth_call`, after the answer has come; types.rs:440-445 `EthResponse` has no field for errors, and
`result` is an `Option`. -/
def ethCall : Answer → Except Err (List Byte)
  | .error _ => .ok []
  | .result j => readBytes j

/-- The digits of a number below `16 ^ k` in hexadecimal, without leading zeros: `{:x}` in ethy types.rs:527-573. -/
def hexNum : Nat → Nat → List Byte
  | 0, _ => []
  | k + 1, n => if n < 16 then [Uri.hexDigit n] else hexNum k (n / 16) ++ [Uri.hexDigit (n % 16)]

/-- ethy types.rs:527-573: how a block is asked for (`{:#x}`). -/
def blockParam (n : Nat) : List Byte := [48, 120] ++ hexNum 16 n

end Verif.Text
