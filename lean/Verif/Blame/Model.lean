import Verif.Abi.Sound
import Verif.Uri.Model

/-!
# Model of the messages with which the built-in contracts revert

/repo/evm-precompiles/utils/src/revert.rs, with the places of /repo/evm-precompiles/utils/src/data/mod.rs (below: data) where a revert is made
or gets its place. A text is a list of bytes (UTF-8). The reader is the one of `Verif.Abi`, here with what it says when it fails. Its checks
that cannot fail (`H256::from_slice` of 32 bytes, the slice behind a checked pointer) are left out; the theorems show that both readers accept
the same data.
-/

namespace Verif.Blame

open Abi (Byte Prim Ty Tys Reader getRange ofBe usizeMax Writer be)

/-! ## Texts -/

/-- "bytes32" (data 377). -/
def tBytes32 : List Byte := [98, 121, 116, 101, 115, 51, 50]

/-- "address" (data 398). -/
def tAddress : List Byte := [97, 100, 100, 114, 101, 115, 115]

/-- "uint" (data 419, 442). -/
def tUint : List Byte := [117, 105, 110, 116]

/-- "bool" (data 468). -/
def tBool : List Byte := [98, 111, 111, 108]

/-- "pointer" (data 186). -/
def tPointer : List Byte := [112, 111, 105, 110, 116, 101, 114]

/-- "length" (data 511). -/
def tLength : List Byte := [108, 101, 110, 103, 116, 104]

/-- "bytes/string" (data 525). -/
def tBytes : List Byte := [98, 121, 116, 101, 115, 47, 115, 116, 114, 105, 110, 103]

/-- "array content" (data 630). -/
def tContent : List Byte := [97, 114, 114, 97, 121, 32, 99, 111, 110, 116, 101, 110, 116]

/-- "selector" (data 147). -/
def tSelector : List Byte := [115, 101, 108, 101, 99, 116, 111, 114]

/-- "Tried to read " (revert.rs 132). -/
def tTried : List Byte := [84, 114, 105, 101, 100, 32, 116, 111, 32, 114, 101, 97, 100, 32]

/-- " out of bounds" (revert.rs 132). -/
def tOut : List Byte := [32, 111, 117, 116, 32, 111, 102, 32, 98, 111, 117, 110, 100, 115]

/-- "Unknown selector" (revert.rs 134). -/
def tUnknown : List Byte := [85, 110, 107, 110, 111, 119, 110, 32, 115, 101, 108, 101, 99, 116, 111, 114]

/-- "Value is too large for " (revert.rs 135). -/
def tLarge : List Byte := [86, 97, 108, 117, 101, 32, 105, 115, 32, 116, 111, 111, 32, 108, 97, 114, 103, 101, 32, 102, 111, 114, 32]

/-- "Pointer points to out of bound" (revert.rs 136). -/
def tPoints : List Byte := [80, 111, 105, 110, 116, 101, 114, 32, 112, 111, 105, 110, 116, 115, 32, 116, 111, 32, 111, 117, 116, 32, 111, 102, 32, 98, 111, 117, 110, 100]

/-- "Reading cursor overflowed" (revert.rs 137). -/
def tCursor : List Byte := [82, 101, 97, 100, 105, 110, 103, 32, 99, 117, 114, 115, 111, 114, 32, 111, 118, 101, 114, 102, 108, 111, 119, 101, 100]

/-- "Expected at least " (revert.rs 139). -/
def tExpected : List Byte := [69, 120, 112, 101, 99, 116, 101, 100, 32, 97, 116, 32, 108, 101, 97, 115, 116, 32]

/-- " arguments" (revert.rs 139). -/
def tArguments : List Byte := [32, 97, 114, 103, 117, 109, 101, 110, 116, 115]

/-- A `usize` in decimal (`{}`); `usize` has 32 bits in the runtime. -/
def num (n : Nat) : List Byte := Uri.decimal 10 n

/-! ## revert.rs -/

/-- revert.rs:38-43 `BacktracePart`. -/
inductive Part where
  | field (name : List Byte)
  | tuple (i : Nat)
  | array (i : Nat)
deriving DecidableEq

/-- revert.rs:77-106 `RevertReason`. -/
inductive Reason where
  | custom (s : List Byte)
  | readOutOfBounds (what : List Byte)
  | unknownSelector
  | valueIsTooLarge (what : List Byte)
  | pointerToOutofBound
  | cursorOverflow
  | expectedAtLeast (n : Nat)
deriving DecidableEq

/-- revert.rs:149-153 `Revert`; the backtrace (48-49) in the order of the pushes, innermost first. -/
structure Revert where
  reason : Reason
  backtrace : List Part
deriving DecidableEq

/-- revert.rs:158-160 `new`. -/
def Revert.new (k : Reason) : Revert := ⟨k, []⟩

/-- revert.rs:257-272, 288-303 `in_field`, `in_array`, `in_tuple`. -/
def Revert.within (e : Revert) (p : Part) : Revert := { e with backtrace := e.backtrace ++ [p] }

/-- revert.rs:275-284, 312-317 `map_in_tuple_to_field`. -/
def Revert.toField (e : Revert) (fields : List (List Byte)) : Revert :=
  match e.backtrace.getLast? with
  | some (.tuple i) => match fields[i]? with
    | some f => { e with backtrace := e.backtrace.dropLast ++ [.field f] }
    | none => e
  | _ => e

/-- revert.rs:66-67: a part that is not the first. -/
def partText : Part → List Byte
  | .field f => [46] ++ f
  | .tuple i => [46] ++ num i
  | .array i => [91] ++ num i ++ [93]

/-- revert.rs:65: the first part. -/
def firstText : Part → List Byte
  | .field f => f
  | p => partText p

/-- The loop of revert.rs:61-72, over the parts outermost first. -/
def pathText : List Part → List Byte
  | [] => []
  | p :: ps => firstText p ++ (ps.map partText).flatten

/-- revert.rs:61-72 `Display for Backtrace`. -/
def backtraceText (b : List Part) : List Byte := pathText b.reverse

/-- revert.rs:127-144 `Display for RevertReason`. -/
def reasonText : Reason → List Byte
  | .custom s => s
  | .readOutOfBounds what => tTried ++ what ++ tOut
  | .unknownSelector => tUnknown
  | .valueIsTooLarge what => tLarge ++ what
  | .pointerToOutofBound => tPoints
  | .cursorOverflow => tCursor
  | .expectedAtLeast n => tExpected ++ num n ++ tArguments

/-- revert.rs:191-199 `Display for Revert`. -/
def Revert.text (e : Revert) : List Byte :=
  (if e.backtrace = [] then [] else backtraceText e.backtrace ++ [58, 32]) ++ reasonText e.reason

/-- The selector of `Error(string)` (revert.rs:30-34). -/
def errorSelector : Nat := 0x08c379a0

/-- lib.rs:55-59 `encoded_revert`; revert.rs:353-362 writes the same. -/
def encoded (text : List Byte) : Option (List Byte) :=
  (Abi.writeBytes Writer.empty text).bind (Writer.buildWith errorSelector)

/-- revert.rs:353-362: the output of a contract that reverts. -/
def Revert.output (e : Revert) : Option (List Byte) := encoded e.text

/-! ## data/mod.rs: the reader, with its complaints -/

/-- `Err(reason.into())` (revert.rs:185-189). -/
def fail {α : Type} (k : Reason) : Except Revert α := .error (Revert.new k)

/-- data 371-377, 392-398, 413-419 with `move_cursor` (212-220): 32 bytes from the cursor. -/
def readWord (what : List Byte) (r : Reader) : Except Revert (List Byte × Reader) :=
  if r.cursor + 32 ≤ usizeMax then
    match getRange r.input r.cursor (r.cursor + 32) with
    | some data => .ok (data, ⟨r.input, r.cursor + 32⟩)
    | none => fail (.readOutOfBounds what)
  else fail .cursorOverflow

/-- `read::<U256>().map_err(|_| read_out_of_bounds(what))` (data 184-186, 509-511, 614-616, 440-443). -/
def readNum (what : List Byte) (r : Reader) : Except Revert (Nat × Reader) :=
  match readWord (tUint ++ num 256) r with
  | .ok (data, r') => .ok (ofBe data, r')
  | .error _ => fail (.readOutOfBounds what)

/-- data 183-195 `read_pointer`. -/
def readPointer (r : Reader) : Except Revert (Reader × Reader) := do
  let (offset, r') ← readNum tPointer r
  if offset ≤ usizeMax then
    if r'.input.length ≤ offset then fail .pointerToOutofBound
    else pure (⟨r'.input.drop offset, 0⟩, r')
  else fail (.valueIsTooLarge tPointer)

/-- data 509-517, 614-622: the length word of `bytes` and arrays. -/
def readLength (lim : Nat) (r : Reader) : Except Revert (Nat × Reader) := do
  let (n, r') ← readNum tLength r
  if n ≤ usizeMax then
    if n ≤ lim then pure (n, r') else fail (.valueIsTooLarge tLength)
  else fail (.valueIsTooLarge tLength)

/-- The name of a type in messages. -/
def primText : Prim → List Byte
  | .bytes32 => tBytes32
  | .uint bits => tUint ++ num bits
  | .address => tAddress
  | .bool => tBool

/-- `U256` (data 413-422) keeps the cursor's overflow, the smaller integers (440-443) do not; nothing is too large for `U256`, so that the test
never fails for it. -/
def readUint (bits : Nat) (r : Reader) : Except Revert (Nat × Reader) := do
  let (n, r') ← if bits = 256 then (do
      let (data, r') ← readWord (primText (.uint bits)) r
      pure (ofBe data, r'))
    else readNum (primText (.uint bits)) r
  if n < 2 ^ bits then pure (n, r') else fail (.valueIsTooLarge (primText (.uint bits)))

/-- data 467-471. -/
def readBool (r : Reader) : Except Revert (Bool × Reader) := do
  let (n, r') ← readNum (primText .bool) r
  pure (decide (n ≠ 0), r')

/-- data 371-380, 392-401, 413-422, 438-450, 467-471, 559-567: the one-word types. -/
def readPrim : (p : Prim) → Reader → Except Revert (p.Val × Reader)
  | .bytes32, r => do
      let (data, r') ← readWord (primText .bytes32) r
      pure (ofBe data, r')
  | .uint bits, r => readUint bits r
  | .address, r => do
      let (data, r') ← readWord (primText .address) r
      pure (ofBe (data.drop 12), r')
  | .bool, r => readBool r

/-- data 505-530 `BoundedBytes::read`. -/
def readBytes (lim : Nat) (r : Reader) : Except Revert (List Byte × Reader) := do
  let (inner, r') ← readPointer r
  let (n, inner) ← readLength lim inner
  if inner.cursor + n ≤ usizeMax then
    match getRange inner.input inner.cursor (inner.cursor + n) with
    | some data => pure (data, r')
    | none => fail (.readOutOfBounds tBytes)
  else fail .cursorOverflow

/-- `.in_array(i)?`, `.in_tuple(i)?`, `.in_field(name)?` (revert.rs:325-339). -/
def place {α : Type} (p : Part) : Except Revert α → Except Revert α
  | .ok a => .ok a
  | .error e => .error (e.within p)

/-- data 634-636: the items of an array from the `i`th on. -/
def readN {α : Type} (f : Reader → Except Revert (α × Reader)) :
    Nat → Nat → Reader → Except Revert (List α × Reader)
  | 0, _, r => pure ([], r)
  | n + 1, i, r => do
      let (v, r') ← place (.array i) (f r)
      let (vs, r'') ← readN f n (i + 1) r'
      pure (v :: vs, r'')

/-- data 611-639 `BoundedVec::read`. -/
def readArray {α : Type} (f : Reader → Except Revert (α × Reader)) (lim : Nat) (r : Reader) :
    Except Revert (List α × Reader) := do
  let (inner, r') ← readPointer r
  let (n, inner) ← readLength lim inner
  match getRange inner.input 32 inner.input.length with
  | some content => do
      let (vs, _) ← readN f n 0 ⟨content, 0⟩
      pure (vs, r')
  | none => fail (.readOutOfBounds tContent)

/-- data 340-357: a tuple, over the reading of its components. -/
def readTuple {α : Type} (static : Bool) (f : Reader → Except Revert (α × Reader))
    (r : Reader) : Except Revert (α × Reader) :=
  if static then f r
  else do
    let (inner, r') ← readPointer r
    let (v, _) ← f inner
    pure (v, r')

mutual
/-- `EvmData::read` of every type. -/
def readTy : (t : Ty) → Reader → Except Revert (t.Val × Reader)
  | .prim p => readPrim p
  | .bytes lim => readBytes lim
  | .array t lim => readArray (readTy t) lim
  | .tuple ts => readTuple ts.hasStaticSize (readTys ts .tuple 0)
/-- The components of a tuple (data 344-348, 351-355), or the arguments of a function (data 721-725), from the `i`th on. -/
def readTys : (ts : Tys) → (Nat → Part) → Nat → Reader → Except Revert (ts.Val × Reader)
  | .nil, _, _ => fun r => pure ((), r)
  | .cons t ts, label, i => fun r => do
      let (v, r') ← place (label i) (readTy t r)
      let (vs, r'') ← readTys ts label (i + 1) r'
      pure ((v, vs), r'')
end

/-- `is_uppercase` of the letters of identifiers. -/
def isUpper (b : Byte) : Bool := decide (65 ≤ b.val ∧ b.val ≤ 90)

/-- `to_uppercase` of the letters of identifiers. -/
def upper (b : Byte) : Byte := if 97 ≤ b.val ∧ b.val ≤ 122 then Fin.ofNat 256 (b.val - 32) else b

/-- `to_lowercase` of the letters of identifiers. -/
def lower (b : Byte) : Byte := if isUpper b then Fin.ofNat 256 (b.val + 32) else b

/-- The loop of the modifier `camel` of the crate paste 1.0.15 (not in /repo), used at data 723: after `_` a letter becomes a capital, after a
capital a small one, and `_` goes. -/
def camelFrom (prev : Byte) : List Byte → List Byte
  | [] => []
  | b :: bs => (if b = 95 then [] else if prev = 95 then [upper b] else if isUpper prev then [lower b] else [b]) ++ camelFrom b bs

/-- `[<$field:camel>]` (data 723). -/
def camel (name : List Byte) : List Byte := camelFrom 95 name

/-- data 714-728 `read_args!` with the Rust names of the arguments. -/
def readArgs (names : List (List Byte)) (ts : Tys) (input : List Byte) : Except Revert ts.Val :=
  if input.length < 4 then fail (.readOutOfBounds tSelector)
  else if ts.count * 32 ≤ (input.drop 4).length then do
    let (v, _) ← readTys ts (fun i => .field (camel (names.getD i []))) 0 (Reader.new (input.drop 4))
    pure v
  else fail (.expectedAtLeast ts.count)

end Verif.Blame
