import Verif.Ledger

/-!
# The encoding of arguments and answers of the built-in contracts

Model of `evm-precompiles/utils/src/data/mod.rs`: `EvmDataReader` (reads the
arguments of a call), `EvmDataWriter` (writes answers and log data) and every
`EvmData` instance of that file.

A byte is a `Fin 256`.  `usize` is 32 bits wide, because the runtime is executed
as wasm32.  Error messages are kept as the kind of the revert only.
An out-of-range slice, which would abort the runtime, is the error `"panic"` of
the reader and `none` of the writer.
-/

namespace Verif.Abi

open Verif

/-- One byte of call data. -/
abbrev Byte := Fin 256

/-- The types whose encoding is one 32-byte word
(data/mod.rs 370-485 and 558-578).  `uint bits` stands for `u8`, `u16`, `u32`,
`u64`, `u128` and `U256`; `bytes32` stands for `H256`, and for what is read as
`Bytes32PostPad`, its 32 bytes being identified with the number they spell. -/
inductive Prim where
  | bytes32
  | uint (bits : Nat)
  | address
  | bool

mutual
/-- The types that implement `EvmData` (data/mod.rs 334-667).  `bytes lim` is
`BoundedBytes<S>` with `S = lim`, and `Bytes` with `lim = u32::MAX`; `array t lim`
is `BoundedVec<T, S>`, and `Vec<T>` with `lim = u32::MAX`. -/
inductive Ty where
  | prim (p : Prim)
  | bytes (lim : Nat)
  | array (t : Ty) (lim : Nat)
  | tuple (ts : Tys)
/-- The component types of a tuple, or the argument types of a function. -/
inductive Tys where
  | nil
  | cons (t : Ty) (ts : Tys)
end

/-- The values of a one-word type. -/
def Prim.Val : Prim → Type
  | .bytes32 => Nat
  | .uint _ => Nat
  | .address => Nat
  | .bool => Bool

mutual
/-- The values of a type. -/
def Ty.Val : Ty → Type
  | .prim p => p.Val
  | .bytes _ => List Byte
  | .array t _ => List t.Val
  | .tuple ts => ts.Val
/-- The values of a list of types. -/
def Tys.Val : Tys → Type
  | .nil => Unit
  | .cons t ts => t.Val × ts.Val
end

/-- How many types there are in the list. -/
def Tys.count : Tys → Nat
  | .nil => 0
  | .cons _ ts => ts.count + 1

/-! ## Numbers and bytes -/

/-- `to_big_endian` into `k` bytes (`primitive-types`), used at data/mod.rs 286, 426. -/
def be : Nat → Nat → List Byte
  | 0, _ => []
  | k + 1, n => be k (n / 256) ++ [Fin.ofNat 256 n]

/-- `from_big_endian` (`primitive-types`), used at data/mod.rs 421. -/
def ofBe (bs : List Byte) : Nat := bs.foldl (fun a b => a * 256 + b.val) 0

/-- `usize::MAX` of wasm32. -/
def usizeMax : Nat := 4294967295

/-- `u32::MAX`, the bound of `Bytes` and `Vec` (data/mod.rs 26). -/
def u32Max : Nat := 4294967295

/-! ## The reader -/

/-- `EvmDataReader` (data/mod.rs 110-113). -/
structure Reader where
  input : List Byte
  cursor : Nat

/-- `new` (data/mod.rs 117-119). -/
def Reader.new (input : List Byte) : Reader := ⟨input, 0⟩

/-- `move_cursor` (data/mod.rs 212-220): the range and the moved reader. -/
def moveCursor (r : Reader) (len : Nat) : Except Err (Nat × Nat × Reader) := do
  ensure (r.cursor + len ≤ usizeMax) "CursorOverflow"
  pure (r.cursor, r.cursor + len, { r with cursor := r.cursor + len })

/-- `input.get(start..stop)`; the ranges of `move_cursor` have `start ≤ stop`. -/
def getRange (input : List Byte) (start stop : Nat) : Option (List Byte) :=
  if stop ≤ input.length then some ((input.drop start).take (stop - start)) else none

/-- `&input[offset..]`: aborts if the offset is out of range. -/
def sliceFrom (input : List Byte) (offset : Nat) : Except Err (List Byte) := do
  ensure (offset ≤ input.length) "panic"
  pure (input.drop offset)

/-- `H256::from_slice` aborts unless it is given 32 bytes; likewise `data[12..32]`
(data/mod.rs 379, 400). -/
def exactly32 (data : List Byte) : Except Err (List Byte) := do
  ensure (data.length = 32) "panic"
  pure data

/-- The first part of the one-word instances: 32 bytes from the cursor
(data/mod.rs 372-377, 393-398, 414-419, 560-564). -/
def read32 (r : Reader) : Except Err (List Byte × Reader) := do
  let (start, stop, r') ← moveCursor r 32
  let data ← okOr (getRange r'.input start stop) "ReadOutOfBounds"
  pure (data, r')

/-- `read::<U256>` (data/mod.rs 413-422). -/
def readU256 (r : Reader) : Except Err (Nat × Reader) := do
  let (data, r') ← read32 r
  pure (ofBe data, r')

/-- `try_into::<usize>` (data/mod.rs 187-188, 512-513, 617-618). -/
def toUsize (n : Nat) : Except Err Nat := do
  ensure (n ≤ usizeMax) "ValueIsTooLarge"
  pure n

/-- `read_pointer` (data/mod.rs 183-195): the reader at the pointed place, and
this reader after the pointer. -/
def readPointer (r : Reader) : Except Err (Reader × Reader) := do
  let (n, r') ← readU256 r
  let offset ← toUsize n
  ensure (¬ r'.input.length ≤ offset) "PointerToOutofBound"
  let input ← sliceFrom r'.input offset
  pure (⟨input, 0⟩, r')

/-- `read` of the one-word types (data/mod.rs 371-380, 392-401, 413-422, 439-450,
467-471, 559-567). -/
def Prim.read : (p : Prim) → Reader → Except Err (p.Val × Reader)
  | .bytes32, r => do
      let (data, r') ← read32 r
      let data ← exactly32 data
      pure (ofBe data, r')
  | .uint bits, r => do
      let (n, r') ← readU256 r
      ensure (n < 2 ^ bits) "ValueIsTooLarge"
      pure (n, r')
  | .address, r => do
      let (data, r') ← read32 r
      let data ← exactly32 data
      pure (ofBe (data.drop 12), r')
  | .bool, r => do
      let (data, r') ← read32 r
      let data ← exactly32 data
      pure (decide (ofBe data ≠ 0), r')

/-- The loop of `BoundedVec::read` (data/mod.rs 634-636). -/
def readN {α : Type} (f : Reader → Except Err (α × Reader)) :
    Nat → Reader → Except Err (List α × Reader)
  | 0, r => pure ([], r)
  | n + 1, r => do
      let (v, r') ← f r
      let (vs, r'') ← readN f n r'
      pure (v :: vs, r'')

mutual
/-- `has_static_size` (data/mod.rs 336-338, 386, 407, 430, 456, 482, 499, 553, 575,
592, 664). -/
def Ty.hasStaticSize : Ty → Bool
  | .prim _ => true
  | .bytes _ => false
  | .array _ _ => false
  | .tuple ts => ts.hasStaticSize
/-- data/mod.rs:336-338: of all parts of a tuple. -/
def Tys.hasStaticSize : Tys → Bool
  | .nil => true
  | .cons t ts => t.hasStaticSize && ts.hasStaticSize
end

/-- The length word of `bytes` and arrays, with its bound (data/mod.rs 509-517,
614-622). -/
def readLength (lim : Nat) (r : Reader) : Except Err (Nat × Reader) := do
  let (w, r') ← readU256 r
  let n ← toUsize w
  ensure (n ≤ lim) "ValueIsTooLarge"
  pure (n, r')

/-- `BoundedBytes::read` (data/mod.rs 505-530). -/
def readBytes (lim : Nat) (r : Reader) : Except Err (List Byte × Reader) := do
  let (inner, r') ← readPointer r
  let (n, inner) ← readLength lim inner
  let (start, stop, inner) ← moveCursor inner n
  let data ← okOr (getRange inner.input start stop) "ReadOutOfBounds"
  pure (data, r')

/-- `BoundedVec::read` (data/mod.rs 611-639), over the `read` of the items. -/
def readArray {α : Type} (f : Reader → Except Err (α × Reader)) (lim : Nat) (r : Reader) :
    Except Err (List α × Reader) := do
  let (inner, r') ← readPointer r
  let (n, inner) ← readLength lim inner
  let content ← okOr (getRange inner.input 32 inner.input.length) "ReadOutOfBounds"
  let (vs, _) ← readN f n ⟨content, 0⟩
  pure (vs, r')

/-- `read` of a tuple (data/mod.rs 340-357), over the `read` of its components. -/
def readTuple {α : Type} (static : Bool) (f : Reader → Except Err (α × Reader))
    (r : Reader) : Except Err (α × Reader) :=
  if static then f r
  else do
    let (inner, r') ← readPointer r
    let (v, _) ← f inner
    pure (v, r')

mutual
/-- `EvmData::read` of every type. -/
def Ty.read : (t : Ty) → Reader → Except Err (t.Val × Reader)
  | .prim p => p.read
  | .bytes lim => readBytes lim
  | .array t lim => readArray t.read lim
  | .tuple ts => readTuple ts.hasStaticSize ts.read
/-- The components of a tuple in order (data/mod.rs 344-348, 351-355), and the
arguments of a function in order (`read_args!`, data/mod.rs 721-725). -/
def Tys.read : (ts : Tys) → Reader → Except Err (ts.Val × Reader)
  | .nil => fun r => pure ((), r)
  | .cons t ts => fun r => do
      let (v, r') ← t.read r
      let (vs, r'') ← ts.read r'
      pure ((v, vs), r'')
end

/-- `new_skip_selector` (data/mod.rs 145-151). -/
def newSkipSelector (input : List Byte) : Except Err Reader := do
  ensure (¬ input.length < 4) "ReadOutOfBounds"
  let rest ← sliceFrom input 4
  pure (Reader.new rest)

/-- `expect_arguments` (data/mod.rs 155-161). -/
def expectArguments (r : Reader) (args : Nat) : Except Err Unit :=
  ensure (r.cursor + args * 32 ≤ r.input.length) "ExpectedAtLeastNArguments"

/-- `read_args!` (data/mod.rs 714-728): the arguments of a call. -/
def readArgs (ts : Tys) (input : List Byte) : Except Err ts.Val := do
  let r ← newSkipSelector input
  expectArguments r ts.count
  let (v, _) ← ts.read r
  pure v

/-! ## The writer -/

/-- `OffsetDatum` (data/mod.rs 236-244). -/
structure Datum where
  position : Nat
  data : List Byte
  shift : Nat

/-- `EvmDataWriter` (data/mod.rs 229-233); the selector is given to `build`. -/
structure Writer where
  data : List Byte
  offsets : List Datum

/-- `EvmDataWriter::new` (data/mod.rs 248-250). -/
def Writer.empty : Writer := ⟨[], []⟩

/-- One round of `bake_offsets` (data/mod.rs 274-291).  `none` if the slice
`output[position..position + 32]` is out of range (the code aborts) or
`output.len() - shift` would wrap. -/
def bakeOne (output : List Byte) (d : Datum) : Option (List Byte) :=
  if d.shift ≤ output.length ∧ d.position + 32 ≤ output.length then
    some (output.take d.position ++ be 32 (output.length - d.shift)
      ++ output.drop (d.position + 32) ++ d.data)
  else none

/-- `bake_offsets` (data/mod.rs 273-292). -/
def bake : List Byte → List Datum → Option (List Byte)
  | output, [] => some output
  | output, d :: ds => (bakeOne output d).bind fun o => bake o ds

/-- `build` without a selector (data/mod.rs 260-270). -/
def Writer.build (w : Writer) : Option (List Byte) := bake w.data w.offsets

/-- `build` with a selector (data/mod.rs 260-270). -/
def Writer.buildWith (selector : Nat) (w : Writer) : Option (List Byte) :=
  w.build.map fun d => be 4 selector ++ d

/-- `write_raw_bytes` (data/mod.rs 296-299). -/
def Writer.raw (w : Writer) (bs : List Byte) : Writer := { w with data := w.data ++ bs }

/-- `write_pointer` (data/mod.rs 313-318). -/
def Writer.pointer (w : Writer) (data : List Byte) : Writer :=
  { data := w.data ++ List.replicate 32 255
    offsets := w.offsets ++ [⟨w.data.length, data, 0⟩] }

/-- `write` of the one-word types (data/mod.rs 382-384, 403-405, 424-428, 452-454,
473-480). -/
def Prim.write : (p : Prim) → Writer → p.Val → Writer
  | .bytes32, w, v => w.raw (be 32 v)
  | .uint _, w, v => w.raw (be 32 v)
  | .address, w, v => w.raw (List.replicate 12 0 ++ be 20 v)
  | .bool, w, v => w.raw (List.replicate 31 0 ++ [bif v then 1 else 0])

/-- `value.resize(n, 0)` of the standard library. -/
def resize (bs : List Byte) (n : Nat) : List Byte :=
  bs.take n ++ List.replicate (n - bs.length) 0

/-- `Bytes32PostPad::write` (data/mod.rs 569-573). -/
def writePostPad (w : Writer) (bs : List Byte) : Writer := w.raw (resize bs 32)

/-- The padded size of `bytes` (data/mod.rs 539-543). -/
def paddedSize (length : Nat) : Nat :=
  if length % 32 = 0 then length / 32 * 32 else (length / 32 + 1) * 32

/-- `BoundedBytes::write` (data/mod.rs 532-551). -/
def writeBytes (w : Writer) (bs : List Byte) : Option Writer :=
  (((Writer.empty.raw (be 32 bs.length)).raw (resize bs (paddedSize bs.length))).build).map
    w.pointer

/-- The part of `BoundedVec::write` that appends one item (data/mod.rs 650-658). -/
def appendItem (inner item : Writer) : Writer :=
  { data := inner.data ++ item.data
    offsets := inner.offsets ++ item.offsets.map fun d =>
      { d with position := d.position + inner.data.length, shift := d.shift + 32 } }

/-- The loop of `BoundedVec::write` (data/mod.rs 645-659). -/
def writeItems {α : Type} (f : Writer → α → Option Writer) :
    Writer → List α → Option Writer
  | inner, [] => some inner
  | inner, v :: vs => (f Writer.empty v).bind fun item => writeItems f (appendItem inner item) vs

/-- `BoundedVec::write` (data/mod.rs 641-662). -/
def writeArray {α : Type} (f : Writer → α → Option Writer) (w : Writer) (vs : List α) :
    Option Writer :=
  (writeItems f (Writer.empty.raw (be 32 vs.length)) vs).bind fun inner =>
    inner.build.map w.pointer

/-- `write` of a tuple (data/mod.rs 359-367). -/
def writeTuple {α : Type} (static : Bool) (f : Writer → α → Option Writer) (w : Writer)
    (v : α) : Option Writer :=
  if static then f w v
  else (f Writer.empty v).bind fun inner => inner.build.map w.pointer

mutual
/-- `EvmData::write` of every type. -/
def Ty.write : (t : Ty) → Writer → t.Val → Option Writer
  | .prim p => fun w v => some (p.write w v)
  | .bytes _ => writeBytes
  | .array t _ => writeArray t.write
  | .tuple ts => writeTuple ts.hasStaticSize ts.write
/-- The components of a tuple in order (data/mod.rs 362, 365), and the chained
`write`s of an answer. -/
def Tys.write : (ts : Tys) → Writer → ts.Val → Option Writer
  | .nil => fun w _ => some w
  | .cons t ts => fun w v => (t.write w v.1).bind fun w' => ts.write w' v.2
end

/-- `EvmDataWriter::new().write(..)…write(..).build()`: an answer, or log data. -/
def answer (ts : Tys) (v : ts.Val) : Option (List Byte) :=
  (ts.write Writer.empty v).bind Writer.build

end Verif.Abi
