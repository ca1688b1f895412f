import Verif.Abi.Model

/-!
# The contract ABI of Solidity

The encoding of values as the Solidity documentation defines it ("Contract ABI
Specification", *Formal Specification of the Encoding*), independently of the
reader and the writer of the precompiles.  Only the types are shared with the
model.
-/

namespace Verif.Abi

/-- The 32-byte big-endian encoding of a number. -/
def word (n : Nat) : List Byte := be 32 n

/-- One component of a tuple: whether its type is dynamic, and its encoding. -/
abbrev Item := Bool × List Byte

/-- `len(head(x))`. -/
def headLen (x : Item) : Nat := if x.1 then 32 else x.2.length

/-- `head(x₁) … head(xₖ)` where the tail of `x₁` begins at `off`. -/
def heads : Nat → List Item → List Byte
  | _, [] => []
  | off, (true, e) :: xs => word off ++ heads (off + e.length) xs
  | off, (false, e) :: xs => e ++ heads off xs

/-- `tail(x₁) … tail(xₖ)`. -/
def tails : List Item → List Byte
  | [] => []
  | (true, e) :: xs => e ++ tails xs
  | (false, _) :: xs => tails xs

/-- The length of `head(x₁) … head(xₖ)`. -/
def headsLen (xs : List Item) : Nat := (xs.map headLen).sum

/-- `enc((x₁, …, xₖ))`. -/
def layout (xs : List Item) : List Byte := heads (headsLen xs) xs ++ tails xs

/-- `bytes` padded with zeros on the right to a multiple of 32. -/
def padRight (bs : List Byte) : List Byte :=
  bs ++ List.replicate ((32 - bs.length % 32) % 32) 0

mutual
/-- The dynamic types. -/
def Ty.dynamic : Ty → Bool
  | .prim _ => false
  | .bytes _ => true
  | .array _ _ => true
  | .tuple ts => ts.dynamic
def Tys.dynamic : Tys → Bool
  | .nil => false
  | .cons t ts => t.dynamic || ts.dynamic
end

/-- The encoding of the one-word types. -/
def Prim.enc : (p : Prim) → p.Val → List Byte
  | .bytes32, v => word v
  | .uint _, v => word v
  | .address, v => word v
  | .bool, v => word (bif v then 1 else 0)

mutual
/-- `enc(x)`. -/
def Ty.enc : (t : Ty) → t.Val → List Byte
  | .prim p => p.enc
  | .bytes _ => fun bs : List Byte => word bs.length ++ padRight bs
  | .array t _ => fun vs : List t.Val => word vs.length ++ layout (vs.map fun v => (t.dynamic, t.enc v))
  | .tuple ts => fun v => layout (ts.items v)
/-- The components of a tuple with their encodings. -/
def Tys.items : (ts : Tys) → ts.Val → List Item
  | .nil => fun _ => []
  | .cons t ts => fun v => (t.dynamic, t.enc v.1) :: ts.items v.2
end

/-- The call data of a function with this selector. -/
def callData (selector : Nat) (ts : Tys) (v : ts.Val) : List Byte :=
  be 4 selector ++ layout (ts.items v)

/-- The values a one-word type has. -/
def Prim.fits : (p : Prim) → p.Val → Prop
  | .bytes32 => fun v : Nat => v < 2 ^ 256
  | .uint bits => fun v : Nat => v < 2 ^ bits
  | .address => fun v : Nat => v < 2 ^ 160
  | .bool => fun _ => True

mutual
/-- The values a type has, lengths being limited as the type means. -/
def Ty.fits : (t : Ty) → t.Val → Prop
  | .prim p => p.fits
  | .bytes lim => fun bs : List Byte => bs.length ≤ lim
  | .array t lim => fun vs : List t.Val => vs.length ≤ lim ∧ ∀ v ∈ vs, t.fits v
  | .tuple ts => ts.fits
def Tys.fits : (ts : Tys) → ts.Val → Prop
  | .nil => fun _ => True
  | .cons t ts => fun v => t.fits v.1 ∧ ts.fits v.2
end

mutual
/-- The types Rust and Solidity have: at most 256 bits, and no empty tuple
(data/mod.rs 334: tuples of 1 to 18 components). -/
def Ty.proper : Ty → Prop
  | .prim (.uint bits) => bits ≤ 256
  | .prim _ => True
  | .bytes _ => True
  | .array t _ => t.proper
  | .tuple ts => ts ≠ .nil ∧ ts.proper
def Tys.proper : Tys → Prop
  | .nil => True
  | .cons t ts => t.proper ∧ ts.proper
end

/-! ## What arbitrary call data means

Call data need not have been produced by an encoder.  A decoder follows the
pointers it finds. -/

/-- The number in the 32 bytes at place `c`, if they are there. -/
def wordAt (I : List Byte) (c : Nat) : Option Nat :=
  if c + 32 ≤ I.length then some (ofBe ((I.drop c).take 32)) else none

mutual
/-- The number of bytes a type takes where it stands: its static size, or 32 for
a pointer. -/
def Ty.headSize : Ty → Nat
  | .prim _ => 32
  | .bytes _ => 32
  | .array _ _ => 32
  | .tuple ts => if ts.dynamic then 32 else ts.headSize
def Tys.headSize : Tys → Nat
  | .nil => 0
  | .cons t ts => t.headSize + ts.headSize
end

/-- The word at place `c` means this value.  The high bytes of an address and all
but "is it zero" of a boolean are ignored. -/
def Prim.means : (p : Prim) → List Byte → Nat → p.Val → Prop
  | .bytes32, I, c => fun v : Nat => wordAt I c = some v
  | .uint bits, I, c => fun v : Nat => wordAt I c = some v ∧ v < 2 ^ bits
  | .address, I, c => fun v : Nat => ∃ n, wordAt I c = some n ∧ v = n % 2 ^ 160
  | .bool, I, c => fun v : Bool => ∃ n, wordAt I c = some n ∧ (v = true ↔ n ≠ 0)

/-- Consecutive places, `size` bytes apart, mean these values. -/
def meansEach {α : Type} (means : Nat → α → Prop) (size : Nat) : Nat → List α → Prop
  | _, [] => True
  | c, v :: vs => means c v ∧ meansEach means size (c + size) vs

/-- There is a pointer at place `c`, within the data, and it leads to `P`. -/
def Points (I : List Byte) (c : Nat) (P : List Byte → Prop) : Prop :=
  ∃ off, wordAt I c = some off ∧ off < I.length ∧ P (I.drop off)

mutual
/-- The data `I` means the value `v` for a component whose head is at place `c`. -/
def Ty.means : (t : Ty) → List Byte → Nat → t.Val → Prop
  | .prim p, I, c => p.means I c
  | .bytes lim, I, c => fun bs : List Byte => Points I c fun J =>
      wordAt J 0 = some bs.length ∧ bs.length ≤ lim ∧ bs <+: J.drop 32
  | .array t lim, I, c => fun vs : List t.Val => Points I c fun J =>
      wordAt J 0 = some vs.length ∧ vs.length ≤ lim
        ∧ meansEach (fun c v => t.means (J.drop 32) c v) t.headSize 0 vs
  | .tuple ts, I, c => fun v =>
      if ts.dynamic then Points I c fun J => ts.means J 0 v else ts.means I c v
def Tys.means : (ts : Tys) → List Byte → Nat → ts.Val → Prop
  | .nil, _, _ => fun _ => True
  | .cons t ts, I, c => fun v => t.means I c v.1 ∧ ts.means I (c + t.headSize) v.2
end

end Verif.Abi
