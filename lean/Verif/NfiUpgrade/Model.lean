import Verif.Base
import Mathlib.Order.Lex
import Mathlib.Data.List.Lex

/-!
# Model of the NFI storage migration

/repo/runtime/src/migrations/nfi.rs. Storage is a map from keys (lists of bytes, without the prefix of the storage item) to
values; `iter` asks again and again for the next key after the last one, in the storage as it is at that moment
(`frame_support::storage::PrefixIterator`, dependency). The 8-byte hash `twox_64` is an arbitrary function. Values (the
NFI data, the flag) are copied and never looked at. Rust's loop is unbounded; here it has fuel, and running out of it is `none`.
-/

namespace Verif.NfiUpgrade

abbrev Key := List Nat

/-- The entries written, newest first. -/
abbrev Store (V : Type) := List (Key × V)

/-- Reading a key (`storage::unhashed::get`, dependency). -/
def get {V : Type} (s : Store V) (k : Key) : Option V := (s.find? (fun e => decide (e.1 = k))).map Prod.snd

/-- Writing a key (`storage::unhashed::put`, dependency). -/
def put {V : Type} (s : Store V) (k : Key) (v : V) : Store V := (k, v) :: s

/-- The smallest key of a list, in the lexicographic order of the trie. -/
def least : List Key → Option Key
  | [] => none
  | k :: l => match least l with
    | none => some k
    | some x => if k < x then some k else some x

/-- `sp_io::storage::next_key` (dependency). -/
def next {V : Type} (s : Store V) (p : Key) : Option Key := least ((s.map Prod.fst).filter (fun k => decide (p < k)))

/-- nfi.rs:130-139 and 142-147: for each entry found, write its value under another key. An entry whose key cannot be decoded
is skipped by the iterator. -/
def iterate {V : Type} (target : Key → Option Key) : Nat → Key → Store V → Option (Store V)
  | 0, _, _ => none
  | fuel + 1, p, s =>
    match next s p with
    | none => some s
    | some k =>
      match target k, get s k with
      | some k', some v => iterate target fuel k (put s k' v)
      | _, _ => iterate target fuel k s

/-- SCALE encoding of an integer of `w` bytes. -/
def le : Nat → Nat → List Nat
  | 0, _ => []
  | w + 1, n => n % 256 :: le w (n / 256)

/-- The integer with these bytes. -/
def de : List Nat → Nat
  | [] => 0
  | b :: l => b + 256 * de l

/-- `Twox64Concat` (dependency): hash, then the encoding itself. -/
def twox (h : List Nat → List Nat) (e : List Nat) : List Nat := h e ++ e

/-- `Twox64Concat::reverse` (dependency). -/
def reverse (k : List Nat) : List Nat := k.drop 8

/-- Decode an integer of `w` bytes; what remains. -/
def decodeLe (w : Nat) (k : List Nat) : Option (Nat × List Nat) :=
  if w ≤ k.length then some (de (k.take w), k.drop w) else none

/-- Decode `NFISubType`, which has a single variant. -/
def decodeSub (k : List Nat) : Option Unit :=
  match k with
  | 0 :: _ => some ()
  | _ => none

/-- The end of every key: the sub type. -/
def sub (h : List Nat → List Nat) : List Nat := twox h [0]

/-- nfi.rs:99-107 the old `NfiData`: token id, sub type. -/
def oldData (h : List Nat → List Nat) (t : Nat × Nat) : Key := twox h (le 4 t.1 ++ le 4 t.2) ++ sub h

/-- /repo/pallet/nfi/src/lib.rs:87-95 the new `NfiData`, for a token of this chain (types.rs:78-108: variant 0 is `U32`). -/
def newData (h : List Nat → List Nat) (chain : Nat) (t : Nat × Nat) : Key :=
  twox h (le 8 chain ++ 0 :: (le 4 t.1 ++ 0 :: le 4 t.2)) ++ sub h

/-- Decode a key as one of the old `NfiData`. -/
def decodeData (k : Key) : Option (Nat × Nat) := do
  let (a, r) ← decodeLe 4 (reverse k)
  let (b, r) ← decodeLe 4 r
  decodeSub (reverse r)
  pure (a, b)

/-- nfi.rs:129-139. -/
def migrateData {V : Type} (h : List Nat → List Nat) (chain fuel : Nat) (s : Store V) : Option (Store V) :=
  iterate (fun k => (decodeData k).map (newData h chain)) fuel [] s

/-- nfi.rs:109-118 the old `NfiEnabled`: collection id, sub type. -/
def oldFlag (h : List Nat → List Nat) (id : Nat) : Key := twox h (le 4 id) ++ sub h

/-- /repo/pallet/nfi/src/lib.rs:98-108 the new `NfiEnabled`, for a collection of this chain. -/
def newFlag (h : List Nat → List Nat) (chain id : Nat) : Key := twox h (le 8 chain ++ 0 :: le 4 id) ++ sub h

/-- Decode a key as one of the old `NfiEnabled`. -/
def decodeFlag (k : Key) : Option Nat := do
  let (a, r) ← decodeLe 4 (reverse k)
  decodeSub (reverse r)
  pure a

/-- nfi.rs:141-147. -/
def migrateFlags {V : Type} (h : List Nat → List Nat) (chain fuel : Nat) (s : Store V) : Option (Store V) :=
  iterate (fun k => (decodeFlag k).map (newFlag h chain)) fuel [] s

/-- The storage of the pallet. -/
structure St (D : Type) where
  version : Nat
  data : Store D
  flags : Store Bool

/-- nfi.rs:26-46 `on_runtime_upgrade`. -/
def upgrade {D : Type} (h : List Nat → List Nat) (chain fuel : Nat) (s : St D) : Option (St D) :=
  if s.version ≠ 0 then some s
  else do
    let d ← migrateData h chain fuel s.data
    let f ← migrateFlags h chain fuel s.flags
    pure ⟨1, d, f⟩

end Verif.NfiUpgrade
