import Verif.Ledger

/-!
# Model of the storage helpers of runtime migrations

`Value` and `Map` of /repo/runtime/src/migrations/mod.rs:70-400 with the functions of frame_support (polkadot-v1.0.0,
`migration.rs`, `storage/mod.rs`, `storage/unhashed.rs`) they call. Keys and values are lists of bytes. The store knows a list of keys
through which `next_key` walks; its order does not matter for what is proved.
-/

namespace Verif.Relocate

abbrev Bytes := List Nat

/-- The store of the runtime (`sp_io::storage`, dependency). -/
structure St where
  /-- the value under every key -/
  val : Bytes → Option Bytes
  /-- the keys in the order of `next_key` -/
  keys : List Bytes

/-- All keys that have a value are met by `next_key`. -/
def St.Ok (s : St) : Prop := ∀ k, s.val k ≠ none → k ∈ s.keys

/-- How a type is read from and written to bytes (`parity_scale_codec`): reading takes what it needs from the front and ignores the
rest. -/
structure Ty (α : Type) where
  enc : α → Bytes
  dec : Bytes → Option α
  law : ∀ x r, dec (enc x ++ r) = some x

/-- frame_support `storage_prefix`: two hashes of sixteen bytes, of the pallet and of the item; the hash is a parameter. -/
structure Cfg where
  hash : Bytes → Bytes
  len : ∀ n, (hash n).length = 16

/-- The prefix of a storage item: `storage_prefix` of frame_support (dependency). -/
def Cfg.pre (c : Cfg) (module item : Bytes) : Bytes := c.hash module ++ c.hash item

/-- frame_support unhashed.rs `put_raw`. -/
def put (s : St) (k v : Bytes) : St := ⟨fun x => if x = k then some v else s.val x, k :: s.keys⟩

/-- frame_support unhashed.rs `kill`. -/
def kill (s : St) (k : Bytes) : St := ⟨fun x => if x = k then none else s.val x, s.keys⟩

/-- frame_support unhashed.rs `get`: what cannot be decoded is as if it was not there. -/
def get {α : Type} (t : Ty α) (s : St) (k : Bytes) : Option α :=
  match s.val k with
  | none => none
  | some v => t.dec v

/-- frame_support unhashed.rs `take`. -/
def take {α : Type} (t : Ty α) (s : St) (k : Bytes) : St × Option α :=
  match get t s k with
  | none => (s, none)
  | some x => (kill s k, some x)

/-- frame_support migration.rs `have_storage_value`: reads the type `()`, which every value can be read as. -/
def have_ (c : Cfg) (s : St) (m i h : Bytes) : Bool := (s.val (c.pre m i ++ h)).isSome

/-- What is below a prefix: the prefix itself is not met by `next_key`. -/
def below (p k : Bytes) : Bool := p.isPrefixOf k && decide (k ≠ p)

/-- One turn of the loop of `move_prefix`. -/
def moveOne (f t : Bytes) (s : St) (k : Bytes) : St :=
  match s.val k with
  | none => s
  | some v => if below f k then put (kill s k) (t ++ k.drop f.length) v else s

/-- frame_support migration.rs `move_prefix`. -/
def movePrefix (s : St) (f t : Bytes) : St :=
  if f = t then s else s.keys.foldl (moveOne f t) s

/-- frame_support migration.rs `move_storage_from_pallet`. -/
def moveFrom (c : Cfg) (s : St) (item old new : Bytes) : St :=
  let s1 := movePrefix s (c.pre old item) (c.pre new item)
  match s1.val (c.pre old item) with
  | none => s1
  | some v => kill (put s1 (c.pre new item) v) (c.pre old item)

/-- frame_support migration.rs `clear_storage_prefix` without limit: all keys that begin with the prefix, itself included. -/
def clearPrefix (s : St) (p : Bytes) : St := ⟨fun x => if p.isPrefixOf x then none else s.val x, s.keys⟩

/-! ## `Value` -/

/-- mod.rs:150-152 `unsafe_exists`. -/
def valueExists (c : Cfg) (s : St) (m i : Bytes) : Bool := have_ c s m i []

/-- mod.rs:176-181 `unsafe_storage_get`. -/
def valueGet {α : Type} (t : Ty α) (c : Cfg) (s : St) (m i : Bytes) : Option α := get t s (c.pre m i)

/-- mod.rs:197-202 `unsafe_storage_put`. -/
def valuePut {α : Type} (t : Ty α) (c : Cfg) (s : St) (m i : Bytes) (x : α) : St := put s (c.pre m i) (t.enc x)

/-- mod.rs:229-238 `unsafe_storage_rename`. -/
def valueRename {α : Type} (t : Ty α) (c : Cfg) (s : St) (m old new : Bytes) : St × Bool :=
  match take t s (c.pre m old) with
  | (s1, some x) => (put s1 (c.pre m new) (t.enc x), true)
  | (s1, none) => (s1, false)

/-- mod.rs:256-267 `unsafe_storage_move`. -/
def valueMove (c : Cfg) (s : St) (item old new : Bytes) : St × Bool :=
  if valueExists c s old item then (moveFrom c s item old new, true) else (s, false)

/-- mod.rs:285-291 `unsafe_clear`; without limit nothing remains, so there is no cursor. -/
def valueClear (c : Cfg) (s : St) (m i : Bytes) : St × Bool :=
  if valueExists c s m i then (clearPrefix s (c.pre m i), true) else (s, false)

/-! ## `Map` -/

/-- How a reversible hasher finds the key in a hashed key (frame_support hash.rs `ReversibleStorageHasher::reverse`): for
`Twox64Concat` it drops eight bytes. -/
abbrev Hasher := Bytes → Bytes

/-- frame_support migration.rs `storage_key_iter`: the entries below the prefix of which key and value can be decoded. -/
def entries {κ α : Type} (tk : Ty κ) (t : Ty α) (h : Hasher) (s : St) (p : Bytes) : List (κ × α) :=
  s.keys.filterMap fun k =>
    if below p k then
      match s.val k with
      | none => none
      | some v => match tk.dec (h (k.drop p.length)), t.dec v with
        | some x, some y => some (x, y)
        | _, _ => none
    else none

/-- mod.rs:297-304 `unsafe_exists`. -/
def mapExists {κ α : Type} (tk : Ty κ) (t : Ty α) (h : Hasher) (c : Cfg) (s : St) (m i : Bytes) : Bool :=
  decide ((entries tk t h s (c.pre m i)).length > 0)

/-- mod.rs:370-377 `unsafe_keys_get`. -/
def mapKeys {κ α : Type} (tk : Ty κ) (t : Ty α) (h : Hasher) (c : Cfg) (s : St) (m i : Bytes) : List κ :=
  (entries tk t h s (c.pre m i)).map (·.1)

/-- mod.rs:312-314 `unsafe_clear`. -/
def mapClear (c : Cfg) (s : St) (m i : Bytes) : St × Bool := (clearPrefix s (c.pre m i), true)

/-- mod.rs:317-332 `unsafe_storage_rename`. -/
def mapRename {κ α : Type} (tk : Ty κ) (t : Ty α) (h : Hasher) (c : Cfg) (s : St) (m old new : Bytes) : St × Bool :=
  if mapExists tk t h c s m old then (movePrefix s (c.pre m old) (c.pre m new), true) else (s, false)

/-- mod.rs:335-351 `unsafe_storage_move`. -/
def mapMove {κ α : Type} (tk : Ty κ) (t : Ty α) (h : Hasher) (c : Cfg) (s : St) (item old new : Bytes) : St × Bool :=
  if mapExists tk t h c s old item then (moveFrom c s item old new, true) else (s, false)

/-- mod.rs:354-359 `unsafe_storage_get`. -/
def mapGet {α : Type} (t : Ty α) (c : Cfg) (s : St) (m i h : Bytes) : Option α := get t s (c.pre m i ++ h)

/-- mod.rs:362-367 `unsafe_storage_take`. -/
def mapTake {α : Type} (t : Ty α) (c : Cfg) (s : St) (m i h : Bytes) : St × Option α := take t s (c.pre m i ++ h)

/-- mod.rs:380-385 `unsafe_storage_put`. -/
def mapPut {α : Type} (t : Ty α) (c : Cfg) (s : St) (m i h : Bytes) (x : α) : St := put s (c.pre m i ++ h) (t.enc x)

/-! ## Types of fixed width -/

/-- The types whose values are written as `n` bytes, as the unsigned integers. -/
def fixed (n : Nat) : Ty {l : Bytes // l.length = n} where
  enc x := x.1
  dec l := if h : n ≤ l.length then some ⟨l.take n, by simp [h]⟩ else none
  law x r := by
    obtain ⟨x, rfl⟩ := x
    simp

end Verif.Relocate
