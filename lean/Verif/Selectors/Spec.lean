import Verif.Selectors.Model

/-! # What an interface declares: the language, and the signatures it says functions have -/

namespace Verif.Selectors

/-- A field of a struct: type and name. -/
structure Field where
  ty : Nat
  arrays : Nat
  name : Nat

/-- An argument of a function; Solidity lets its name be left out. -/
structure Arg where
  ty : Nat
  arrays : Nat
  location : Bool
  name : Option Nat

/-- What an interface consists of. -/
inductive Item where
  /-- anything that declares none of the following -/
  | other (ws : List Word)
  | enum (name : Nat) (members : List Nat)
  | struct (name : Nat) (fields : List Field)
  /-- `attrs` come before `external`, `rest` after it, as `view returns (uint256)` -/
  | fn (doc : Option Nat) (name : Nat) (args : List Arg) (attrs : List Word) (rest : List Word)

/-- What is in a file, without the comments that say nothing and the places of line breaks. -/
inductive Tok where
  | selector (n : Nat)
  | word (w : Word)
deriving DecidableEq

def toks : List Line → List Tok
  | [] => []
  | .selector n :: l => .selector n :: toks l
  | .comment :: l => toks l
  | .code ws :: l => ws.map .word ++ toks l

def Field.words (f : Field) : List Word := [.id f.ty f.arrays, .id f.name 0]

def Arg.words (a : Arg) : List Word :=
  .id a.ty a.arrays :: (if a.location = true then [.location] else []) ++ (match a.name with
    | some n => [.id n 0]
    | none => [])

/-- How an item is written. -/
def Item.toks : Item → List Tok
  | .other ws => ws.map Tok.word
  | .enum n ms => ([.enum, .id n 0, .lbrace] ++ ms.map (.id · 0) ++ [.rbrace] : List Word).map .word
  | .struct n fs => ([.struct, .id n 0, .lbrace] ++ fs.flatMap Field.words ++ [.rbrace] : List Word).map .word
  | .fn d n as attrs rest =>
    (match d with
      | some x => [.selector x]
      | none => [])
    ++ ([.function, .id n 0] ++ as.flatMap Arg.words ++ attrs ++ [.external] ++ rest : List Word).map .word

/-- A declaration of a type. -/
inductive Decl where
  | enum (name : Nat)
  | struct (name : Nat) (fields : List Field)

/-- A tuple as Solidity writes it: its parts with commas between them, in parentheses. -/
def written (l : List Text) : Text := [.lpar] ++ (l.intersperse [.comma]).flatten ++ [.rpar]

/-- How Solidity writes a type in a signature, after the declarations, the last one first: an enum is `uint8`, a struct is the tuple of its
fields. -/
def base : List Decl → Nat → Text
  | [], n => [.name n]
  | .enum m :: e, n => if n = m then [.uint8] else base e n
  | .struct m fs :: e, n => if n = m then written (fs.map fun f => base e f.ty ++ List.replicate f.arrays .brackets) else base e n

def typeText (e : List Decl) (n arrays : Nat) : Text := base e n ++ List.replicate arrays .brackets

/-- The functions of an interface. -/
def declared : List Decl → List Item → List Fn
  | _, [] => []
  | e, .other _ :: l => declared e l
  | e, .enum n _ :: l => declared (.enum n :: e) l
  | e, .struct n fs :: l => declared (.struct n fs :: e) l
  | e, .fn d n as _ _ :: l => ⟨.id n 0, as.map fun a => typeText e a.ty a.arrays, d⟩ :: declared e l

/-- A name is that of a custom type. -/
def custom : List Decl → Nat → Prop
  | [], _ => False
  | .enum m :: e, n => n = m ∨ custom e n
  | .struct m _ :: e, n => n = m ∨ custom e n

/-- A word that begins no declaration. -/
def Plain (w : Word) : Prop := w ≠ .enum ∧ w ≠ .struct ∧ w ≠ .function

/-- The reader is made for interfaces in which all arguments are named, `external` comes first, and custom types are used at most in
arrays of one dimension. -/
def Usual : List Decl → List Item → Prop
  | _, [] => True
  | e, .other ws :: l => (∀ w ∈ ws, Plain w) ∧ Usual e l
  | e, .enum n _ :: l => Usual (.enum n :: e) l
  | e, .struct n fs :: l => (∀ f ∈ fs, custom e f.ty → f.arrays ≤ 1) ∧ Usual (.struct n fs :: e) l
  | e, .fn _ _ as attrs rest :: l =>
    (∀ a ∈ as, a.name ≠ none ∧ (custom e a.ty → a.arrays ≤ 1)) ∧ attrs = [] ∧ (∀ w ∈ rest, Plain w) ∧ Usual e l

end Verif.Selectors
