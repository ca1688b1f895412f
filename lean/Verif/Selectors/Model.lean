import Verif.Ledger

/-!
# Model of the reader of Solidity interfaces

`get_selectors_from_reader` of /repo/evm-precompiles/utils/src/solidity.rs:107-228. A file is a list of lines; a line that begins with
`//` is a comment, and every other line is cut into words at `;`, `,`, `(`, `)` and spaces, which are dropped (solidity.rs:147-151). The
letters of words are left out: a word is one of those the reader looks for, or a name with a number of `[]` after it. The selector is the
hash of the signature (solidity.rs:75-80) and is left out as well.
-/

namespace Verif.Selectors

/-- The words the reader tells apart (solidity.rs:157-222). -/
inductive Word where
  | enum
  | struct
  | function
  | external
  /-- `memory`, `calldata`, `storage` -/
  | location
  | lbrace
  | rbrace
  /-- a name followed by `[]` a number of times -/
  | id (name arrays : Nat)
deriving DecidableEq

/-- What signatures are made of. -/
inductive Sym where
  | name (n : Nat)
  | brackets
  | lpar
  | rpar
  | comma
  | uint8
  | kw (w : Word)
deriving DecidableEq

abbrev Text := List Sym

/-- A word as text. -/
def render : Word → Text
  | .id n k => .name n :: List.replicate k .brackets
  | w => [.kw w]

/-- `join(",")` (solidity.rs:42, 61). -/
def join : List Text → Text
  | [] => []
  | [a] => a
  | a :: b :: l => a ++ .comma :: join (b :: l)

/-- solidity.rs:37-44 `signature` of a struct that is no enum. -/
def tuple (l : List Text) : Text := .lpar :: join l ++ [.rpar]

/-- solidity.rs:48-56. -/
structure Fn where
  name : Word
  args : List Text
  /-- the declared selector; `none` is the empty text -/
  doc : Option Nat
deriving DecidableEq

/-- solidity.rs:60-62. -/
def Fn.signature (f : Fn) : Text := render f.name ++ tuple f.args

/-- solidity.rs:110-117 `Stage`. -/
inductive Stage where
  | start | enum | struct | params | fnName | args
deriving DecidableEq

/-- solidity.rs:131-138. The signature of a custom type is computed when it is stored. -/
structure P where
  stage : Stage
  /-- `Pair::Second` -/
  second : Bool
  types : Word → Option Text
  structName : Word
  structParams : List Text
  fnName : Word
  fnArgs : List Text
  fnDoc : Option Nat
  out : List Fn

/-- The empty text as a name. -/
def noWord : Word := .id 0 0

/-- solidity.rs:131-138: the values the variables start with. -/
def P.init : P := ⟨.start, false, fun _ => none, noWord, [], noWord, [], none, []⟩

/-- solidity.rs:90-105 `try_lookup_custom_type`. -/
def lookup (types : Word → Option Text) : Word → Text
  | .id n (k + 1) => match types (.id n k) with
    | some t => t ++ [.brackets]
    | none => render (.id n (k + 1))
  | w => match types w with
    | some t => t
    | none => render w

/-- `solidity_fn = SolidityFunction::default()`. -/
def P.forget (p : P) : P :=
  { p with
    fnName := noWord
    fnArgs := []
    fnDoc := none }

/-- solidity.rs:156-223: one word. -/
def word (p : P) (w : Word) : P :=
  match p.stage, p.second, w with
  | .start, false, .enum => { p with stage := .enum, second := true }
  | .enum, true, w =>
    { p with
      types := upd p.types w (some [.uint8])
      stage := .start
      second := false }
  | .start, false, .struct => { p with stage := .struct, second := true }
  | .struct, true, w => { p with structName := w, stage := .params, second := false }
  | .params, false, .lbrace => p
  | .params, false, .rbrace =>
    { p with
      types := upd p.types p.structName (some (tuple p.structParams))
      stage := .start
      structName := noWord
      structParams := [] }
  | .params, false, w => { p with structParams := p.structParams ++ [lookup p.types w], second := true }
  | .params, true, _ => { p with second := false }
  | .start, false, .function => { p with stage := .fnName, second := true }
  | .fnName, true, w => { p with fnName := w, stage := .args, second := false }
  | .args, false, .external =>
    ({ p with
      out := p.out ++ [⟨p.fnName, p.fnArgs, p.fnDoc⟩]
      stage := .start
      second := false } : P).forget
  | .args, false, w => { p with fnArgs := p.fnArgs ++ [lookup p.types w], second := true }
  | .args, true, .location => p
  | .args, true, _ => { p with second := false }
  | _, _, _ => ({ p with stage := .start, second := false } : P).forget

/-- A line of the file (solidity.rs:139-151). -/
inductive Line where
  /-- `/// @custom:selector` with a selector -/
  | selector (n : Nat)
  /-- any other comment that begins with `//` -/
  | comment
  | code (ws : List Word)

/-- solidity.rs:139-225: one line. -/
def line (p : P) : Line → P
  | .selector n => if p.stage = .start then { p with fnDoc := some n } else p
  | .comment => p
  | .code ws => ws.foldl word p

/-- solidity.rs:107-228 `get_selectors_from_reader`. -/
def read (f : List Line) : List Fn := (f.foldl line P.init).out

end Verif.Selectors
