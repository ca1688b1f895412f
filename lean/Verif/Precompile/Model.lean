import Verif.Ledger

/-!
# Model of the addresses of the built-in contracts and of calls to them

/repo/runtime/src/precompiles.rs, /repo/evm-precompiles/utils/src/precompile_set.rs, `ErcIdConversion` of
/repo/runtime/src/impls.rs, and the `is_precompile` functions of the token precompiles. An address is a number below
2^160, its twenty bytes read in big-endian order. What a built-in contract does is not modelled here, only which one runs
and the calls made in the meantime. Gas is not modelled.
-/

namespace Verif.Precompile

/-- /repo/evm-precompiles/utils/src/constants.rs:21-29. -/
def prefix721 : Nat := 0xAAAAAAAA
/-- constants.rs:24. -/
def prefix1155 : Nat := 0xBBBBBBBB
/-- constants.rs:27. -/
def prefix20 : Nat := 0xCCCCCCCC
/-- constants.rs:29. -/
def prefixFp : Nat := 0xFFFFFFFF

/-- /repo/runtime/src/impls.rs:283-295 `runtime_id_to_evm_id`: prefix, id, twelve zero bytes. -/
def encode (pre id : Nat) : Nat := pre * 2 ^ 128 + id * 2 ^ 96

/-- impls.rs:265-281 `evm_id_to_runtime_id`: the last twelve bytes are ignored. -/
def decode (pre : Nat) (a : Nat) : Option Nat := if a / 2 ^ 128 = pre then some (a / 2 ^ 96 % 2 ^ 32) else none

/-- What runs at an address: a standard function (the number is its address), one of the fixed contracts, the contract of
a collection or asset, or a futurepass. -/
inductive Service where
  | standard (n : Nat)
  | nft | sft | peg | dex | registrar | market
  | erc721 (id : Nat)
  | erc1155 (id : Nat)
  | erc20 (id : Nat)
  | futurepass (a : Nat)
deriving DecidableEq

/-- The collections and assets that exist. -/
structure World where
  nfts : Nat → Bool
  sfts : Nat → Bool
  assets : Nat → Bool

/-- precompile_set.rs:123-141 `PrecompileSetFragment`: the addresses it looks at, what it runs there, its recursion limit
and whether it may be called with DELEGATECALL. `tag` tells the fragments apart. -/
structure Frag where
  tag : Nat
  covers : Nat → Bool
  serve : World → Nat → Option Service
  limit : Nat
  delegate : Bool

/-- precompile_set.rs:143-222 `PrecompileAt`. -/
def fixed (n : Nat) (svc : Service) (delegate : Bool) : Frag where
  tag := n
  covers a := decide (a = n)
  serve _ _ := some svc
  limit := 0
  delegate := delegate

/-- precompile_set.rs:482-530 `PrecompilesInRangeInclusive`. -/
def inRange (lo hi : Nat) (f : Frag) : Frag :=
  { f with covers := fun a => decide (lo ≤ a ∧ a ≤ hi) && f.covers a }

/-- precompile_set.rs:305-400 `PrecompileSetStartingWith` around a token precompile set, whose `is_precompile` decodes the
address and looks whether the collection or asset exists (erc721/src/lib.rs:249-262, erc1155/src/lib.rs:221-234,
erc20/src/lib.rs:127-140). -/
def tokens (pre : Nat) (live : World → Nat → Bool) (mk : Nat → Service) : Frag where
  tag := pre
  covers a := decide (a / 2 ^ 128 = pre)
  serve w a :=
    match decode pre a with
    | some id => if live w id = true then some (mk id) else none
    | none => none
  limit := 0
  delegate := false

/-- futurepass/src/lib.rs:180-186: every address with the prefix. precompiles.rs:92-97: `LimitRecursionTo<1>`,
`AllowDelegateCall`. -/
def futurepasses : Frag where
  tag := prefixFp
  covers a := decide (a / 2 ^ 128 = prefixFp)
  serve _ a := some (.futurepass a)
  limit := 1
  delegate := true

/-- precompiles.rs:62-87. -/
def low : List Frag :=
  [fixed 1 (.standard 1) true, fixed 2 (.standard 2) true, fixed 3 (.standard 3) true, fixed 4 (.standard 4) true,
   fixed 5 (.standard 5) true, fixed 6 (.standard 6) true, fixed 7 (.standard 7) true, fixed 8 (.standard 8) true,
   fixed 9 (.standard 9) true, fixed 1024 (.standard 1024) false, fixed 1026 (.standard 1026) false,
   fixed 1721 .nft false, fixed 1731 .sft false, fixed 1939 .peg false, fixed 56797 .dex false,
   fixed 65535 .registrar false, fixed 1741 .market false]

/-- precompiles.rs:55-98 `FutureversePrecompiles`. -/
def frags : List Frag :=
  low.map (inRange 1 65535) ++
  [tokens prefix721 (fun w => w.nfts) .erc721, tokens prefix1155 (fun w => w.sfts) .erc1155,
   tokens prefix20 (fun w => w.assets) .erc20, futurepasses]

/-- What a fragment answers for an address. -/
def Frag.answer (f : Frag) (w : World) (a : Nat) : Option Service := if f.covers a = true then f.serve w a else none

/-- precompile_set.rs:437-470, the tuple: the first fragment that answers. -/
def find (w : World) (a : Nat) : List Frag → Option (Frag × Service)
  | [] => none
  | f :: fs =>
    match f.answer w a with
    | some svc => some (f, svc)
    | none => find w a fs

/-- The recursion levels: one counter for a fixed contract (precompile_set.rs:144), one per address for the sets
(precompile_set.rs:307). As a fixed contract has one address, all counters are kept by fragment and address. -/
abbrev Levels := Nat × Nat → Nat

/-- What happens: a built-in contract starts to run at an address, in the name of the address `ctx` (which differs for
DELEGATECALL and CALLCODE), and ends. -/
inductive Ev where
  | enter (svc : Service) (code ctx : Nat)
  | leave (code : Nat)
deriving DecidableEq

/-- The calls made while a transaction runs, by contracts and built-in contracts alike. `body` are the calls made by what
is called. -/
inductive Prog where
  | stop
  | call (code ctx : Nat) (body next : Prog)
  /-- futurepass/src/lib.rs:437-478, 532-556: a futurepass creates a contract with `Runner::create`, which makes its own
  precompile set (/repo/runtime/src/lib.rs:1118) for the constructor -/
  | deploy (body next : Prog)
  /-- collections and assets come and go -/
  | change (w : World) (next : Prog)

/-- precompile_set.rs:165-206, 331-383: one call. The state is the world and the levels; the result has the events. -/
def run : Prog → World → Levels → World × Levels × List Ev
  | .stop, w, l => (w, l, [])
  | .call code ctx body next, w, l =>
    match find w code frags with
    | none =>
      let r := run body w l
      let q := run next r.1 r.2.1
      (q.1, q.2.1, r.2.2 ++ q.2.2)
    | some (f, svc) =>
      if f.delegate = false ∧ code ≠ ctx then run next w l
      else if l (f.tag, code) > f.limit then run next w l
      else
        let r := run body w (upd l (f.tag, code) (l (f.tag, code) + 1))
        let q := run next r.1 (upd r.2.1 (f.tag, code) (r.2.1 (f.tag, code) - 1))
        (q.1, q.2.1, .enter svc code ctx :: r.2.2 ++ .leave code :: q.2.2)
  | .deploy body next, w, l =>
    let r := run body w (fun _ => 0)
    let q := run next r.1 l
    (q.1, q.2.1, r.2.2 ++ q.2.2)
  | .change w' next, _, l => run next w' l

/-- What happens in a transaction: it starts with a new precompile set. -/
def events (p : Prog) (w : World) : List Ev := (run p w (fun _ => 0)).2.2

end Verif.Precompile
