import Verif.SignKeys.Model

/-!
# What the flags of a node do for the bridges

/repo/client/src/service.rs:291-641 `new_full`, cli.rs:25-74, command.rs:109-112 and 246-252, and of the offchain worker
(/repo/pallet/ethy/src/lib.rs:672-709, ethereum_http_cli.rs:107-121) whom it asks. A disk outlives the runs of the node.
-/

namespace Verif.NodeFlags

open Verif.SignKeys

/-- cli.rs:25-74 and the flags of substrate that are used. -/
structure Flags where
  /-- `--eth-http` -/
  eth : Option Nat
  /-- `--xrp-http` -/
  xrp : Option Nat
  /-- `--ethy-p2p` -/
  p2p : Bool
  /-- `--validator` -/
  validator : Bool
  /-- `--offchain-worker` lets the workers run -/
  ocw : Bool
deriving DecidableEq

/-- What is on the disk. -/
structure Disk where
  /-- `ETH_HTTP` and `XRP_HTTP` in the persistent offchain storage, which is part of the database -/
  eth : Option Nat
  xrp : Option Nat
  /-- the blocks of the database -/
  chain : List Nat
  /-- the blocks of the Ethereum index (service.rs:91-93: in a directory of its own beside the database) -/
  index : List Nat
deriving DecidableEq

/-- A machine: its disk, and the node that runs on it. -/
structure Node where
  disk : Disk
  /-- the flags of the present run, if any -/
  run : Option Flags

/-- A machine on which no node was run yet. -/
def fresh : Node := ⟨⟨none, none, [], []⟩, none⟩

/-- What the operator does: runs of the commands of command.rs:109-112 and 246-252, and blocks that are imported meanwhile. -/
inductive Op where
  /-- the node is started, after stopping it if it was running -/
  | start (f : Flags)
  | stop
  /-- a block comes in and is indexed -/
  | block (b : Nat)
  /-- the subcommand `purge-chain` -/
  | purge

/-- service.rs:318-331: an address that is given is stored. -/
def configure (d : Disk) (f : Flags) : Disk :=
  let d := match f.eth with
    | some u => { d with eth := some u }
    | none => d
  match f.xrp with
  | some u => { d with xrp := some u }
  | none => d

/-- /repo/client/src/service.rs:291-641 `new_full` and command.rs:109-112 `purge-chain`. -/
def step (n : Node) : Op → Node
  | .start f => ⟨configure n.disk f, some f⟩
  | .stop => { n with run := none }
  | .block b => match n.run with
    | none => n
    | some _ => { n with disk := { n.disk with chain := b :: n.disk.chain, index := b :: n.disk.index } }
  -- command.rs:109-112: the database is removed; a running node holds its lock
  | .purge => match n.run with
    | none => { n with disk := { n.disk with eth := none, xrp := none, chain := [] } }
    | some _ => n

/-- A history. No counterpart in the code. -/
def runs (n : Node) (ops : List Op) : Node := ops.foldl step n

/-- service.rs:370-389, lib.rs:677-681, ethereum_http_cli.rs:111-121: whom the node asks about Ethereum, if there is something to ask
and it holds a key of a notary. -/
def asks (n : Node) : Option Nat :=
  match n.run with
  | none => none
  | some f => if f.ocw = true ∧ f.validator = true then n.disk.eth else none

/-- service.rs:574-600: the votes of the node on the requests of a block; `held` are the keys on its disk. -/
def nodeVotes (multi : List Nat → Nat → List Nat) (n : Node) (held : List Nat) (v : VSet) (b : Block) : List Vote :=
  match n.run with
  | none => []
  | some f =>
    if f.p2p = true then votes multi v { b with store := if f.validator = true then some held else none } else []

end Verif.NodeFlags
