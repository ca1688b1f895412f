import Verif.Outbound.Inbound
import Verif.Precompile.Model
import Verif.NftPeg.Props3

/-!
# Model of the bridge's contract

/repo/evm-precompiles/peg/src/lib.rs, on top of the pegs and the outgoing messages of `Verif.Outbound`. Arguments are
decoded (see `Verif.Abi`). Gas is not modelled. A call that fails is undone by the EVM.
-/

namespace Verif.PegEvm

open Verif Outbound

/-- The event logs (lib.rs:32-40): number of the message, beneficiary, address of the asset or collection as given by the
caller, and amount or serial numbers. -/
inductive Log where
  | erc20 (id ben asset amount : Nat)
  | erc721 (id ben coll : Nat) (serials : List Nat)
deriving DecidableEq

/-- The chain and the logs of the contract, oldest first. -/
structure World where
  st : Outbound.St
  logs : List Log

/-- The context of a call. -/
structure Ctx where
  caller : Acct
  isStatic : Bool
  value : Nat

/-- lib.rs:78-80 with /repo/evm-precompiles/utils/src/modifier.rs:36-50: all functions change the state and take no value. -/
def nonPayable (k : Ctx) : Except Err Unit := do
  ensure (k.isStatic = false) "Can't call non-static function in static context"
  ensure (k.value = 0) "Function is not payable"

/-- lib.rs:121-125: the asset an address stands for. -/
def assetAt (addr : Nat) : Option AssetId := (Precompile.decode Precompile.prefix20 addr).map (Fin.ofNat 4294967296 ·)

/-- lib.rs:195-200: the collection an address stands for. -/
def collAt (addr : Nat) : Option Nat := Precompile.decode Precompile.prefix721 addr

/-- lib.rs:105-172 `erc20_withdraw`: the new world and the number returned. `send_event` returns the number it takes from the
counter (ethy/src/impls.rs:50-67). -/
def erc20Withdraw (c : Cfg) (w : World) (k : Ctx) (ben addr amount : Nat) : Except Err (World × Nat) := do
  nonPayable k
  let a ← okOr (assetAt addr) "PEG: Invalid asset address"
  ensure (amount < U128) "PEG: Expected balance <= 2^128"
  let s ← pegOp c w.st (.withdraw k.caller a amount ben true)
  pure (⟨s, w.logs ++ [.erc20 w.st.nextId ben addr amount]⟩, w.st.nextId)

/-- lib.rs:191-203: the collections. -/
def collsOf : List Nat → Except Err (List Nat)
  | [] => .ok []
  | a :: as => do
    let id ← okOr (collAt a) "PEG: Invalid collection address"
    let ids ← collsOf as
    pure (id :: ids)

/-- lib.rs:266-281 `bound_serial_numbers`. -/
def serialsOk (max : Nat) (ns : List Nat) : Prop := (∀ n ∈ ns, n < U32) ∧ ns.length ≤ max

instance (max : Nat) (ns : List Nat) : Decidable (serialsOk max ns) := by unfold serialsOk; infer_instance

/-- lib.rs:174-263 `erc721_withdraw`. -/
def erc721Withdraw (c : Cfg) (w : World) (k : Ctx) (ben : Nat) (addrs : List Nat) (serials : List (List Nat)) :
    Except Err (World × Nat) := do
  nonPayable k
  let ids ← collsOf addrs
  ensure (ids.length ≤ c.nftCfg.maxColls) "PEG: Too many collections"
  ensure (∀ ns ∈ serials, serialsOk c.nftCfg.maxSerials ns) "PEG: Too many serial numbers"
  ensure (serials.length ≤ c.nftCfg.maxColls) "PEG: Too many collections"
  let s ← nftWithdraw c w.st k.caller ids serials ben
  pure (⟨s, w.logs ++ (addrs.zip serials).map (fun g => .erc721 w.st.nextId ben g.1 g.2)⟩, w.st.nextId)

/-- A call of the contract, or any operation of the pegs. -/
inductive Op where
  | erc20 (k : Ctx) (ben addr amount : Nat)
  | erc721 (k : Ctx) (ben : Nat) (addrs : List Nat) (serials : List (List Nat))
  /-- everything that does not go through the contract -/
  | other (op : Outbound.Op)

/-- Each case is the function of that name above, or written out. -/
def step (c : Cfg) (w : World) : Op → Except Err World
  | .erc20 k ben addr amount => (erc20Withdraw c w k ben addr amount).map Prod.fst
  | .erc721 k ben addrs serials => (erc721Withdraw c w k ben addrs serials).map Prod.fst
  | .other op => do
    let s ← Outbound.step c w.st op
    pure { w with st := s }

/-- Addresses have twenty bytes; as `Outbound.Env`; and other pallets mint bridged tokens into collections from the XRPL only
(as in `NftPeg.Env`). -/
def Env (c : Cfg) (w : World) : Op → Prop
  | .erc20 _ ben _ _ => ben < 2 ^ 160
  | .erc721 _ ben _ _ => ben < 2 ^ 160
  | .other op => Outbound.Env c w.st op ∧
    match op with
    | .nftPallet (.bridgedMint id _ _) => ∀ k, w.st.nft.nft.coll id = some k → k.origin = .xrpl
    | _ => True

/-- Nothing has happened yet. -/
structure Genesis (c : Cfg) (w : World) : Prop where
  st : Outbound.Genesis c w.st
  nft : Nft.Genesis w.st.nft.nft
  toRoot : ∀ a, w.st.nft.toRoot a = none
  logs : w.logs = []

/-- What can be reached from the start by these operations; an operation that fails changes nothing.
Histories have no counterpart in the code. -/
inductive Reach (c : Cfg) (g : World) : World → Prop where
  | init : Genesis c g → Reach c g g
  | step {w w' : World} {op : Op} : Reach c g w → Env c w op → step c w op = .ok w' → Reach c g w'

end Verif.PegEvm
