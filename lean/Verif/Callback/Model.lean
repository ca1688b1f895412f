import Verif.Market.Props

/-!
# Model of contract calls with receiver callbacks

/repo/evm-precompiles/erc721/src/lib.rs (`do_safe_transfer`), /repo/evm-precompiles/erc1155/src/lib.rs
(`do_safe_transfer_acceptance_check`, `do_batch_safe_transfer_acceptance_check`, `do_safe_transfer`) and the nesting
check of /repo/evm-precompiles/utils/src/precompile_set.rs, on top of the models of the NFT, SFT and marketplace pallets.

Contracts are arbitrary: a program is the tree of the calls that are made while one transaction runs, with what every
called contract answers. Any contract produces some tree, so a theorem about all trees is a theorem about all contracts.
Gas, call depth, logs and the code of contracts are not modelled. The set of accounts with code is fixed during the
transaction.
-/

namespace Verif.Callback

open Market

/-- A token contract address: ERC-1155 or ERC-721, the collection, and the last twelve bytes, which the decoding of the
address ignores (/repo/runtime/src/impls.rs:260-296). -/
abbrev Addr := Bool × Nat × Nat

/-- The message a receiver is called with: who the receiver sees as the caller, the selector and the arguments in order
(erc721 lib.rs:474-485, erc1155 lib.rs:433-441, 537-545). Lists are `uint256[]`; `data` is left out. -/
structure Msg where
  sender : Acct ⊕ Addr
  sel : List Nat
  addrs : List Acct
  nums : List (List Nat)
deriving DecidableEq

/-- `onERC721Received(address,address,uint256,bytes)`: erc721 lib.rs:69. -/
def sel721 : List Nat := [0x15, 0x0b, 0x7a, 0x02]

/-- erc1155 lib.rs:65. -/
def sel1155 : List Nat := [0xf2, 0x3a, 0x6e, 0x61]

/-- erc1155 lib.rs:69. -/
def selBatch : List Nat := [0xbc, 0x19, 0x7c, 0x81]

/-- erc721 lib.rs:474-485: the sub-context has the caller of the precompile as its caller; `from`, `to` and the serial
number are written. -/
def msg721 (me src dst : Acct) (n : Nat) : Msg := ⟨.inl me, sel721, [src, dst], [[n]]⟩

/-- erc1155 lib.rs:433-441. -/
def msg1155 (me src : Acct) (xs : List (Nat × Nat)) : Msg :=
  ⟨.inl me, sel1155, [me, src], [xs.map Prod.fst, xs.map Prod.snd]⟩

/-- erc1155 lib.rs:537-545: the selector written is that of the single transfer. -/
def msgBatch (me src : Acct) (xs : List (Nat × Nat)) : Msg :=
  ⟨.inl me, sel1155, [me, src], [xs.map Prod.fst, xs.map Prod.snd]⟩

/-- The message of an ERC-1155 transfer and the answer that is waited for (erc1155 lib.rs:447, 551). -/
def ask1155 (batch : Bool) (me src : Acct) (xs : List (Nat × Nat)) : Msg × List Nat :=
  if batch = true then (msgBatch me src xs, selBatch) else (msg1155 me src xs, sel1155)

/-- What a receiver answers: the returned bytes, or nothing if it reverts. -/
abbrev Answer := Msg → Option (List Nat)

/-- The calls made by a running contract. -/
inductive Prog where
  | stop
  /-- a call of a precompile that calls nobody back; `tail` are the last bytes of the address -/
  | op (tail : Nat) (o : Op) (next : Prog)
  /-- `safeTransferFrom(src, dst, n)` of an ERC-721 collection; `body` is what the receiver does when it is called -/
  | safe721 (tail id n : Nat) (src dst : Acct) (body : Prog) (answer : Answer) (next : Prog)
  /-- `safeTransferFrom` or `safeBatchTransferFrom` of an ERC-1155 collection -/
  | safe1155 (batch : Bool) (tail id : Nat) (xs : List (Nat × Nat)) (src dst : Acct) (body : Prog) (answer : Answer)
      (next : Prog)
  /-- a call of the contract `dst`, which makes the calls `body` and then returns or reverts -/
  | call (dst : Acct) (body : Prog) (ok : Bool) (next : Prog)

/-- The operations of the ERC-721 precompile (erc721/src/lib.rs), made by the caller `me`, and the creation of an empty
collection for any account (nft/src/lib.rs:104-216). -/
def nftBy (me : Acct) : Nft.Op → Bool
  | .create _ initial _ _ _ _ => decide (initial = 0)
  | .mint w _ _ _ _ => decide (w = me)
  | .setOwner w _ _ => decide (w = me)
  | .setMaxIssuance w _ _ => decide (w = me)
  | .setPubMint w _ _ => decide (w = me)
  | .approve a _ _ _ => decide (a = me)
  | .approveAll a _ _ _ => decide (a = me)
  | .transferFrom a _ _ _ _ => decide (a = me)
  | .burnPrecompile a _ _ => decide (a = me)
  | _ => false

/-- The operations of the ERC-1155 precompile (erc1155/src/lib.rs) without callbacks, made by the caller `me`, and the
creation of a collection for any account (sft/src/lib.rs:99-190). -/
def sftBy (me : Acct) : Sft.Op → Bool
  | .createColl _ _ => true
  | .createToken w _ _ _ _ _ => decide (w = me)
  | .mint w _ _ _ => decide (w = me)
  | .setOwner w _ _ => decide (w = me)
  | .setMax w _ _ _ => decide (w = me)
  | .setPubMint w _ _ _ => decide (w = me)
  | .approveAll a _ _ _ => decide (a = me)
  | .safeBurn a _ _ _ => decide (a = me)
  | _ => false

/-- The operations of the marketplace precompile (marketplace/src/lib.rs:200-235), of the ERC-20 precompile (only
`transfer`) and of the token precompiles. -/
def opBy (me : Acct) : Op → Bool
  | .list _ w _ _ _ _ _ _ => decide (w = me)
  | .updatePrice w _ _ => decide (w = me)
  | .buy w _ => decide (w = me)
  | .bid w _ _ => decide (w = me)
  | .cancelSale w _ => decide (w = me)
  | .makeOffer w _ _ _ _ _ => decide (w = me)
  | .cancelOffer w _ => decide (w = me)
  | .acceptOffer w _ => decide (w = me)
  | .registerMarket w _ _ => decide (w = me)
  | .nft op => nftBy me op
  | .sft op => sftBy me op
  | .assets (.transfer _ w _ _) => decide (w = me)
  | _ => false

/-- The collection contract an operation is sent to, if it is sent to one. -/
def target : Op → Option (Bool × Nat)
  | .nft (.mint _ id _ _ _) => some (false, id)
  | .nft (.setOwner _ id _) => some (false, id)
  | .nft (.setMaxIssuance _ id _) => some (false, id)
  | .nft (.setPubMint _ id _) => some (false, id)
  | .nft (.approve _ _ id _) => some (false, id)
  | .nft (.approveAll _ _ id _) => some (false, id)
  | .nft (.transferFrom _ id _ _ _) => some (false, id)
  | .nft (.burnPrecompile _ id _) => some (false, id)
  | .sft (.createToken _ id _ _ _ _) => some (true, id)
  | .sft (.mint _ id _ _) => some (true, id)
  | .sft (.setOwner _ id _) => some (true, id)
  | .sft (.setMax _ id _ _) => some (true, id)
  | .sft (.setPubMint _ id _ _) => some (true, id)
  | .sft (.approveAll _ _ id _) => some (true, id)
  | .sft (.safeBurn _ id _ _) => some (true, id)
  | _ => none

/-- /repo/evm-precompiles/utils/src/precompile_set.rs:331-383: with `ForbidRecursion` a call is refused while another
call to the same address runs. The levels are kept for every address. -/
def free (busy : List Addr) (x : Addr) : Bool := !(busy.contains x)

/-- The nesting check for an operation. -/
def freeOp (busy : List Addr) (tail : Nat) (o : Op) : Bool :=
  match target o with
  | none => true
  | some x => free busy (x.1, x.2, tail)

/-- A failing call is reverted and its caller goes on. -/
def attempt (s : St) : Except Err St → St
  | .ok t => t
  | .error _ => s

/-- erc721 lib.rs:501-515: the NFT pallet is called in the name of `src`. -/
def give721 (c : Cfg) (s : St) (id n : Nat) (src dst : Acct) : Except Err St := step c s (.nft (.transfer src id [n] dst))

/-- erc1155 lib.rs:561-607 `do_safe_transfer`. -/
def give1155 (c : Cfg) (s : St) (me : Acct) (id : Nat) (xs : List (Nat × Nat)) (src dst : Acct) : Except Err St := do
  ensure (dst ≠ 0) "ERC1155: transfer to the zero address"
  step c s (.sft (.safeTransfer me id xs src dst))

/-- erc721 lib.rs:492-499, erc1155 lib.rs:445-453, 549-557: `output[..4]` panics if there are fewer than four bytes.
`none` is the panic, otherwise whether the receiver accepted. -/
def accepted (want : List Nat) : Option (List Nat) → Option Bool
  | none => some false
  | some b => if b.length < 4 then none else some (decide (b.take 4 = want))

/-- The state after a transfer whose receiver was called: `s` before the call, `t` after what the receiver did. -/
def finish (s : St) (r : Except Err St) (ok : Bool) : St := if ok = true then attempt s r else s

/-- Run the calls of the contract `me`; `none` means that the node panics. `busy` are the token contracts that wait for
a receiver. erc721 lib.rs:450-530 and erc1155 lib.rs:368-607. -/
def run (c : Cfg) (code : Acct → Bool) : Acct → List Addr → Prog → St → Option St
  | _, _, .stop, s => some s
  | me, busy, .op tail o next, s =>
    run c code me busy next (if opBy me o = true ∧ freeOp busy tail o = true then attempt s (step c s o) else s)
  | me, busy, .safe721 tail id n src dst body answer next, s =>
    if free busy (false, id, tail) = true ∧ Nft.isApprovedOrOwner s.nft id n me = true then
      if code dst = true then
        match run c code dst ((false, id, tail) :: busy) body s with
        | none => none
        | some t =>
          match accepted sel721 (answer (msg721 me src dst n)) with
          | none => none
          | some ok => run c code me busy next (finish s (give721 c t id n src dst) ok)
      else run c code me busy next (attempt s (give721 c s id n src dst))
    else run c code me busy next s
  | me, busy, .safe1155 batch tail id xs src dst body answer next, s =>
    if free busy (true, id, tail) = true then
      if code dst = true then
        match run c code dst ((true, id, tail) :: busy) body s with
        | none => none
        | some t =>
          match accepted (ask1155 batch me src xs).2 (answer (ask1155 batch me src xs).1) with
          | none => none
          | some ok => run c code me busy next (finish s (give1155 c t me id xs src dst) ok)
      else run c code me busy next (attempt s (give1155 c s me id xs src dst))
    else run c code me busy next s
  | me, busy, .call dst body ok next, s =>
    if code dst = true then
      match run c code dst busy body s with
      | none => none
      | some t => run c code me busy next (if ok = true then t else s)
    else run c code me busy next s

end Verif.Callback
