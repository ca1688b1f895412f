import Verif.Nft.Model

/-!
# The events of the NFT pallet

What /repo/pallet/nft/src/{lib,impls}.rs deposits with `deposit_event`, per call, as a function of the state the call finds,
and the one event of the XLS-20 pallet that reports a change made in the NFT pallet. Events of a call that fails are rolled
back with it. Left out: `MintFeePaid`, which tells nothing about tokens or collections, and `NameSet` and `BaseUriSet`, because
names and metadata are not part of this model.
-/

namespace Verif.Nft

/-- lib.rs:168-231 `Event`; /repo/pallet/xls20/src/lib.rs:193 `Xls20CompatibilityEnabled`. `MintPriceSet` carries the asset
and the price as two options that are both present or both absent (lib.rs:493-497), here one option of a pair. -/
inductive Ev where
  | create (id initial : Nat) (maxIss : Option Nat) (owner : Acct) (royalties : Option (List (Acct × Nat))) (origin : Chain)
      (xls20 : Bool)
  | toggle (id : Nat) (on : Bool)
  | mint (id first last : Nat) (owner : Acct)
  | price (id : Nat) (p : Option (AssetId × Nat))
  | bridgedMint (id : Nat) (ns : List Nat) (owner : Acct)
  | ownerSet (id : Nat) (new : Acct)
  | maxIssuance (id m : Nat)
  | royalties (id : Nat) (r : List (Acct × Nat))
  | transfer (old : Acct) (id : Nat) (ns : List Nat) (new : Acct)
  | burn (id n : Nat)
  | claimed (new : Acct) (id : Nat)
  | flags (id : Nat) (f : Flags)
  | xls20 (id : Nat)
deriving DecidableEq

/-- The ways into the pallet, told apart as far as their events differ. -/
inductive Call where
  /-- an operation of `Model.lean`; a burn is that of the extrinsic or of the ERC-721 contract -/
  | act (op : Op)
  /-- lib.rs:439-465 `toggle_public_mint` -/
  | toggle (who : Acct) (id : Nat) (on : Bool)
  /-- lib.rs:469-505 `set_mint_fee` -/
  | setFee (who : Acct) (id : Nat) (p : Option (AssetId × Nat))
  /-- a bridge burns a token that is withdrawn: /repo/pallet/nft-peg/src/lib.rs:435 and
  /repo/pallet/xrpl-bridge/src/lib.rs:1394 call `do_burn`, not the extrinsic -/
  | bridgeBurn (who : Acct) (id n : Nat)

/-- The operation a call comes down to. -/
def Call.op (s : St) : Call → Op
  | .act op => op
  | .toggle w id b => .setPubMint w id { s.pubMint id with enabled := b }
  | .setFee w id p => .setPubMint w id { s.pubMint id with price := p }
  | .bridgeBurn w id n => .burn w id n

/-- `Op.setPubMint` stands for the two calls above and is no call of its own. -/
def Call.real : Call → Bool
  | .act (.setPubMint _ _ _) => false
  | _ => true

/-- A call. -/
def call (c : Cfg) (s : St) (k : Call) : Except Err St := do
  ensure (k.real = true) "not a call"
  step c s (k.op s)

/-- impls.rs:459-469: the event of `do_create_collection`. It does not name the receiver of the first tokens. -/
def createEv (c : Cfg) (s : St) (owner : Acct) (initial : Nat) (maxIss : Option Nat)
    (royalties : Option (List (Acct × Nat))) (origin : Chain) (xls20 : Bool) : Option Ev :=
  (nextAssetUuid s.nextId c.chainId).map (fun id => .create id initial maxIss owner royalties origin xls20)

/-- lib.rs:576-581 `mint`. -/
def mintEv (s : St) (id q : Nat) (owner : Acct) : Option Ev :=
  (s.coll id).map (fun k => .mint id k.next (k.next + q - 1) owner)

/-- impls.rs:139-196 `mint_bridged_token`: no event where it stops early. -/
def bridgedEv (c : Cfg) (s : St) (id : Nat) (who : Acct) (ns : List Nat) : Option Ev :=
  if ns = [] then none
  else match s.coll id with
    | none => none
    | some k => if c.maxTokens < (trim k ns).length then none else some (.bridgedMint id (trim k ns) who)

/-- The event of a successful operation. -/
def opEv (c : Cfg) (s : St) : Op → Option Ev
  | .create o i m _ r x => createEv c s o i m r .root x
  | .createBridged o g x => createEv c s o 0 none none g x
  | .mint w id q t _ => mintEv s id q (t.getD w)
  | .bridgedMint id w ns => bridgedEv c s id w ns
  | .transfer w id ns new => some (.transfer w id ns new)
  | .burn _ id n => some (.burn id n)
  | .setOwner _ id new => some (.ownerSet id new)
  | .claimUnowned id new => some (.claimed new id)
  | .setMaxIssuance _ id m => some (.maxIssuance id m)
  | .setPubMint _ _ _ => none
  | .setRoyalties _ id r => some (.royalties id r)
  | .setFlags _ id f => some (.flags id f)
  | .enableXls20 _ id => some (.xls20 id)
  | .takeUuid => none
  | .setLock _ _ _ _ => none
  | .removeLock _ _ => none
  | .approve _ _ _ _ => none
  | .removeApproval _ _ _ => none
  | .approveAll _ _ _ _ => none
  | .transferFrom _ id n src dst => some (.transfer src id [n] dst)
  | .burnPrecompile _ id n => some (.burn id n)
  | .ledger _ => none

/-- The event of a successful call. -/
def event (c : Cfg) (s : St) : Call → Option Ev
  | .act op => opEv c s op
  | .toggle _ id b => some (.toggle id b)
  | .setFee _ id p => some (.price id p)
  | .bridgeBurn _ _ _ => none

/-- From `s` to `t` by calls that satisfy `G`, depositing the events `log`. -/
inductive Told (c : Cfg) (G : St → Call → Prop) (s : St) : St → List Ev → Prop where
  | refl : Told c G s s []
  | step {t u : St} {log : List Ev} {k : Call} : Told c G s t log → G t k → call c t k = .ok u →
      Told c G s u (log ++ (event c t k).toList)

/-- Run a list of calls; rejected ones change nothing and deposit nothing. -/
def run (c : Cfg) : List Call → St → St × List Ev
  | [], s => (s, [])
  | k :: ks, s =>
    match call c s k with
    | .ok t => ((run c ks t).1, (event c s k).toList ++ (run c ks t).2)
    | .error _ => run c ks s

end Verif.Nft
