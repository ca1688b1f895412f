import Verif.Sft.Model

/-!
# The events of the SFT pallet

What /repo/pallet/sft/src/{lib,impls}.rs deposits with `deposit_event`, per call, as a function of the state the call finds.
Events of a call that fails are rolled back with it. Left out: `MintFeePaid`, which tells nothing about tokens or collections,
and `NameSet` and `BaseUriSet`, because names and metadata are not part of this model.
-/

namespace Verif.Sft

open Verif.Nft (Flags PubMint)

/-- lib.rs:127-201 `Event`. `MintPriceSet` carries the asset and the price as two options that are both present or both absent
(lib.rs:480-484), here one option of a pair. The origin of a collection is not part of this model. -/
inductive Ev where
  | create (id : Nat) (owner : Acct) (royalties : Option (List (Acct × Nat)))
  | tokenCreate (id n initial : Nat) (max : Option Nat) (owner : Acct)
  | mint (id : Nat) (ns qs : List Nat) (owner : Acct)
  | transfer (old : Acct) (id : Nat) (ns qs : List Nat) (new : Acct)
  | burn (id : Nat) (ns qs : List Nat) (owner : Acct)
  | ownerSet (id : Nat) (new : Acct)
  | maxIssuance (id n m : Nat)
  | royalties (id : Nat) (r : List (Acct × Nat))
  | toggle (id n : Nat) (on : Bool)
  | price (id n : Nat) (p : Option (AssetId × Nat))
  | flags (id : Nat) (f : Flags)
deriving DecidableEq

/-- The ways into the pallet, told apart as far as their events differ. -/
inductive Call where
  | act (op : Op)
  /-- lib.rs:423-452 `toggle_public_mint` -/
  | toggle (who : Acct) (id n : Nat) (on : Bool)
  /-- lib.rs:456-488 `set_mint_fee` -/
  | setFee (who : Acct) (id n : Nat) (p : Option (AssetId × Nat))

/-- The operation a call comes down to. -/
def Call.op (s : St) : Call → Op
  | .act op => op
  | .toggle w id n b => .setPubMint w id n { s.pubMint id n with enabled := b }
  | .setFee w id n p => .setPubMint w id n { s.pubMint id n with price := p }

/-- `Op.setPubMint` stands for the two calls above and is no call of its own. -/
def Call.real : Call → Bool
  | .act (.setPubMint _ _ _ _) => false
  | _ => true

/-- A call. -/
def call (c : Cfg) (s : St) (k : Call) : Except Err St := do
  ensure (k.real = true) "not a call"
  step c s (k.op s)

/-- impls.rs:438-444 `unzip_serial_numbers`. -/
def unzip (xs : List (Nat × Nat)) : List Nat × List Nat := (xs.map Prod.fst, xs.map Prod.snd)

/-- impls.rs:68-75: the event of `do_create_collection`. -/
def createEv (c : Cfg) (s : St) (owner : Acct) (r : Option (List (Acct × Nat))) : Option Ev :=
  (Nft.nextAssetUuid s.nextId c.chainId).map (fun id => .create id owner r)

/-- impls.rs:128-134: the event of `do_create_token`. -/
def tokenEv (s : St) (who : Acct) (id initial : Nat) (max : Option Nat) (owner : Option Acct) : Option Ev :=
  (s.coll id).map (fun k => .tokenCreate id k.next initial max (owner.getD who))

/-- The event of a successful operation: impls.rs:236-237, 273-280, 312-318, 333, 363, 431, lib.rs:513. -/
def opEv (c : Cfg) (s : St) : Op → Option Ev
  | .createColl o r => createEv c s o r
  | .takeUuid => none
  | .createToken w id i m o _ => tokenEv s w id i m o
  | .mint w id xs o => some (.mint id (unzip xs).1 (unzip xs).2 (o.getD w))
  | .transfer w id xs new => some (.transfer w id (unzip xs).1 (unzip xs).2 new)
  | .burn w id xs => some (.burn id (unzip xs).1 (unzip xs).2 w)
  | .setOwner _ id new => some (.ownerSet id new)
  | .setMax _ id n m => some (.maxIssuance id n m)
  | .setRoyalties _ id r => some (.royalties id r)
  | .setPubMint _ _ _ _ => none
  | .setFlags _ id f => some (.flags id f)
  | .reserve _ _ _ _ => none
  | .unreserve _ _ _ _ => none
  | .approveAll _ _ _ _ => none
  | .safeTransfer _ id xs src dst => some (.transfer src id (unzip xs).1 (unzip xs).2 dst)
  | .safeBurn _ id xs src => some (.burn id (unzip xs).1 (unzip xs).2 src)
  | .ledger _ => none

/-- The event of a successful call. -/
def event (c : Cfg) (s : St) : Call → Option Ev
  | .act op => opEv c s op
  | .toggle _ id n b => some (.toggle id n b)
  | .setFee _ id n p => some (.price id n p)

/-- From `s` to `t` by any calls, depositing the events `log`. -/
inductive Told (c : Cfg) (s : St) : St → List Ev → Prop where
  | refl : Told c s s []
  | step {t u : St} {log : List Ev} {k : Call} : Told c s t log → call c t k = .ok u →
      Told c s u (log ++ (event c t k).toList)

/-- Run a list of calls; rejected ones change nothing and deposit nothing. -/
def run (c : Cfg) : List Call → St → St × List Ev
  | [], s => (s, [])
  | k :: ks, s =>
    match call c s k with
    | .ok t => ((run c ks t).1, (event c s k).toList ++ (run c ks t).2)
    | .error _ => run c ks s

end Verif.Sft
