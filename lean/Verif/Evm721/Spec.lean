import Verif.Evm721.Model

/-!
# What an ERC-721 contract does

A contract in terms of EIP-721, EIP-165, `ERC721Burnable` and `Ownable`: who owns which token, who is approved, who owns
the contract. `Std` says what a successful call answers, changes and logs; it mentions nothing of the pallet.
-/

namespace Verif.Evm721

/-- A contract as its users see it. The zero address is `0`. -/
structure Tok where
  owner : Nat → Option Acct
  /-- zero if nobody is approved -/
  approved : Nat → Acct
  /-- owner, operator -/
  operator : Acct → Acct → Bool
  /-- the owner of the contract -/
  boss : Acct
  supply : Nat
  /-- the maximum supply, if set -/
  cap : Option Nat
  /-- minting is open to all -/
  pub : Bool
  /-- what minting one token costs others than the owner of the contract -/
  price : Option (AssetId × Nat)

/-- The number of tokens with a property. -/
def Count (p : Nat → Prop) (b : Nat) : Prop := ∃ S : Finset Nat, (∀ n, n ∈ S ↔ p n) ∧ S.card = b

/-- EIP-721: who may transfer (or burn) token `n` of `a`. -/
def May (t : Tok) (caller a : Acct) (n : Nat) : Prop :=
  caller = a ∨ t.operator a caller = true ∨ t.approved n = caller

/-- A function with one value changed. -/
def put {α : Type} (f : Nat → α) (n : Nat) (x : α) : Nat → α := fun m => if m = n then x else f m

/-- What a successful call by `caller` does: contract before and after, logs, answer. -/
def Std (t : Tok) (caller : Acct) (k : Call) (t' : Tok) (l : List Log) (o : Out) : Prop :=
  match k with
  | .balanceOf a => t' = t ∧ l = [] ∧ ∃ b, o = .num b ∧ Count (fun n => t.owner n = some a) b
  | .ownerOf n => t' = t ∧ l = [] ∧ ∃ a, o = .addr a ∧ t.owner n = some a
  | .getApproved n => t' = t ∧ l = [] ∧ o = .addr (t.approved n)
  | .isApprovedForAll a p => t' = t ∧ l = [] ∧ o = .flag (t.operator a p)
  | .totalSupply => t' = t ∧ l = [] ∧ o = .num t.supply ∧ Count (fun n => ∃ a, t.owner n = some a) t.supply
  | .owner => t' = t ∧ l = [] ∧ o = .addr t.boss
  | .ownedTokens a limit cursor => t' = t ∧ l = [] ∧ ∃ next total ns, ∃ L : List Nat, o = .page next total ns ∧
      Count (fun n => t.owner n = some a) total ∧
      L.Pairwise (· < ·) ∧ (∀ n, n ∈ L ↔ t.owner n = some a ∧ cursor ≤ n) ∧ ns = L.take (min limit 1000)
  | .supportsInterface w => t' = t ∧ l = [] ∧
      o = .flag (decide (w / 2 ^ 224 ∈ [0x01ffc9a7, 0x80ac58cd, 0x5b5e139f, 0x42966c68, 0x0e083076, 0x2a4288ec]))
  | .transferFrom src dst n => t.owner n = some src ∧ May t caller src n ∧
      t' = { t with
        owner := put t.owner n (some dst)
        approved := put t.approved n 0 } ∧
      l = [.transfer src dst n] ∧ o = .unit
  | .approve p n => ∃ a, t.owner n = some a ∧ (caller = a ∨ t.operator a caller = true) ∧
      t' = { t with approved := put t.approved n p } ∧ l = [.approval a p n] ∧ o = .unit
  | .setApprovalForAll p ok =>
      t' = { t with operator := put t.operator caller (put (t.operator caller) p ok) } ∧
      l = [.approvalForAll caller p ok] ∧ o = .unit
  | .burn n => ∃ a, t.owner n = some a ∧ May t caller a n ∧ 1 ≤ t.supply ∧
      t' = { t with
        owner := put t.owner n none
        approved := put t.approved n 0
        supply := t.supply - 1 } ∧
      l = [.transfer a 0 n] ∧ o = .unit
  | .mint dst q => (caller = t.boss ∨ t.pub = true) ∧ 0 < q ∧ ∃ first,
      (∀ n, first ≤ n → n < first + q → t.owner n = none) ∧ (∀ x, t.cap = some x → t.supply + q ≤ x) ∧
      t' = { t with
        owner := fun n => if first ≤ n ∧ n < first + q then some dst else t.owner n
        supply := t.supply + q } ∧
      l = (List.range' first q).map (fun n => .transfer 0 dst n) ∧ o = .unit
  | .setMaxSupply x => caller = t.boss ∧ t.cap = none ∧ t.supply ≤ x ∧ 0 < x ∧ t' = { t with cap := some x } ∧
      l = [.maxSupply x] ∧ o = .unit
  | .togglePublicMint on => caller = t.boss ∧ t' = { t with pub := on } ∧ l = [.publicMint on] ∧ o = .unit
  | .setMintFee asset fee => caller = t.boss ∧ ∃ a, asset = some a ∧
      t' = { t with price := if fee = 0 then none else some (a, fee) } ∧ l = [.mintFee a fee] ∧ o = .unit
  | .renounceOwnership => caller = t.boss ∧ t' = { t with boss := 0 } ∧ l = [.ownership t.boss 0] ∧ o = .flag true
  | .transferOwnership new => caller = t.boss ∧ t' = { t with boss := new } ∧ l = [.ownership t.boss new] ∧
      o = .flag true
  | .enableXls20 => caller = t.boss ∧ t.supply = 0 ∧ t' = t ∧ l = [.xls20Enabled] ∧ o = .flag true
  | .reRequestXls20 ns => t' = t ∧ l = ns.map .xls20Requested ∧ o = .flag true

/-- What somebody who only reads the logs makes of one: EIP-721 says that transfers from and to the zero address create and
destroy tokens, and that a transfer ends the approval. -/
def hear (t : Tok) : Log → Tok
  | .transfer src dst n => { t with
      owner := put t.owner n (if dst = 0 then none else some dst)
      approved := put t.approved n 0
      supply := t.supply + (if src = 0 then 1 else 0) - (if dst = 0 then 1 else 0) }
  | .approval _ p n => { t with approved := put t.approved n p }
  | .approvalForAll a p ok => { t with operator := put t.operator a (put (t.operator a) p ok) }
  | .ownership _ new => { t with boss := new }
  | .maxSupply x => { t with cap := some x }
  | .publicMint on => { t with pub := on }
  | .mintFee a fee => { t with price := if fee = 0 then none else some (a, fee) }
  | .xls20Enabled => t
  | .xls20Requested _ => t

/-- All logs of one contract, in order. -/
def hearAll (t : Tok) (id : Nat) (l : List (Nat × Log)) : Tok :=
  ((l.filter (fun p => decide (p.1 = id))).map Prod.snd).foldl hear t

/-- The contract of a collection. -/
def abs (s : Nft.St) (id : Nat) : Tok where
  owner := Nft.ownerOf s id
  approved := fun n => (s.approvals id n).getD 0
  operator := fun a b => s.forAll a id b
  boss := ((s.coll id).map Nft.Coll.owner).getD 0
  supply := ((s.coll id).map Nft.Coll.issuance).getD 0
  cap := (s.coll id).bind Nft.Coll.maxIss
  pub := (s.pubMint id).enabled
  price := (s.pubMint id).price

end Verif.Evm721
