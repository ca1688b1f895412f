import Verif.Evm1155.Model

/-!
# What an ERC-1155 contract does

A contract in terms of EIP-1155, `ERC1155Burnable`, `ERC1155Supply` and `Ownable`: balances, operators, supplies. `Std` says
what a successful call answers, changes and logs; it mentions nothing of the pallet.
-/

namespace Verif.Evm1155

/-- A contract as its users see it. The zero address is `0`. -/
structure Tok where
  /-- token, account -/
  bal : Nat → Acct → Nat
  supply : Nat → Nat
  /-- the token exists -/
  made : Nat → Bool
  /-- owner, operator -/
  operator : Acct → Acct → Bool
  /-- the owner of the contract -/
  boss : Acct
  /-- the maximum supply, if set -/
  cap : Nat → Option Nat
  /-- minting is open to all -/
  pub : Nat → Bool
  /-- what minting costs others than the owner of the contract -/
  price : Nat → Option (AssetId × Nat)

/-- The amount of token `n` in a batch. -/
def amountOf (xs : List (Nat × Nat)) (n : Nat) : Nat := ((xs.filter (fun x => decide (x.1 = n))).map Prod.snd).sum

/-- Balances after a batch has been taken from an account. -/
def take (b : Nat → Acct → Nat) (src : Acct) (xs : List (Nat × Nat)) : Nat → Acct → Nat :=
  fun n a => if a = src then b n a - amountOf xs n else b n a

/-- Balances after a batch has been given to an account. -/
def give (b : Nat → Acct → Nat) (dst : Acct) (xs : List (Nat × Nat)) : Nat → Acct → Nat :=
  fun n a => if a = dst then b n a + amountOf xs n else b n a

/-- A function with one value changed. -/
def put {α : Type} (f : Nat → α) (n : Nat) (x : α) : Nat → α := fun m => if m = n then x else f m

/-- EIP-1155: who may move tokens of `a`. -/
def May (t : Tok) (caller a : Acct) : Prop := caller = a ∨ t.operator a caller = true

/-- A transfer of a batch. -/
def Transfer (t : Tok) (caller src dst : Acct) (xs : List (Nat × Nat)) (t' : Tok) : Prop :=
  May t caller src ∧ dst ≠ 0 ∧ (∀ n, amountOf xs n ≤ t.bal n src) ∧ (∀ x ∈ xs, t.made x.1 = true) ∧
  t' = { t with bal := give (take t.bal src xs) dst xs }

/-- Destruction of a batch. -/
def Burn (t : Tok) (caller a : Acct) (xs : List (Nat × Nat)) (t' : Tok) : Prop :=
  May t caller a ∧ (∀ n, amountOf xs n ≤ t.bal n a) ∧ (∀ x ∈ xs, t.made x.1 = true) ∧
  t' = { t with
    bal := take t.bal a xs
    supply := fun n => t.supply n - amountOf xs n }

/-- Creation of a batch: by the owner of the contract, or of tokens open to all. -/
def Mint (t : Tok) (caller dst : Acct) (xs : List (Nat × Nat)) (t' : Tok) : Prop :=
  (∀ x ∈ xs, caller = t.boss ∨ t.pub x.1 = true) ∧ (∀ x ∈ xs, t.made x.1 = true) ∧
  (∀ n m, t.cap n = some m → t.supply n + amountOf xs n ≤ m) ∧
  t' = { t with
    bal := give t.bal dst xs
    supply := fun n => t.supply n + amountOf xs n }

/-- What a successful call by `caller` does: contract before and after, logs, answer. -/
def Std (t : Tok) (caller : Acct) (k : Call) (t' : Tok) (l : List Log) (o : Out) : Prop :=
  match k with
  | .balanceOf a n => t' = t ∧ l = [] ∧ o = .num (t.bal n a)
  | .balanceOfBatch as ns => t' = t ∧ l = [] ∧ ∃ bs : List Nat, o = .nums bs ∧ bs.length = as.length ∧
      bs.length = ns.length ∧ ∀ i (h : i < bs.length) (h1 : i < as.length) (h2 : i < ns.length), bs[i] = t.bal ns[i] as[i]
  | .isApprovedForAll a p => t' = t ∧ l = [] ∧ o = .flag (t.operator a p)
  | .totalSupply n => t' = t ∧ l = [] ∧ o = .num (t.supply n)
  | .exist n => t' = t ∧ l = [] ∧ o = .flag (t.made n)
  | .owner => t' = t ∧ l = [] ∧ o = .addr t.boss
  | .setApprovalForAll p ok =>
      t' = { t with operator := put t.operator caller (put (t.operator caller) p ok) } ∧
      l = [.approvalForAll caller p ok] ∧ o = .unit
  | .transferFrom src dst n q => Transfer t caller src dst [(n, q)] t' ∧ l = [.single caller src dst n q] ∧ o = .unit
  | .batchTransferFrom src dst ns qs => ns.length = qs.length ∧ Transfer t caller src dst (ns.zip qs) t' ∧
      l = [.batch caller src dst ns qs] ∧ o = .unit
  | .burn a n q => Burn t caller a [(n, q)] t' ∧ l = [.single caller a 0 n q] ∧ o = .unit
  | .burnBatch a ns qs => ns.length = qs.length ∧ Burn t caller a (ns.zip qs) t' ∧ l = [.batch caller a 0 ns qs] ∧
      o = .unit
  | .mint dst n q => Mint t caller dst [(n, q)] t' ∧ l = [.single caller 0 dst n q] ∧ o = .unit
  | .mintBatch dst ns qs => ns.length = qs.length ∧ Mint t caller dst (ns.zip qs) t' ∧ l = [.batch caller 0 dst ns qs] ∧
      o = .unit
  | .createToken initial max rcv => caller = t.boss ∧ (max = 0 ∨ initial ≤ max) ∧ ∃ n, t.made n = false ∧
      t' = { t with
        bal := give t.bal (if rcv = 0 then caller else rcv) [(n, initial)]
        supply := put t.supply n initial
        made := put t.made n true
        cap := put t.cap n (if max = 0 then none else some max) } ∧
      l = [.created n] ∧ o = .num n
  | .setMaxSupply n m => caller = t.boss ∧ t.made n = true ∧ t.cap n = none ∧ t.supply n ≤ m ∧ 0 < m ∧
      t' = { t with cap := put t.cap n (some m) } ∧ l = [.maxSupply m] ∧ o = .unit
  | .togglePublicMint n on => caller = t.boss ∧ t' = { t with pub := put t.pub n on } ∧ l = [.publicMint n on] ∧ o = .unit
  | .setMintFee n asset fee => caller = t.boss ∧ ∃ a, asset = some a ∧
      t' = { t with price := put t.price n (if fee = 0 then none else some (a, fee)) } ∧ l = [.mintFee n a fee] ∧ o = .unit
  | .renounceOwnership => caller = t.boss ∧ t' = { t with boss := 0 } ∧ l = [.ownership t.boss 0] ∧ o = .flag true
  | .transferOwnership new => caller = t.boss ∧ t' = { t with boss := new } ∧ l = [.ownership t.boss new] ∧
      o = .flag true

/-- What somebody who only reads the logs makes of a transfer: EIP-1155 says that transfers from and to the zero address
create and destroy tokens. -/
def heard (t : Tok) (src dst : Acct) (xs : List (Nat × Nat)) : Tok := { t with
  bal := if dst = 0 then (if src = 0 then t.bal else take t.bal src xs)
    else give (if src = 0 then t.bal else take t.bal src xs) dst xs
  supply := fun n => t.supply n + (if src = 0 then amountOf xs n else 0) - (if dst = 0 then amountOf xs n else 0) }

/-- The same of any log. That of a maximum supply does not say of which token. -/
def hear (t : Tok) : Log → Tok
  | .single _ src dst n q => heard t src dst [(n, q)]
  | .batch _ src dst ns qs => heard t src dst (ns.zip qs)
  | .approvalForAll a p ok => { t with operator := put t.operator a (put (t.operator a) p ok) }
  | .ownership _ new => { t with boss := new }
  | .created n => { t with made := put t.made n true }
  | .maxSupply _ => t
  | .publicMint n on => { t with pub := put t.pub n on }
  | .mintFee n a fee => { t with price := put t.price n (if fee = 0 then none else some (a, fee)) }

/-- All logs of one contract, in order. -/
def hearAll (t : Tok) (id : Nat) (l : List (Nat × Log)) : Tok :=
  ((l.filter (fun p => decide (p.1 = id))).map Prod.snd).foldl hear t

/-- The contract but for the maximum supplies. -/
def uncapped (t : Tok) : Tok := { t with cap := fun _ => none }

/-- The contract of a collection. -/
def abs (s : Sft.St) (id : Nat) : Tok where
  bal := fun n a => ((s.tok id n).map (fun t => Sft.freeOf t.owned a)).getD 0
  supply := fun n => ((s.tok id n).map Sft.Tok.iss).getD 0
  made := fun n => (s.tok id n).isSome
  operator := fun a b => s.forAll a id b
  boss := ((s.coll id).map Sft.Coll.owner).getD 0
  cap := fun n => (s.tok id n).bind Sft.Tok.max
  pub := fun n => (s.pubMint id n).enabled
  price := fun n => (s.pubMint id n).price

end Verif.Evm1155
