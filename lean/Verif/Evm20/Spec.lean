import Verif.Evm20.Model

/-!
# What an ERC-20 contract does

A contract in terms of EIP-20: the supply, who has how much, and who may take how much of whom. `Std` says what a successful
call answers, changes and logs, and `Allowed` which calls are to succeed; they mention nothing of the pallets.
-/

namespace Verif.Evm20

/-- A contract as its users see it: what `totalSupply`, `balanceOf` and `allowance` answer. -/
structure Tok where
  supply : Nat
  bal : Acct → Nat
  /-- owner, spender -/
  allow : Acct → Acct → Nat

/-- Balances after a transfer. -/
def moved (b : Acct → Nat) (src dst : Acct) (x : Nat) : Acct → Nat := fun w =>
  if src = dst then b w else if w = src then b w - x else if w = dst then b w + x else b w

/-- Allowances with one changed. -/
def granted (f : Acct → Acct → Nat) (o p : Acct) (x : Nat) : Acct → Acct → Nat := fun o' p' =>
  if o' = o ∧ p' = p then x else f o' p'

/-- What a successful call by `caller` does: contract before and after, logs, answer. -/
def Std (t : Tok) (caller : Acct) (k : Call) (t' : Tok) (l : List Log) (o : Out) : Prop :=
  match k with
  | .totalSupply => t' = t ∧ l = [] ∧ o = .num t.supply
  | .balanceOf w => t' = t ∧ l = [] ∧ o = .num (t.bal w)
  | .allowance a p => t' = t ∧ l = [] ∧ o = .num (t.allow a p)
  | .transfer dst x => x ≤ t.bal caller ∧ t' = { t with bal := moved t.bal caller dst x } ∧
      l = [.transfer caller dst x] ∧ o = .flag true
  | .approve p x => t' = { t with allow := granted t.allow caller p x } ∧ l = [.approval caller p x] ∧ o = .flag true
  | .transferFrom src dst x => x ≤ t.bal src ∧ x ≤ t.allow src caller ∧
      t' = { t with
        bal := moved t.bal src dst x
        allow := granted t.allow src caller (t.allow src caller - x) } ∧
      l = [.transfer src dst x] ∧ o = .flag true

/-- The calls that are to succeed. -/
def Allowed (t : Tok) (caller : Acct) : Call → Prop
  | .transfer _ x => x ≤ t.bal caller
  | .transferFrom src _ x => x ≤ t.bal src ∧ x ≤ t.allow src caller
  | _ => True

/-- The amount a call names. -/
def amount : Call → Nat
  | .transfer _ x => x
  | .approve _ x => x
  | .transferFrom _ _ x => x
  | _ => 0

/-- Who receives. -/
def receiver : Call → Option Acct
  | .transfer dst _ => some dst
  | .transferFrom _ dst _ => some dst
  | _ => none

/-- What somebody who only reads the logs says an account got, less what it gave. -/
def net (w : Acct) : List Log → Int
  | [] => 0
  | .transfer src dst x :: l => (if dst = w then (x : Int) else 0) - (if src = w then (x : Int) else 0) + net w l
  | .approval _ _ _ :: l => net w l

/-- What an `Approval` says about an owner and a spender. -/
def hearApproval (o p : Acct) (n : Nat) : Log → Nat
  | .approval o' p' x => if o' = o ∧ p' = p then x else n
  | .transfer _ _ _ => n

/-- The amount of the last `Approval` of an owner and a spender, zero if there is none. -/
def lastApproval (o p : Acct) (l : List Log) : Nat := l.foldl (hearApproval o p) 0

/-- The logs of one contract. -/
def logsOf (a : AssetId) (l : List (AssetId × Log)) : List Log := (l.filter (fun g => decide (g.1 = a))).map Prod.snd

/-- The contract of an asset. -/
def abs (s : St) (a : AssetId) : Tok where
  supply := (s.asset a).supply
  bal := fun w => (s.asset a).bal w - (s.asset a).lock w
  allow := fun o p => (s.allow o a p).getD 0

/-- An account with tokens, of which some can be moved: not frozen. -/
def Free (s : St) (a : AssetId) (w : Acct) : Prop := (s.asset a).lock w ≤ (s.asset a).bal w

end Verif.Evm20
