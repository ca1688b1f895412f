import Verif.Erc20Peg.Model

/-!
# Vocabulary of the ERC-20 bridge properties
-/

namespace Verif.Erc20Peg

/-- The token of a payment. -/
def Payment.token : Payment → Addr
  | .deposit d => d.token
  | .withdrawal _ w => w.token

/-- The amount of a payment. -/
def Payment.amount : Payment → Nat
  | .deposit d => d.amount
  | .withdrawal _ w => w.amount

/-- What a list of transfers says about token `t`. -/
def sumFor {α : Type} (tok : α → Addr) (amt : α → Nat) (l : List α) (t : Addr) : Nat :=
  (l.map (fun x => if tok x = t then amt x else 0)).sum

/-- Total of the accepted deposits of `t`. -/
def depositedOf (s : St) (t : Addr) : Nat := sumFor Dep.token Dep.amount s.accepted t

/-- Total of the delayed deposits of `t` that failed. -/
def failedOf (s : St) (t : Addr) : Nat := sumFor Dep.token Dep.amount s.failed t

/-- Total of the withdrawals of `t` sent to Ethereum. -/
def sentOf (s : St) (t : Addr) : Nat := sumFor (fun m => m.2.token) (fun m => m.2.amount) s.outbox t

/-- The amount of `t` that waiting payment number `i` is about. -/
def waiting (s : St) (t : Addr) (i : Nat) : Nat :=
  match s.payments i with
  | some p => if p.token = t then p.amount else 0
  | none => 0

/-- What the money properties assume about a history: the bridge account does not itself use the bridge, payment ids do not
run out, root leaves the token mappings alone, and other pallets do not mint or burn bridged assets (nor give supply to ids
not handed out yet) or touch the bridge's native balance. -/
@[reducible] def Env (c : Cfg) (s : St) : Op → Prop
  | .withdraw who _ _ _ _ => who ≠ c.peg ∧ s.nextId + 1 < U64
  | .deposit _ d => d.ben ≠ c.peg ∧ s.nextId + 1 < U64
  | .setMap _ _ => False
  | .ledger L => L.Sound ∧ L.bal c.native c.peg = s.ledger.bal c.native c.peg ∧
      (∀ t a, s.toAsset t = some a → L.iss a = s.ledger.iss a) ∧
      (∀ i a, s.nextAsset ≤ i → i ≤ 4194303 → newAsset c i = some a → L.iss a = s.ledger.iss a)
  | _ => True

end Verif.Erc20Peg
