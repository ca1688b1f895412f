import Verif.Futurepass.Model

/-! # Futurepass: specification -/

namespace Verif.Futurepass

/-- How many futurepasses have been created. -/
def creations (s : St) : Nat :=
  s.events.countP (fun e => match e with
    | .created _ _ => true
    | _ => false)

/-- Nobody has the key of a futurepass address, and no contract lives at one: transactions are signed by other
accounts. -/
def NoKey (c : Cfg) (_ : St) : Op → Prop
  | .call who _ => ∀ n, who ≠ c.addr n
  | .evm who _ => ∀ n, who ≠ c.addr n
  | .contract who m _ _ => ∀ n, who ≠ c.addr n ∧ m ≠ c.addr n
  | .block => True
  | .endow _ _ => True

/-- Account `w` is a delegate of `fp` at some level. -/
def IsDelegate (s : St) (fp w : Acct) : Prop := ∃ d ∈ s.proxies fp, d.who = w

/-- Account `w` is a delegate of `fp` at the level of an owner. -/
def IsOwner (s : St) (fp w : Acct) : Prop := ∃ d ∈ s.proxies fp, d.who = w ∧ d.ty = .owner

/-- Account `d` agreed to be a delegate of `fp` with a signature that has not expired. -/
def Agreed (c : Cfg) (s : St) (fp d : Acct) : Prop :=
  ∃ sig deadline, s.now ≤ deadline ∧ c.recover sig (fp, d, .any, deadline) = some d

/-- Free and reserved balance together. -/
def wealth (s : St) (a : Acct) : Nat := s.free a + s.reserved a

/-- The account that signed the transaction. -/
def signer : Op → Option Acct
  | .call who _ => some who
  | .evm who _ => some who
  | .contract who _ _ _ => some who
  | .block => none
  | .endow _ _ => none

/-- The account as whose request the operation arrives: the signer, the contract for a call made by a contract, but
the caller of the contract for a delegate call made by it. -/
def principal : Op → Option Acct
  | .contract who m deleg _ => some (if deleg then who else m)
  | op => signer op

/-- The call contains no batch. A batch is the same as its parts one after the other. -/
def single : Call → Bool
  | .batch .. => false
  | .proxyExtrinsic _ call => single call
  | .proxy _ _ call => single call
  | _ => true

/-- The operation contains no batch. -/
def Single : Op → Prop
  | .call _ call => single call = true
  | _ => True

instance (s : St) (fp w : Acct) : Decidable (IsDelegate s fp w) := by unfold IsDelegate; infer_instance
instance (s : St) (fp w : Acct) : Decidable (IsOwner s fp w) := by unfold IsOwner; infer_instance

end Verif.Futurepass
