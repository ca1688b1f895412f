import Verif.Vortex.Model

/-!
# What the vortex properties talk about
-/

namespace Verif.Vortex

/-- The amounts the event log reports as paid to `who` in distribution `id`. -/
def payouts (id : Nat) (who : Acct) : List Ev → List Nat
  | [] => []
  | .paid i w x :: es => if i = id ∧ w = who then x :: payouts id who es else payouts id who es
  | _ :: es => payouts id who es

/-- The amounts the event log reports as minted for distribution `id`. -/
def mints (id : Nat) : List Ev → List Nat
  | [] => []
  | .started i x :: es => if i = id then x :: mints id es else mints id es
  | _ :: es => mints id es

/-- The sum of everything the log reports as paid to anybody. -/
def paidSum : List Ev → Nat
  | [] => 0
  | .paid _ _ x :: es => x + paidSum es
  | _ :: es => paidSum es

/-- The sum of everything the log reports as paid to `who`. -/
def paidTo (who : Acct) : List Ev → Nat
  | [] => 0
  | .paid _ w x :: es => (if w = who then x else 0) + paidTo who es
  | _ :: es => paidTo who es

/-- `who` is registered in distribution `id`. -/
def Registered (s : St) (id : Nat) (who : Acct) : Prop := who ∈ s.keys id

instance (s : St) (id : Nat) (who : Acct) : Decidable (Registered s id who) := by
  unfold Registered; infer_instance

/-- The reward registered for `who`. -/
def reward (s : St) (id : Nat) (who : Acct) : Nat := (s.book id who).1

/-- The rewards of all registered accounts together. -/
def owed (s : St) (id : Nat) : Nat := ((s.keys id).map (reward s id)).sum

/-- The stages of a created distribution, in order; disabling is the last. -/
def stage : Status → Nat
  | .enabled => 0
  | .triggered => 1
  | .paying => 2
  | .done => 3
  | .disabled => 4

/-- Registrations whose rewards add up to a `u128` together with those registered before, and no other
pallet takes vortex out of the vault. -/
@[reducible] def Calm (c : Cfg) : St → Op → Prop
  | s, .register _ id rs => s.total id + (rs.map Prod.snd).sum < U128
  | _, .move a src _ _ => a = c.vtx → src ≠ c.vault
  | _, .burn a src _ => a = c.vtx → src ≠ c.vault
  | _, .redeem who _ _ => who ≠ c.vault
  | _, _ => True

/-- As `Calm`, and every account is registered at most once per distribution. -/
@[reducible] def Fresh (c : Cfg) : St → Op → Prop
  | s, .register _ id rs => s.total id + (rs.map Prod.snd).sum < U128 ∧ (rs.map Prod.fst).Nodup ∧
      ∀ r ∈ rs, r.1 ∉ s.keys id
  | _, .move a src _ _ => a = c.vtx → src ≠ c.vault
  | _, .burn a src _ => a = c.vtx → src ≠ c.vault
  | _, .redeem who _ _ => who ≠ c.vault
  | _, _ => True

end Verif.Vortex
