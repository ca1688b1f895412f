import Verif.Crowdsale.Model

/-!
# Vocabulary of the crowdsale properties

What participants are owed, and what the event log says about contributions, claims and redemptions. None of
this is used by the model.
-/

namespace Verif.Crowdsale

/-- Vouchers owed for a contribution of `x` to a sale of `supply` NFTs at `price` that raised `raised`: at the
soft cap price if the cap is not exceeded, otherwise a proportional share of all vouchers; one NFT is a million
vouchers. -/
def share (price raised supply x : Nat) : Nat :=
  if raised ≤ price * supply then x * 1000000 / price else x * 1000000 * supply / raised

/-- The sale an event is about. -/
def Ev.about : Ev → Nat
  | .created id _ => id
  | .opened id _ => id
  | .participated id _ _ => id
  | .closed id => id
  | .claimed id _ _ => id
  | .complete id _ => id
  | .redeemed id _ _ => id
  | .manual id => id
  | .proxied id => id

/-- Total contributed by `w` to sale `id` according to the log. -/
def put (id : Nat) (w : Acct) : List Ev → Nat
  | [] => 0
  | .participated i u x :: es => (if i = id ∧ u = w then x else 0) + put id w es
  | _ :: es => put id w es

/-- The voucher payments to `w` for sale `id` according to the log. -/
def got (id : Nat) (w : Acct) : List Ev → List Nat
  | [] => []
  | .claimed i u x :: es => if i = id ∧ u = w then x :: got id w es else got id w es
  | _ :: es => got id w es

/-- NFTs redeemed from sale `id` according to the log. -/
def redeemed (id : Nat) : List Ev → Nat
  | [] => 0
  | .redeemed i _ q :: es => (if i = id then q else 0) + redeemed id es
  | _ :: es => redeemed id es

/-- The sale accepts contributions. -/
def Sale.isOpen (i : Sale) : Prop := ∃ b, i.status = .enabled b

/-- The sale pays out vouchers. -/
def Sale.paying (i : Sale) : Prop := ∃ b t, i.status = .distributing b t

/-- All contributors have been handled. -/
def Sale.isOver (i : Sale) : Prop := ∃ b, i.status = .ended b

/-- The number of NFTs a sale sells: the maximum of its collection. -/
def Sells (s : St) (i : Sale) (m : Nat) : Prop := ∃ k, s.colls i.coll = some k ∧ k.max = some m

instance (i : Sale) : Decidable i.isOpen :=
  match h : i.status with
  | .enabled b => isTrue ⟨b, h⟩
  | .pending _ => isFalse (by rintro ⟨b, hb⟩; rw [h] at hb; cases hb)
  | .distributing _ _ => isFalse (by rintro ⟨b, hb⟩; rw [h] at hb; cases hb)
  | .ended _ => isFalse (by rintro ⟨b, hb⟩; rw [h] at hb; cases hb)
  | .failed _ => isFalse (by rintro ⟨b, hb⟩; rw [h] at hb; cases hb)

/-- Who signs an operation. -/
def signer : Op → Option Acct
  | .launch who .. => some who
  | .enable who _ => some who
  | .participate who _ _ => some who
  | .claim who _ => some who
  | .redeem who _ _ => some who
  | .proxy who _ _ => some who
  | .act who _ => some who
  | _ => none

/-- The account an asset's administrator burns from. -/
def seized : Op → Option Acct
  | .act _ (.burnAsset _ src _) => some src
  | _ => none

/-- Vault addresses are hashes: nobody signs for them. -/
def NoKey (c : Cfg) (_ : St) (op : Op) : Prop := ∀ w, signer op = some w → ∀ id, w ≠ c.vault id

/-- Nobody signs for a vault, and no asset administrator burns what a vault holds. -/
def Calm (c : Cfg) (s : St) (op : Op) : Prop :=
  NoKey c s op ∧ ∀ w, seized op = some w → ∀ id, w ≠ c.vault id

/-- Every sale lasts at least one block, and the block counter stays clear of its upper end. -/
def Timed (c : Cfg) (s : St) (op : Op) : Prop :=
  Calm c s op ∧ (∀ who pay coll price v, op ≠ .launch who pay coll price 0 v) ∧ s.now + 2 < U32

/-- Only collections that never minted, can mint, and are below the size limit are put on sale. -/
def Fresh (c : Cfg) (s : St) (op : Op) : Prop :=
  Calm c s op ∧ ∀ who pay coll price dur v, op = .launch who pay coll price dur v → ∀ k, s.colls coll = some k →
    k.next = 0 ∧ k.mintable = true ∧ ∀ m, k.max = some m → m < c.maxTokens ∧ m < U32

end Verif.Crowdsale
