import Verif.Ledger

/-!
# Model of the imbalances of assets

/repo/pallet/assets-ext/src/imbalances.rs, and the functions of `AssetCurrency` that make them
(/repo/pallet/assets-ext/src/impls.rs:95-252). A program that holds imbalances is a list of operations on them; an imbalance is
consumed by what uses it, as in Rust. The native asset, for which `AssetCurrency` is not instantiated, is left out.
-/

namespace Verif.Imbalance

/-- imbalances.rs:41-46 and 73-78. -/
structure Imb where
  /-- `PositiveImbalance` or `NegativeImbalance` -/
  pos : Bool
  amount : Nat
  asset : Nat
deriving DecidableEq

/-- imbalances.rs:48-56, 80-88 `default`, 109-111, 162-164 `zero`. -/
def zero (pos : Bool) : Imb := ⟨pos, 0, 0⟩

/-- imbalances.rs:119-126 and 172-179 `split`. -/
def split (x : Imb) (amount : Nat) : Imb × Imb :=
  (⟨x.pos, min x.amount amount, x.asset⟩, ⟨x.pos, x.amount - min x.amount amount, x.asset⟩)

/-- imbalances.rs:127-136 and 180-189 `merge`, `subsume`: the asset of the second is not looked at. -/
def merge (x y : Imb) : Imb := ⟨x.pos, min (x.amount + y.amount) (U128 - 1), x.asset⟩

/-- imbalances.rs:137-147 and 190-200 `offset`. -/
def offset (x y : Imb) : Imb :=
  if y.amount ≤ x.amount then ⟨x.pos, x.amount - y.amount, x.asset⟩ else ⟨!x.pos, y.amount - x.amount, x.asset⟩

/-- The tables of `pallet-assets` (dependency) and the imbalances that are alive. -/
structure St where
  /-- balances of pallet-assets -/
  bal : Nat → Nat → Nat
  /-- their supply -/
  iss : Nat → Nat
  /-- whether an asset exists -/
  known : Nat → Bool
  /-- the imbalances a program holds -/
  held : List Imb

/-- imbalances.rs:205-220 and 222-237 `drop`; `set_total_issuance` does nothing for assets that do not exist. -/
def dropImb (s : St) (x : Imb) : St :=
  if s.known x.asset = true then
    { s with iss := upd s.iss x.asset (if x.pos = true then min (s.iss x.asset + x.amount) (U128 - 1) else s.iss x.asset - x.amount) }
  else s

/-- impls.rs:151-177 `withdraw`; `keep` asks that the account stays. The minimum balance is one (runtime). `decrease_balance` of
pallet-assets looks at nothing if nothing is withdrawn. -/
def withdraw (s : St) (a who v : Nat) (keep : Bool) : Except Err (St × Imb) :=
  if v = 0 then pure (s, ⟨false, 0, a⟩) else do
    ensure (s.known a = true) "Unknown"
    ensure (v + (if keep = true then 1 else 0) ≤ s.bal a who) "BalanceLow"
    pure ({ s with bal := upd s.bal a (upd (s.bal a) who (s.bal a who - v)) }, ⟨false, v, a⟩)

/-- impls.rs:181-196 `deposit_into_existing`; `increase_balance` checks that the supply and the balance do not overflow. -/
def deposit (s : St) (a who v : Nat) : Except Err (St × Imb) :=
  if v = 0 then pure (s, ⟨true, 0, a⟩) else do
    ensure (s.known a = true) "Unknown"
    ensure (s.iss a + v < U128 ∧ s.bal a who + v < U128) "Overflow"
    pure ({ s with bal := upd s.bal a (upd (s.bal a) who (s.bal a who + v)) }, ⟨true, v, a⟩)

/-- impls.rs:206-208 `deposit_creating`. -/
def depositCreating (s : St) (a who v : Nat) : St × Imb :=
  match deposit s a who v with
  | .ok r => r
  | .error _ => (s, zero true)

/-- Take an imbalance from those that are held. -/
def pull : List Imb → Nat → Option (Imb × List Imb)
  | [], _ => none
  | x :: l, 0 => some (x, l)
  | x :: l, n + 1 => match pull l n with
    | none => none
    | some (y, r) => some (y, x :: r)

/-- What a program can do with `AssetCurrency` and its imbalances: the functions above. -/
inductive Op where
  | withdraw (a who v : Nat) (keep : Bool)
  | deposit (a who v : Nat)
  | depositCreating (a who v : Nat)
  | zero (pos : Bool)
  | split (i amount : Nat)
  | merge (i j : Nat)
  | offset (i j : Nat)
  | drop (i : Nat)

/-- Each case is the function of that name above, or written out. -/
def step (s : St) : Op → Except Err St
  | .withdraw a w v k => do
    let r ← withdraw s a w v k
    pure { r.1 with held := r.2 :: s.held }
  | .deposit a w v => do
    let r ← deposit s a w v
    pure { r.1 with held := r.2 :: s.held }
  | .depositCreating a w v => .ok { (depositCreating s a w v).1 with held := (depositCreating s a w v).2 :: s.held }
  | .zero p => .ok { s with held := zero p :: s.held }
  | .split i v => do
    let r ← okOr (pull s.held i) "no such variable"
    pure { s with held := (split r.1 v).1 :: (split r.1 v).2 :: r.2 }
  | .merge i j => do
    let r ← okOr (pull s.held i) "no such variable"
    let t ← okOr (pull r.2 j) "no such variable"
    ensure (r.1.pos = t.1.pos) "type error"
    pure { s with held := merge r.1 t.1 :: t.2 }
  | .offset i j => do
    let r ← okOr (pull s.held i) "no such variable"
    let t ← okOr (pull r.2 j) "no such variable"
    ensure (r.1.pos ≠ t.1.pos) "type error"
    pure { s with held := offset r.1 t.1 :: t.2 }
  | .drop i => do
    let r ← okOr (pull s.held i) "no such variable"
    pure (dropImb { s with held := r.2 } r.1)

/-- A program. -/
def run (s : St) : List Op → Except Err St
  | [] => .ok s
  | op :: ops => do
    let s' ← step s op
    run s' ops

end Verif.Imbalance
