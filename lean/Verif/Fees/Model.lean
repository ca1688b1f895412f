import Verif.Ledger

/-!
# Model of what a native transaction costs

/repo/pallet/fee-control/src/lib.rs and its use by pallet-transaction-payment (a dependency, modelled by its contract) as
configured in /repo/runtime/src/lib.rs:329-360. The adjustment of fees to how full blocks are is a number given with each
transaction. Which asset pays the fee is in `Verif.EvmMoney`.
-/

namespace Verif.Fees

open Verif

/-- lib.rs:41-46 `FeeControlFeeConfig`: wei per gas, parts per billion of the weight, drops per byte. -/
structure St where
  baseFee : Nat
  weightMul : Nat
  lengthMul : Nat
deriving DecidableEq

/-- lib.rs:68-75 with /repo/pallet/common/src/lib.rs:465-479: the values the chain starts with. -/
def start : St where
  baseFee := 7500000000000
  weightMul := 100000
  lengthMul := 350

/-- The origin of a call (`frame_system::RawOrigin`, dependency). -/
inductive Origin where
  | root
  | signed (who : Acct)
deriving DecidableEq

/-- /repo/pallet/fee-control/src/lib.rs:91-128: the three calls. -/
inductive Op where
  | setBaseFee (o : Origin) (v : Nat)
  | setWeightMul (o : Origin) (v : Nat)
  | setLengthMul (o : Origin) (v : Nat)
deriving DecidableEq

/-- lib.rs:93-127: the three calls. Arguments have the range of their types: `U256`, `Perbill` and `u128`. -/
def step (s : St) : Op → Except Err St
  | .setBaseFee o v => do
    ensure (o = .root) "BadOrigin"
    ensure (v < U256) "decoding of the call"
    pure { s with baseFee := v }
  | .setWeightMul o v => do
    ensure (o = .root) "BadOrigin"
    ensure (v ≤ 1000000000) "decoding of the call"
    pure { s with weightMul := v }
  | .setLengthMul o v => do
    ensure (o = .root) "BadOrigin"
    ensure (v < U128) "decoding of the call"
    pure { s with lengthMul := v }

/-- `Perbill * x` (dependency): whole billions first, then the rest rounded to nearest, ties down. -/
def perbill (p x : Nat) : Nat :=
  x / 1000000000 * p + (x % 1000000000 * p / 1000000000 + if 500000000 < x % 1000000000 * p % 1000000000 then 1 else 0)

/-- lib.rs:132-134 `weight_to_fee`, for the reference time. -/
def weightToFee (s : St) (w : Nat) : Nat := perbill s.weightMul w

/-- lib.rs:136-138 `length_to_fee`: the product is not checked, so it wraps. -/
def lengthToFee (s : St) (n : Nat) : Nat := s.lengthMul * n % U128

/-- Addition that stops at the largest balance. -/
def addSat (a b : Nat) : Nat := min (a + b) (U128 - 1)

/-- A transaction as far as its fee goes: length in bytes, reference time of the call, tip, whether it pays. -/
structure Tx where
  length : Nat
  weight : Nat
  tip : Nat
  pays : Bool

/-- The chain's share: reference times of an empty transaction and of a full block (/repo/runtime/src/lib.rs:199-224), and the
adjustment, in parts of 10^18. -/
structure Env where
  base : Nat
  maxBlock : Nat
  adjust : Nat

/-- pallet-transaction-payment `compute_fee_raw`: weights count up to a full block, sums and products stop at the largest
balance. -/
def fee (s : St) (e : Env) (t : Tx) : Nat :=
  if t.pays then
    addSat (addSat (addSat (weightToFee s (min e.base e.maxBlock)) (lengthToFee s t.length))
      (min (e.adjust * weightToFee s (min t.weight e.maxBlock) / 1000000000000000000) (U128 - 1))) t.tip
  else t.tip

end Verif.Fees
