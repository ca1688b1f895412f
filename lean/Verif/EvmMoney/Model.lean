import Verif.Dex.Model

/-!
# EVM money, transaction fees and fee preferences

Models `pallet/common/src/utils.rs` (decimal scaling), `runtime/src/impls.rs` (the EVM view of XRP and
the EVM fee adapter), `pallet/tx-fee-pot/src/lib.rs`, the imbalances of `pallet/assets-ext`, and
`pallet/fee-proxy/src/{lib,impls,runner}.rs`, on top of the exchange model `Verif.Dex`.

Panics are the error `"Panic"`. The EVM interpreter (a dependency) is represented by what a run does to
XRP balances: a list of value transfers, the gas used, and the gas price it charges.
-/

namespace Verif.EvmMoney
open Verif.Dex (sat128)

/-! ## decimal scaling -/

/-- `U256::as_u128` (dependency `primitive-types`): panics when the value does not fit. -/
def asU128 (x : Nat) : Except Err Nat := if x < U128 then .ok x else .error "Panic"

/-- common/src/utils.rs:50, 65 `U256::from(10).pow(U256::from(18) - U256::from(decimals))`: the
subtraction panics for more than 18 decimals. -/
def unitOf (d : Nat) : Except Err Nat := if d ≤ 18 then .ok (10 ^ (18 - d)) else .error "Panic"

/-- common/src/utils.rs:49-61 `scale_wei_to_correct_decimals`. -/
def weiTo (v d : Nat) : Except Err Nat := do
  let unit ← unitOf d
  if v % unit = 0 then asU128 (v / unit) else asU128 (v / unit + 1)

/-- common/src/utils.rs:64-67 `scale_decimals_to_wei`. The `U256` product panics on overflow, which
`asU128` covers: such a product does not fit `u128` either. -/
def toWei (v d : Nat) : Except Err Nat := do
  let unit ← unitOf d
  asU128 (v * unit)

/-- runtime/src/impls.rs:64-65 `XRP_UNIT_VALUE`. -/
def xrpUnit : Nat := 10 ^ 12

/-- runtime/src/impls.rs:69-71 `scale_wei_to_6dp`. -/
def toDrops (v : Nat) : Except Err Nat := weiTo v 6

/-- runtime/src/impls.rs:74-76 `scale_6dp_to_wei`. -/
def toWei6 (v : Nat) : Except Err Nat := toWei v 6

/-! ## balances and imbalances -/

/-- assets-ext impls.rs:151-177 `withdraw` with `AllowDeath`, through `decrease_balance` of
pallet-assets: the balance falls, the issuance does not; the amount is outstanding as a negative
imbalance. -/
def debit (L : Ledger) (a : AssetId) (who : Acct) (v : Nat) : Except Err Ledger :=
  if v ≤ L.bal a who then .ok { L with bal := upd L.bal a (upd (L.bal a) who (L.bal a who - v)) }
  else .error "BalanceLow"

/-- The same with `KeepAlive`: the minimum balance (1, runtime `XRP_MINIMUM_BALANCE`) must remain. -/
def debitKeep (L : Ledger) (a : AssetId) (who : Acct) (v : Nat) : Except Err Ledger :=
  if v + 1 ≤ L.bal a who then debit L a who v else .error "BalanceLow"

/-- assets-ext impls.rs:181-196 `deposit_into_existing`, through `increase_balance` of pallet-assets:
returns the ledger and the positive imbalance, zero if the deposit fails (the issuance or the balance
would leave `u128`). Callers of the model treat failure as a zero imbalance, as all callers in the
code do. -/
def credit (L : Ledger) (a : AssetId) (who : Acct) (v : Nat) : Ledger × Nat :=
  if L.bal a who + v < U128 ∧ L.iss a + v < U128 then
    ({ L with bal := upd L.bal a (upd (L.bal a) who (L.bal a who + v)) }, v)
  else (L, 0)

/-- assets-ext imbalances.rs:222-238: dropping a negative imbalance lowers the issuance (saturating). -/
def dropNeg (L : Ledger) (a : AssetId) (v : Nat) : Ledger :=
  { L with iss := upd L.iss a (L.iss a - v) }

/-- assets-ext imbalances.rs:205-220: dropping a positive imbalance raises the issuance (saturating). -/
def dropPos (L : Ledger) (a : AssetId) (v : Nat) : Ledger :=
  { L with iss := upd L.iss a (sat128 (L.iss a + v)) }

/-! ## state -/

/-- Runtime constants: the exchange's, the XRP asset id (runtime/src/lib.rs:558 `FeeAssetId`) and the
account of the transaction fee pot (tx-fee-pot lib.rs:85-87, runtime/src/lib.rs:905). -/
structure Cfg where
  dex : Dex.Cfg
  xrp : AssetId
  pot : Acct

/-- The exchange with the ledger of all assets, `EraTxFees` (tx-fee-pot lib.rs:64), the sum of the
amounts handed to staking at the end of past eras (a history variable, not stored), and which account
is a delegate of which futurepass (futurepass pallet, `Proxy::exists`). -/
structure St where
  dex : Dex.St
  era : Nat
  ended : Nat
  dele : Acct → Acct → Bool

/-- The XRP balance in drops. -/
def St.xrp (s : St) (c : Cfg) (x : Acct) : Nat := s.dex.led.bal c.xrp x

/-- Replace the ledger. -/
def St.withLed (s : St) (L : Ledger) : St := { s with dex := { s.dex with led := L } }

/-! ## the EVM view of XRP -/

/-- runtime/src/impls.rs:103-121 `EvmCurrencyScaler::{balance, reducible_balance}`: what the EVM sees. -/
def evmBalance (c : Cfg) (s : St) (x : Acct) : Nat := min (s.xrp c x * xrpUnit) (U128 - 1)

/-- runtime/src/impls.rs:178-195 `EvmCurrencyScaler::transfer`. -/
def evmTransfer (c : Cfg) (L : Ledger) (src dst : Acct) (wei : Nat) : Except Err Ledger :=
  if wei = 0 then .ok L
  else do
    let v ← toDrops wei
    L.transfer c.xrp src dst v

/-- The value transfers of one EVM run, in order. -/
def evmTransfers (c : Cfg) (L : Ledger) : List (Acct × Acct × Nat) → Except Err Ledger
  | [] => .ok L
  | (src, dst, wei) :: rest => do
    let L1 ← evmTransfer c L src dst wei
    evmTransfers c L1 rest

/-! ## EVM fees -/

/-- runtime/src/impls.rs:841-857 `FutureverseEVMCurrencyAdapter::withdraw_fee`. `none` = nothing
withdrawn; the amount withdrawn is in drops. -/
def withdrawFee (c : Cfg) (L : Ledger) (who : Acct) (fee : Nat) : Except Err (Ledger × Option Nat) :=
  if fee = 0 then .ok (L, none)
  else do
    let v ← toDrops (sat128 fee)
    let L1 ← debit L c.xrp who v
    pure (L1, some v)

/-- tx-fee-pot lib.rs:127-134 `on_nonzero_unbalanced`: move the amount into the pot and count it. The
imbalance returned by `deposit_creating` is dropped at once, the incoming one at the end. -/
def potReceive (c : Cfg) (L : Ledger) (era v : Nat) : Ledger × Nat :=
  if v = 0 then (L, era)
  else
    let r := credit L c.xrp c.pot v
    (dropNeg (dropPos r.1 c.xrp r.2) c.xrp v, (era + v) % U128)

/-- runtime/src/impls.rs:859-915 `correct_and_deposit_fee`, with `paid` drops withdrawn before. Returns
the ledger, the era counter and the tip in drops. The branch for a zero minimum balance (881-895) is
not taken: XRP's is 1. -/
def correctFee (c : Cfg) (L : Ledger) (era : Nat) (who : Acct) (corrected base paid : Nat) :
    Except Err (Ledger × Nat × Nat) := do
  let paid18 ← toWei6 paid
  let refund := paid18 - sat128 corrected
  let r6 ← toDrops refund
  let (L1, back) := credit L c.xrp who r6
  -- `paid.offset(refund)`: the excess of a refund over the payment is dropped as positive imbalance
  let (L2, kept) := if back ≤ paid then (L1, paid - back) else (dropPos L1 c.xrp (back - paid), 0)
  let base6 ← toDrops (sat128 base)
  let basePart := min kept base6
  let (L3, era3) := potReceive c L2 era basePart
  pure (L3, era3, kept - basePart)

/-- runtime/src/impls.rs:917-926 `pay_priority_fee`: the tip goes to the block author; both imbalances
are dropped. -/
def payTip (c : Cfg) (L : Ledger) (author tip : Nat) : Except Err Ledger := do
  let tip18 ← toWei6 tip
  let t6 ← toDrops tip18
  let (L1, got) := credit L c.xrp author t6
  pure (dropNeg (dropPos L1 c.xrp got) c.xrp tip)

/-! ## fee preferences -/

/-- fee-proxy runner.rs:192-222 `calculate_total_gas`. `max_fee_per_gas.unwrap_or(…)` evaluates the
default eagerly, so its overflow fails the call even when a maximum is given. -/
def totalGas (gas base : Nat) (maxFee prio : Option Nat) : Except Err (Nat × Nat) := do
  let perGas ← (if base + prio.getD 0 < U256 then .ok (base + prio.getD 0) else .error "FeeOverflow")
  let total ← (if gas * perGas < U256 then .ok (gas * perGas) else .error "FeeOverflow")
  let dbl ← (if base * 2 < U256 then .ok (base * 2) else .error "FeeOverflow")
  let dflt ← (if dbl + prio.getD 0 < U256 then .ok (dbl + prio.getD 0) else .error "FeeOverflow")
  let most ← (if maxFee.getD dflt * gas < U256 then .ok (maxFee.getD dflt * gas) else .error "FeeOverflow")
  ensure (total ≤ most) "FeeExceedsMaxPayment"
  pure (total, most)

/-- fee-proxy runner.rs:96-122 `get_fee_preferences_data`: total and maximal fee in drops (XRP has 6
decimals). -/
def feeData (gas base : Nat) (maxFee prio : Option Nat) : Except Err (Nat × Nat) := do
  let (total, most) ← totalGas gas base maxFee prio
  let t ← weiTo total 6
  let m ← weiTo most 6
  pure (t, m)

/-- A call to the fee-preference precompile address (runner.rs:141-187 `decode_input`): the payment
asset, and, for the older selector, the maximal payment, which is decoded and discarded. -/
structure Pref where
  asset : AssetId
  maxPayment : Option Nat

/-- fee-proxy runner.rs:312-371: the swap made before an EVM call with fee preferences. -/
def prefSwap (c : Cfg) (s : St) (who : Acct) (p : Pref) (gas base : Nat) (maxFee prio : Option Nat) :
    Except Err St := do
  let (t, m) ← feeData gas base maxFee prio
  let amts ← Dex.getAmountsIn c.dex s.dex m [p.asset, c.xrp]
  let final := if m - t = 1 then m else t
  let d ← Dex.swapExactSupply c.dex s.dex who (amts.headD 0) final [p.asset, c.xrp] who none
  pure { s with dex := d }

/-- One EVM transaction: sender, fee preference, gas limit, base fee per gas, the two fee caps, the
price per gas the EVM charges and the gas it uses, the value transfers it makes, whether it reverts at
the end, and the block author. -/
structure EvmTx where
  who : Acct
  pref : Option Pref
  gas : Nat
  base : Nat
  maxFee : Option Nat
  prio : Option Nat
  rate : Nat
  used : Nat
  pays : List (Acct × Acct × Nat)
  reverts : Bool
  author : Acct

/-- The effect of the interpreter on the ledger: all transfers, or none if one of them fails or the run
reverts. A panic is not caught. -/
def evmBody (c : Cfg) (L : Ledger) (pays : List (Acct × Acct × Nat)) (reverts : Bool) :
    Except Err Ledger :=
  match evmTransfers c L pays with
  | .ok L1 => if reverts then .ok L else .ok L1
  | .error e => if e = "Panic" then .error e else .ok L

/-- fee-proxy runner.rs:269-390 `call`, then the stack runner of pallet-evm (dependency): withdraw the
fee for the whole gas limit, run, correct the fee to the gas used, pay the tip. The maintenance check
is modelled elsewhere. -/
def evmTx (c : Cfg) (s : St) (t : EvmTx) : Except Err St := do
  let s1 ← (match t.pref with
    | none => (.ok s : Except Err St)
    | some p => prefSwap c s t.who p t.gas t.base t.maxFee t.prio)
  let (L1, paid) ← withdrawFee c s1.dex.led t.who (t.gas * t.rate)
  let L2 ← evmBody c L1 t.pays t.reverts
  match paid with
  | none => pure (s1.withLed L2)
  | some v => do
    let (L3, era, tip) ← correctFee c L2 s1.era t.who (t.used * t.rate) (t.used * t.base) v
    let L4 ← payTip c L3 t.author tip
    pure { s1.withLed L4 with era := era }

/-! ## fees of ordinary transactions -/

/-- What an ordinary transaction does besides paying its fee: XRP transfers in drops, or an EVM call. -/
inductive Body where
  | pays (l : List (Acct × Acct × Nat))
  | evm (t : EvmTx)

/-- XRP transfers in drops. -/
def dropTransfers (c : Cfg) (L : Ledger) : List (Acct × Acct × Nat) → Except Err Ledger
  | [] => .ok L
  | (src, dst, v) :: rest => do
    let L1 ← L.transfer c.xrp src dst v
    dropTransfers c L1 rest

/-- Fee preference of an ordinary transaction (fee-proxy lib.rs:113-132): payment asset and the most of
it the signer agrees to pay. -/
structure SPref where
  asset : AssetId
  maxPayment : Nat

/-- An ordinary signed transaction: signer, the futurepass named if it is (or wraps) a
`proxy_extrinsic`, fee preference, fee charged up front including the tip, fee after execution, and
what it does. -/
structure Signed where
  who : Acct
  fp : Option Acct
  pref : Option SPref
  fee : Nat
  corrected : Nat
  body : Body

/-- fee-proxy impls.rs:57-66, 101-107: the account that is charged. -/
def payer (s : St) (t : Signed) : Acct :=
  match t.fp with
  | some f => if s.dele f t.who then f else t.who
  | none => t.who

/-- fee-proxy impls.rs:75-93, 109-136: the extra amount to swap for an inner EVM call; an error of the
computation is ignored, a panic is not. -/
def evmExtra : Body → Except Err Nat
  | .pays _ => .ok 0
  | .evm t =>
    match feeData t.gas t.base (some (t.maxFee.getD 0)) t.prio with
    | .ok (_, m) => .ok m
    | .error e => if e = "Panic" then .error e else .ok 0

/-- fee-proxy impls.rs:69-163 `withdraw_fee`: swap for the fee if asked to, then
`CurrencyAdapter::withdraw_fee` of pallet-transaction-payment (dependency). -/
def chargeSigned (c : Cfg) (s : St) (t : Signed) : Except Err (St × Option Nat) := do
  let who := payer s t
  let s1 ← (match t.pref with
    | none => (.ok s : Except Err St)
    | some p => do
      let extra ← evmExtra t.body
      let total := sat128 (t.fee + extra)
      let total := if s.xrp c who < 1 then sat128 (total + 1) else total
      let d ← Dex.swapExactTarget c.dex s.dex who total p.maxPayment [p.asset, c.xrp] who none
      pure { s with dex := d })
  if t.fee = 0 then pure (s1, none)
  else do
    let L ← debitKeep s1.dex.led c.xrp who t.fee
    pure (s1.withLed L, some t.fee)

/-- The dispatch of the transaction's call: rolled back if it fails. -/
def dispatchBody (c : Cfg) (s : St) : Body → Except Err St
  | .pays l =>
    match dropTransfers c s.dex.led l with
    | .ok L => .ok (s.withLed L)
    | .error _ => .ok s
  | .evm t =>
    match evmTx c s t with
    | .ok s1 => .ok s1
    | .error e => if e = "Panic" then .error e else .ok s

/-- fee-proxy impls.rs:170-191 and `CurrencyAdapter::correct_and_deposit_fee` (dependency): refund the
signer the difference, give the rest, including the tip, to the pot. -/
def settleSigned (c : Cfg) (s : St) (who corrected paid : Nat) : St :=
  let r := credit s.dex.led c.xrp who (paid - corrected)
  let p := potReceive c r.1 s.era (paid - r.2)
  { s.withLed p.1 with era := p.2 }

/-- An ordinary signed transaction. -/
def signed (c : Cfg) (s : St) (t : Signed) : Except Err St := do
  let (s1, paid) ← chargeSigned c s t
  let s2 ← dispatchBody c s1 t.body
  match paid with
  | none => pure s2
  | some v => pure (settleSigned c s2 t.who t.corrected v)

/-! ## histories -/

/-- The operations. -/
inductive Op where
  | evm (t : EvmTx)
  | signed (t : Signed)
  | exchange (op : Dex.Op)
  | eraEnd
  | delegate (fp who : Acct) (b : Bool)

/-- tx-fee-pot lib.rs:178-189 `era_payout` and 73-75 `reset_era_tx_fees`. -/
def eraEnd (s : St) : St := { s with era := 0, ended := s.ended + s.era }

/-- One operation; an error changes nothing. -/
def step (c : Cfg) (s : St) : Op → Except Err St
  | .evm t => evmTx c s t
  | .signed t => signed c s t
  | .exchange op => (Dex.step c.dex s.dex op).map (fun d => { s with dex := d })
  | .eraEnd => .ok (eraEnd s)
  | .delegate f w b => .ok { s with dele := upd s.dele f (upd (s.dele f) w b) }

/-- The accounts an EVM transaction takes XRP from. -/
def EvmTx.sources (t : EvmTx) : List Acct := t.who :: t.pays.map (·.1)

/-- The accounts a body takes XRP from. -/
def Body.sources : Body → List Acct
  | .pays l => l.map (·.1)
  | .evm t => t.sources

/-- The accounts an operation takes assets from. -/
def Op.sources : Op → List Acct
  | .evm t => t.sources
  | .signed t => t.who :: (t.fp.toList ++ t.body.sources)
  | .exchange op => op.signer.toList
  | _ => []

/-- Nobody holds a key for a pool, the burn account or the fee pot, so none of them is ever the source
of a payment. -/
def Proper (c : Cfg) (op : Op) : Prop := ∀ w ∈ op.sources, Dex.Keyed w ∧ w ≠ c.pot

/-- The chain before any fee was paid; the XRP asset exists and is not owned by a pool. -/
structure Genesis (c : Cfg) (s : St) : Prop where
  dex : Dex.Genesis s.dex
  xrp : ∃ o, s.dex.owner c.xrp = some o ∧ ∀ p, o ≠ Dex.poolAddr p
  era : s.era = 0
  ended : s.ended = 0

/-- The fee pot is an ordinary derived address, none of the exchange's. -/
def PotOk (c : Cfg) : Prop := Dex.Keyed c.pot

/-- States reachable by any history of proper operations through states that satisfy `G`; failing
operations change nothing. -/
inductive Reach (c : Cfg) (G : St → Prop) : St → Prop where
  | init {s : St} : Genesis c s → G s → Reach c G s
  | step {s s' : St} {op : Op} : Reach c G s → Proper c op → step c s op = .ok s' → G s' → Reach c G s'

end Verif.EvmMoney
