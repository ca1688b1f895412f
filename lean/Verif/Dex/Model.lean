import Verif.Ledger
import Mathlib.Data.Nat.Sqrt

/-!
# Model of the exchange (`/repo/pallet/dex/src/lib.rs`, `types.rs`)

Simplifications: events, weights and token metadata are dropped; `T::MultiCurrency` is the
`Ledger`; `U256` values are `Nat` with the overflow checks of `SafeMath`; `Balance` arguments are
`Nat`, bounded by `u128` where that matters.
-/

namespace Verif.Dex

/-- types.rs:28 `TradingPair`. -/
abbrev Pair := AssetId × AssetId

/-- types.rs:30-44 `TradingPair::new`: the two ids in ascending order. -/
def mkPair (a b : AssetId) : Pair := if b < a then (b, a) else (a, b)

/-- types.rs:49-61 `pool_address`: `0xdddddddd ++ a (4 bytes) ++ b (4 bytes) ++ 8 zero bytes`, read as a
160-bit number. -/
def poolAddr (p : Pair) : Acct :=
  0xdddddddd * 2 ^ 128 + p.1.val * 2 ^ 96 + p.2.val * 2 ^ 64

/-- lib.rs:519-521 `burn_account_id`: `b"modl" ++ b"burn/dex" ++ 8 zero bytes`
(/repo/runtime/src/lib.rs:680). -/
def burnAcct : Acct := 0x6d6f646c6275726e2f6465780000000000000000

/-- lib.rs:587 `MINIMUM_LIQUIDITY_AMOUNT`. -/
def minLiquidity : Nat := 1000

/-- The pallet's runtime constants: `GetExchangeFee` and `TradingPathLimit`
(/repo/runtime/src/lib.rs:675-690 sets `(3, 1000)` and 3), and the parachain id that
`next_asset_uuid` appends. -/
structure Cfg where
  feeN : Nat
  feeD : Nat
  pathLimit : Nat
  para : Nat

/-- Storage of the pallet (lib.rs:226-242), the ledger, the existing assets with their owners (`none`
= no such asset) and the `NextAssetId` counter of assets-ext, and the block number. -/
structure St where
  led : Ledger
  owner : AssetId → Option Acct
  nextId : Nat
  feeTo : Option Acct
  lp : Pair → Option AssetId
  res : Pair → Nat × Nat
  lastK : AssetId → Nat
  enabled : Pair → Bool
  now : Nat

/-- types.rs:142-144 `SafeMath::add` on `U256`. -/
def add256 (a b : Nat) : Except Err Nat := if a + b < U256 then .ok (a + b) else .error "Overflow"
/-- types.rs:146-148 `SafeMath::sub`. -/
def subC (a b : Nat) : Except Err Nat := if b ≤ a then .ok (a - b) else .error "Underflow"
/-- types.rs:150-152 `SafeMath::mul` on `U256`. -/
def mul256 (a b : Nat) : Except Err Nat := if a * b < U256 then .ok (a * b) else .error "Underflow"
/-- types.rs:154-156 `SafeMath::div`. -/
def divC (a b : Nat) : Except Err Nat := if b = 0 then .error "DivisionByZero" else .ok (a / b)
/-- `U256::saturated_into::<u128>()`. -/
def sat128 (a : Nat) : Nat := min a (U128 - 1)

/-- lib.rs:525-537 `quote`. -/
def quote (amountA reserveA reserveB : Nat) : Except Err Nat := do
  ensure (0 < amountA) "InsufficientAmount"
  ensure (0 < reserveA ∧ 0 < reserveB) "InsufficientLiquidity"
  let m ← mul256 amountA reserveB
  divC m reserveA

/-- lib.rs:894-919 `get_amount_out`. -/
def getAmountOut (c : Cfg) (amountIn reserveIn reserveOut : Nat) : Except Err Nat := do
  ensure (0 < amountIn) "InsufficientInputAmount"
  ensure (0 < reserveIn ∧ 0 < reserveOut) "InsufficientLiquidity"
  let f ← subC c.feeD c.feeN
  let inWithFee ← mul256 amountIn f
  let num ← mul256 inWithFee reserveOut
  let d0 ← mul256 reserveIn c.feeD
  let den ← add256 d0 inWithFee
  let q ← divC num den
  pure (sat128 q)

/-- lib.rs:922-944 `get_amount_in`. -/
def getAmountIn (c : Cfg) (amountOut reserveIn reserveOut : Nat) : Except Err Nat := do
  ensure (0 < amountOut) "InsufficientOutputAmount"
  ensure (0 < reserveIn ∧ 0 < reserveOut) "InsufficientLiquidity"
  let n0 ← mul256 reserveIn amountOut
  let num ← mul256 n0 c.feeD
  let d0 ← subC reserveOut amountOut
  let f ← subC c.feeD c.feeN
  let den ← mul256 d0 f
  let q ← divC num den
  let q1 ← add256 q 1
  pure (sat128 q1)

/-- lib.rs:877-885 `get_liquidity`. -/
def getLiquidity (s : St) (a b : AssetId) : Nat × Nat :=
  let p := mkPair a b
  if a = p.1 then s.res p else ((s.res p).2, (s.res p).1)

/-- lib.rs:946-985 `get_amounts_out`, the loop over the path (recursive from the front). -/
def amountsOutLoop (c : Cfg) (s : St) (amountIn : Nat) : List AssetId → Except Err (List Nat)
  | a :: b :: rest => do
    ensure (s.enabled (mkPair a b) = true) "MustBeEnabled"
    let r := getLiquidity s a b
    ensure (r.1 ≠ 0 ∧ r.2 ≠ 0) "InsufficientLiquidity"
    let out ← getAmountOut c amountIn r.1 r.2
    ensure (out ≠ 0) "ZeroTargetAmount"
    let tl ← amountsOutLoop c s out (b :: rest)
    pure (amountIn :: tl)
  | _ => .ok [amountIn]

/-- lib.rs:946-985 `get_amounts_out`. -/
def getAmountsOut (c : Cfg) (s : St) (amountIn : Nat) (path : List AssetId) :
    Except Err (List Nat) := do
  ensure (2 ≤ path.length ∧ path.length ≤ c.pathLimit) "InvalidTradingPathLength"
  amountsOutLoop c s amountIn path

/-- lib.rs:987-1026 `get_amounts_in`, the loop over the path (recursive from the back). -/
def amountsInLoop (c : Cfg) (s : St) (amountOut : Nat) : List AssetId → Except Err (List Nat)
  | a :: b :: rest => do
    let tl ← amountsInLoop c s amountOut (b :: rest)
    ensure (s.enabled (mkPair a b) = true) "MustBeEnabled"
    let r := getLiquidity s a b
    ensure (r.1 ≠ 0 ∧ r.2 ≠ 0) "InsufficientLiquidity"
    let i ← getAmountIn c (tl.headD 0) r.1 r.2
    ensure (i ≠ 0) "ZeroSupplyAmount"
    pure (i :: tl)
  | _ => .ok [amountOut]

/-- lib.rs:987-1026 `get_amounts_in`. -/
def getAmountsIn (c : Cfg) (s : St) (amountOut : Nat) (path : List AssetId) :
    Except Err (List Nat) := do
  ensure (2 ≤ path.length ∧ path.length ≤ c.pathLimit) "InvalidTradingPathLength"
  amountsInLoop c s amountOut path

/-- lib.rs:1290-1292: the amount of liquidity tokens minted as protocol fee. -/
def feeLiquidity (totalSupply rootK rootKLast : Nat) : Except Err Nat := do
  let diff ← subC rootK rootKLast
  let num ← mul256 totalSupply diff
  let d0 ← mul256 rootK 5
  let den ← add256 d0 rootKLast
  divC num den

/-- lib.rs:1273-1314 `mint_fee`; only called while `FeeTo` is set, returns the state and `fee_on`. -/
def mintFee (s : St) (l : AssetId) (reserveA reserveB : Nat) : Except Err (St × Bool) :=
  match s.feeTo with
  | some feeTo =>
    if s.lastK l ≠ 0 then
      let rootK := Nat.sqrt (min (reserveA * reserveB) (U256 - 1))
      let rootKLast := Nat.sqrt (s.lastK l)
      if rootK > rootKLast then do
        let liq ← feeLiquidity (s.led.iss l) rootK rootKLast
        if 0 < liq then do
          let led ← s.led.mint l feeTo (sat128 liq)
          pure ({ s with led := led }, true)
        else pure (s, true)
      else .ok (s, true)
    else .ok (s, true)
  | none =>
    if s.lastK l ≠ 0 then .ok ({ s with lastK := upd s.lastK l 0 }, false) else .ok (s, false)

/-- lib.rs:1154-1178: the protocol-fee part of a hop of `_swap`. -/
def collectFee (s : St) (p : Pair) : Except Err St :=
  match s.feeTo with
  | none => .ok s
  | some _ => do
    let l ← okOr (s.lp p) "InvalidAssetId"
    let r := s.res p
    let sf ← mintFee s l r.1 r.2
    if sf.2 then
      -- the product of two u128 values never overflows U256, otherwise k is left as it is
      pure { sf.1 with lastK := if r.1 * r.2 < U256 then upd sf.1.lastK l (r.1 * r.2) else sf.1.lastK }
    else pure sf.1

/-- lib.rs:1119-1143: the constant-product check with the fee-adjusted balances. -/
def kCheck (c : Cfg) (bal0 bal1 in0 in1 r0 r1 : Nat) : Except Err Unit := do
  ensure (0 < in0 ∨ 0 < in1) "InsufficientInputAmount"
  let x0 ← mul256 bal0 c.feeD
  let y0 ← mul256 in0 c.feeN
  let adj0 ← subC x0 y0
  let x1 ← mul256 bal1 c.feeD
  let y1 ← mul256 in1 c.feeN
  let adj1 ← subC x1 y1
  let lhs ← mul256 adj0 adj1
  let rr ← mul256 r0 r1
  let d2 ← mul256 c.feeD c.feeD
  let rhs ← mul256 rr d2
  ensure (rhs ≤ lhs) "InvalidConstantProduct"

/-- lib.rs:1105-1117: what has arrived in the pool beyond the expected remainder. -/
def amountIn (bal reserve out : Nat) : Nat :=
  if reserve - out < bal then bal - (reserve - out) else 0

/-- lib.rs:1039-1181: one hop of `_swap` on pair `mkPair input output`, paying `out` to `dst`. -/
def swapHop (c : Cfg) (s : St) (input output : AssetId) (out : Nat) (dst : Acct) :
    Except Err St := do
  ensure (input ≠ output) "IdenticalTokenAddress"
  let p := mkPair input output
  let o0 := if input = p.1 then 0 else out
  let o1 := if input = p.1 then out else 0
  let pool := poolAddr p
  ensure (0 < o0 ∨ 0 < o1) "InsufficientOutputAmount"
  let r := s.res p
  ensure (o0 < r.1 ∧ o1 < r.2) "InsufficientLiquidity"
  let led1 ← (if 0 < o0 then s.led.transfer p.1 pool dst o0 else .ok s.led)
  let led2 ← (if 0 < o1 then led1.transfer p.2 pool dst o1 else .ok led1)
  let b0 := led2.bal p.1 pool
  let b1 := led2.bal p.2 pool
  kCheck c b0 b1 (amountIn b0 r.1 o0) (amountIn b1 r.2 o1) r.1 r.2
  collectFee { s with led := led2, res := upd s.res p (b0, b1) } p

/-- lib.rs:1030-1185 `_swap`: the loop over the path. -/
def swapLoop (c : Cfg) (s : St) (dst : Acct) : List Nat → List AssetId → Except Err St
  | _ :: out :: amts, a :: b :: rest => do
    let hopDst := match rest with
      | [] => dst
      | r :: _ => poolAddr (mkPair b r)
    let s1 ← swapHop c s a b out hopDst
    swapLoop c s1 dst (out :: amts) (b :: rest)
  | _, _ => .ok s

/-- lib.rs:1201-1204, 592-596: an absent deadline is not checked. -/
def deadlineOk (deadline : Option Nat) (now : Nat) : Prop :=
  match deadline with
  | none => True
  | some d => now ≤ d

instance (d : Option Nat) (now : Nat) : Decidable (deadlineOk d now) := by
  unfold deadlineOk; split <;> infer_instance

/-- The end of both swap entry points (lib.rs:1210-1222 and 1256-1266): pay the first amount into the
first pool, then run the hops. -/
def payAndSwap (c : Cfg) (s : St) (who dst : Acct) (amts : List Nat) : List AssetId → Except Err St
  | a :: b :: rest => do
    let led ← s.led.transfer a who (poolAddr (mkPair a b)) (amts.headD 0)
    swapLoop c { s with led := led } dst amts (a :: b :: rest)
  | _ => .error "InvalidTradingPathLength"

/-- lib.rs:293-313, 1189-1231 `swap_with_exact_supply`. -/
def swapExactSupply (c : Cfg) (s : St) (who : Acct) (amountIn minOut : Nat) (path : List AssetId)
    (dst : Acct) (deadline : Option Nat) : Except Err St := do
  ensure (deadlineOk deadline s.now) "ExpiredDeadline"
  let amts ← getAmountsOut c s amountIn path
  ensure (minOut ≤ amts.getLastD 0) "InsufficientTargetAmount"
  payAndSwap c s who dst amts path

/-- lib.rs:329-349, 1235-1269 `swap_with_exact_target`. -/
def swapExactTarget (c : Cfg) (s : St) (who : Acct) (amountOut maxIn : Nat) (path : List AssetId)
    (dst : Acct) (deadline : Option Nat) : Except Err St := do
  ensure (deadlineOk deadline s.now) "ExpiredDeadline"
  let amts ← getAmountsIn c s amountOut path
  ensure (amts.headD 0 ≤ maxIn) "ExcessiveSupplyAmount"
  payAndSwap c s who dst amts path

/-- assets-ext lib.rs:691-721 `create` (through `create_lp_token`, dex lib.rs:539-574): the next asset
uuid (common/src/utils.rs:35-45, `next_id << 10 | parachain_id`), which must not exist yet. -/
def createLp (c : Cfg) (s : St) (p : Pair) : Except Err (St × AssetId) := do
  ensure (s.nextId + 1 ≤ 4194303 ∧ c.para ≤ 1023) "NoAvailableIds"
  let l : AssetId := Fin.ofNat _ (s.nextId * 1024 + c.para)
  ensure (s.owner l = none) "InUse"
  pure ({ s with owner := upd s.owner l (some (poolAddr p)), nextId := s.nextId + 1,
                 lp := upd s.lp p (some l), enabled := upd s.enabled p true }, l)

/-- lib.rs:600-603: the pair's liquidity token, created on first use. -/
def getOrCreateLp (c : Cfg) (s : St) (p : Pair) : Except Err (St × AssetId) :=
  match s.lp p with
  | some l => .ok (s, l)
  | none => createLp c s p

/-- lib.rs:643-661: the amounts actually taken from the provider, in pair order. -/
def optimalAmounts (r0 r1 des0 des1 min0 min1 : Nat) : Except Err (Nat × Nat) :=
  if r0 = 0 ∧ r1 = 0 then .ok (des0, des1)
  else do
    let bOpt ← quote des0 r0 r1
    if bOpt ≤ des1 then do
      ensure (min1 ≤ bOpt) "InsufficientAmountB"
      pure (des0, bOpt)
    else do
      let aOpt ← quote des1 r1 r0
      ensure (aOpt ≤ des0) "InsufficientAmount"
      ensure (min0 ≤ aOpt) "InsufficientAmountA"
      pure (aOpt, des1)

/-- lib.rs:686-707: the liquidity tokens due for the deposit, and the ledger after the minimum
liquidity was locked (first deposit only). -/
def liquidityFor (led : Ledger) (l : AssetId) (amt0 amt1 r0 r1 : Nat) :
    Except Err (Nat × Ledger) :=
  if led.iss l = 0 then do
    let m ← mul256 amt0 amt1
    let q ← subC (Nat.sqrt m) minLiquidity
    let led' ← led.mint l burnAcct minLiquidity
    pure (sat128 q, led')
  else do
    let m0 ← mul256 amt0 (led.iss l)
    let q0 ← divC m0 r0
    let m1 ← mul256 amt1 (led.iss l)
    let q1 ← divC m1 r1
    pure (sat128 (min q0 q1), led)

/-- lib.rs:731-739 and 852-860: remember the product of the reserves while the fee is on. -/
def updateLastK (s : St) (p : Pair) (l : AssetId) : St :=
  if s.feeTo.isSome then
    let k := (s.res p).1 * (s.res p).2
    { s with lastK := if k < U256 then upd s.lastK l k else s.lastK }
  else s

/-- What `add_liquidity` reports (event `AddLiquidity`), in pair order. -/
structure Added where
  amt0 : Nat
  amt1 : Nat
  liq : Nat
deriving DecidableEq

/-- lib.rs:641-739: the body of `do_add_liquidity` once the arguments are in pair order. -/
def addOrdered (s : St) (who : Acct) (p : Pair) (l : AssetId) (des0 des1 min0 min1 : Nat)
    (dst : Acct) : Except Err (St × Added) := do
  let r := s.res p
  let amts ← optimalAmounts r.1 r.2 des0 des1 min0 min1
  let pool := poolAddr p
  let led1 ← s.led.transfer p.1 who pool (sat128 amts.1)
  let led2 ← led1.transfer p.2 who pool (sat128 amts.2)
  let b0 := led2.bal p.1 pool
  let b1 := led2.bal p.2 pool
  let amt0 ← subC b0 r.1
  let amt1 ← subC b1 r.2
  let ll ← liquidityFor led2 l amt0 amt1 r.1 r.2
  ensure (ll.1 ≠ 0) "InvalidLiquidityIncrement"
  let led3 ← ll.2.mint l dst ll.1
  pure (updateLastK { s with led := led3, res := upd s.res p (b0, b1) } p l, ⟨amt0, amt1, ll.1⟩)

/-- lib.rs:374-400, 576-746 `add_liquidity`. -/
def addLiquidity (c : Cfg) (s : St) (who : Acct) (a b : AssetId) (desA desB minA minB : Nat)
    (dst : Acct) (deadline : Option Nat) : Except Err (St × Added) := do
  ensure (a ≠ b) "IdenticalTokenAddress"
  ensure (0 < desA ∧ 0 < desB) "InvalidInputAmounts"
  ensure (deadlineOk deadline s.now) "ExpiredDeadline"
  let p := mkPair a b
  let sl ← getOrCreateLp c s p
  ensure (sl.1.enabled p = true) "MustBeEnabled"
  if a = p.1 then addOrdered sl.1 who p sl.2 desA desB minA minB dst
  else addOrdered sl.1 who p sl.2 desB desA minB minA dst

/-- What `remove_liquidity` reports (event `RemoveLiquidity`), in pair order. -/
structure Removed where
  amt0 : Nat
  amt1 : Nat
  liq : Nat
deriving DecidableEq

/-- lib.rs:789-866: the body of `do_remove_liquidity` once the arguments are in pair order and the
liquidity tokens have been moved to the pool. -/
def removeOrdered (s : St) (p : Pair) (l : AssetId) (min0 min1 : Nat) (dst : Acct) :
    Except Err (St × Removed) := do
  let pool := poolAddr p
  let b0 := s.led.bal p.1 pool
  let b1 := s.led.bal p.2 pool
  let liq := s.led.bal l pool
  let ts := s.led.iss l
  let m0 ← mul256 liq b0
  let q0 ← divC m0 ts
  let m1 ← mul256 liq b1
  let q1 ← divC m1 ts
  ensure (0 < sat128 q0 ∧ 0 < sat128 q1) "InsufficientLiquidityBurnt"
  ensure (min0 ≤ sat128 q0) "InsufficientWithdrawnAmountA"
  ensure (min1 ≤ sat128 q1) "InsufficientWithdrawnAmountB"
  let led1 ← s.led.burn l pool liq
  let led2 ← led1.transfer p.1 pool dst (sat128 q0)
  let led3 ← led2.transfer p.2 pool dst (sat128 q1)
  pure (updateLastK { s with led := led3,
                             res := upd s.res p (led3.bal p.1 pool, led3.bal p.2 pool) } p l,
        ⟨sat128 q0, sat128 q1, liq⟩)

/-- lib.rs:419-443, 749-867 `remove_liquidity`. -/
def removeLiquidity (s : St) (who : Acct) (a b : AssetId) (liq minA minB : Nat) (dst : Acct)
    (deadline : Option Nat) : Except Err (St × Removed) := do
  ensure (deadlineOk deadline s.now) "ExpiredDeadline"
  let p := mkPair a b
  let l ← okOr (s.lp p) "InvalidAssetId"
  ensure (a ≠ b) "IdenticalTokenAddress"
  let led ← s.led.transfer l who (poolAddr p) liq
  if a = p.1 then removeOrdered { s with led := led } p l minA minB dst
  else removeOrdered { s with led := led } p l minB minA dst

/-- lib.rs:266-277 `set_fee_to` (root). -/
def setFeeTo (s : St) (f : Option Acct) : St := { s with feeTo := f }

/-- lib.rs:454-477 `reenable_trading_pair` (root). -/
def reenable (s : St) (a b : AssetId) : Except Err St := do
  let p := mkPair a b
  ensure ((s.lp p).isSome) "LiquidityProviderTokenNotCreated"
  ensure (s.enabled p = false) "MustBeNotEnabled"
  pure { s with enabled := upd s.enabled p true }

/-- lib.rs:488-511 `disable_trading_pair` (root). -/
def disable (s : St) (a b : AssetId) : Except Err St := do
  let p := mkPair a b
  ensure ((s.lp p).isSome) "LiquidityProviderTokenNotCreated"
  ensure (s.enabled p = true) "MustBeEnabled"
  pure { s with enabled := upd s.enabled p false }

/-- assets-ext lib.rs:691-721 `create` for an ordinary asset owned by `who`. -/
def createAsset (c : Cfg) (s : St) (who : Acct) : Except Err St := do
  ensure (s.nextId + 1 ≤ 4194303 ∧ c.para ≤ 1023) "NoAvailableIds"
  let l : AssetId := Fin.ofNat _ (s.nextId * 1024 + c.para)
  ensure (s.owner l = none) "InUse"
  pure { s with owner := upd s.owner l (some who), nextId := s.nextId + 1 }

/-- pallet-assets `mint` (dependency): only the owner of an asset mints it. A liquidity token is owned by
its pool address (dex lib.rs:564-565). -/
def mintAsset (s : St) (who : Acct) (a : AssetId) (dst : Acct) (amt : Nat) : Except Err St := do
  ensure (s.owner a = some who) "NoPermission"
  let led ← s.led.mint a dst amt
  pure { s with led := led }

/-- pallet-assets / pallet-balances `transfer` (dependency). -/
def directTransfer (s : St) (who : Acct) (a : AssetId) (dst : Acct) (amt : Nat) :
    Except Err St := do
  let led ← s.led.transfer a who dst amt
  pure { s with led := led }

/-- Everything that can happen: the dispatchables of the pallet, direct token transfers between
accounts, creation and minting of ordinary tokens by their owners, and the passing of blocks. -/
inductive Op where
  | swapSupply (who : Acct) (amountIn minOut : Nat) (path : List AssetId) (dst : Acct)
      (deadline : Option Nat)
  | swapTarget (who : Acct) (amountOut maxIn : Nat) (path : List AssetId) (dst : Acct)
      (deadline : Option Nat)
  | add (who : Acct) (a b : AssetId) (desA desB minA minB : Nat) (dst : Acct)
      (deadline : Option Nat)
  | remove (who : Acct) (a b : AssetId) (liq minA minB : Nat) (dst : Acct) (deadline : Option Nat)
  | setFeeTo (f : Option Acct)
  | reenable (a b : AssetId)
  | disable (a b : AssetId)
  | transfer (who : Acct) (a : AssetId) (dst : Acct) (amt : Nat)
  | createAsset (who : Acct)
  | mintAsset (who : Acct) (a : AssetId) (dst : Acct) (amt : Nat)
  | nextBlock

/-- The operations of the exchange itself. -/
def Op.isDex : Op → Bool
  | .transfer .. | .createAsset .. | .mintAsset .. | .nextBlock => false
  | _ => true

/-- The account that signs the operation (`none` for root and for block production). -/
def Op.signer : Op → Option Acct
  | .swapSupply who .. | .swapTarget who .. | .add who .. | .remove who .. | .transfer who ..
  | .createAsset who | .mintAsset who .. => some who
  | _ => none

/-- One operation; an error changes nothing (`#[transactional]`). -/
def step (c : Cfg) (s : St) : Op → Except Err St
  | .swapSupply who i m path dst dl => swapExactSupply c s who i m path dst dl
  | .swapTarget who o m path dst dl => swapExactTarget c s who o m path dst dl
  | .add who a b da db ma mb dst dl => (addLiquidity c s who a b da db ma mb dst dl).map Prod.fst
  | .remove who a b l ma mb dst dl => (removeLiquidity s who a b l ma mb dst dl).map Prod.fst
  | .setFeeTo f => .ok (setFeeTo s f)
  | .reenable a b => reenable s a b
  | .disable a b => disable s a b
  | .transfer who a dst amt => directTransfer s who a dst amt
  | .createAsset who => createAsset c s who
  | .mintAsset who a dst amt => mintAsset s who a dst amt
  | .nextBlock => .ok { s with now := s.now + 1 }

/-- An account for which a signing key may exist: neither a pool address nor the burn account (both are
derived addresses nobody holds a key for). -/
def Keyed (x : Acct) : Prop := x ≠ burnAcct ∧ ∀ p, x ≠ poolAddr p

/-- The exchange before first use: consistent ledger, no pairs. Native currencies count as assets with
an owner. -/
structure Genesis (s : St) : Prop where
  sound : s.led.Sound
  fresh : ∀ a, s.owner a = none → s.led.iss a = 0
  noLp : ∀ p, s.lp p = none
  noRes : ∀ p, s.res p = (0, 0)
  noStatus : ∀ p, s.enabled p = false
  noK : ∀ l, s.lastK l = 0

/-- States reachable by any history of operations signed by keyed accounts. A failing operation changes
nothing, so only successful ones appear. -/
inductive Reach (c : Cfg) : St → Prop where
  | init {s : St} : Genesis s → Reach c s
  | step {s s' : St} {op : Op} : Reach c s → (∀ w, op.signer = some w → Keyed w) →
      step c s op = .ok s' → Reach c s'

/-- Run a list of operations, stopping at the first failure. -/
def run (c : Cfg) (s : St) : List Op → Except Err St
  | [] => .ok s
  | op :: ops => do
    let s1 ← step c s op
    run c s1 ops

end Verif.Dex
