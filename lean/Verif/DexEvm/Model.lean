import Verif.EvmMoney.Model
import Verif.Precompile.Model

/-!
# Model of the exchange as a contract (`/repo/evm-precompiles/dex/src/lib.rs`)

A call of the built-in exchange contract on top of the exchange model `Verif.Dex`. Simplifications: gas, logs and the
byte encoding of arguments and results are dropped; an argument is the number it decodes to. XRP is asset 2, both for the
contract (`GAS_TOKEN_ID`, lib.rs:30) and for the EVM's currency.
-/

namespace Verif.DexEvm

/-- /repo/runtime/src/precompiles.rs: the contract's address, 0xDDDD. -/
def dexAddr : Acct := 0xDDDD

/-- lib.rs:30 `GAS_TOKEN_ID`, and the XRP asset of the runtime. -/
def xrp : AssetId := 2

/-- lib.rs:43-48 `saturated_convert_balance`. -/
def toBalance (x : Nat) : Except Err Nat := if x < U128 then .ok x else .error "ExceedsBalance"

/-- lib.rs:51-56 `saturated_convert_blocknumber`. -/
def toBlock (x : Nat) : Except Err Nat := if x < U32 then .ok x else .error "ExceedsBlockNumber"

/-- lib.rs:182-191 (and the same in every function): the asset at a token address, by
`evm_id_to_runtime_id` with the ERC-20 prefix. -/
def assetAt (a : Nat) : Option AssetId := (Precompile.decode Precompile.prefix20 a).map (Fin.ofNat _)

/-- lib.rs:433-441 (and the same in every swap): the assets of a path. -/
def assetsAt : List Nat → Except Err (List AssetId)
  | [] => .ok []
  | a :: rest => do
    let x ← okOr (assetAt a) "InvalidAssetAddress"
    let xs ← assetsAt rest
    pure (x :: xs)

/-- lib.rs:58-86 `Action`: the functions with their arguments, in the order of the Solidity interface. -/
inductive Input where
  | addLiquidity (tokenA tokenB desA desB minA minB : Nat) (dst : Acct) (deadline : Nat)
  | addLiquidityETH (token des min minEth : Nat) (dst : Acct) (deadline : Nat)
  | removeLiquidity (tokenA tokenB liq minA minB : Nat) (dst : Acct) (deadline : Nat)
  | removeLiquidityETH (token liq min minEth : Nat) (dst : Acct) (deadline : Nat)
  | swapExactTokensForTokens (amountIn minOut : Nat) (path : List Nat) (dst : Acct) (deadline : Nat)
  | swapTokensForExactTokens (amountOut maxIn : Nat) (path : List Nat) (dst : Acct) (deadline : Nat)
  | swapExactETHForTokens (minOut : Nat) (path : List Nat) (dst : Acct) (deadline : Nat)
  | swapTokensForExactETH (amountOut maxIn : Nat) (path : List Nat) (dst : Acct) (deadline : Nat)
  | swapExactTokensForETH (amountIn minOut : Nat) (path : List Nat) (dst : Acct) (deadline : Nat)
  | swapETHForExactTokens (amountOut : Nat) (path : List Nat) (dst : Acct) (deadline : Nat)
  | quote (amountA reserveA reserveB : Nat)
  | getAmountIn (amountOut reserveIn reserveOut : Nat)
  | getAmountOut (amountIn reserveIn reserveOut : Nat)
  | getAmountsIn (amountOut : Nat) (path : List Nat)
  | getAmountsOut (amountIn : Nat) (path : List Nat)

/-- precompile-utils `FunctionModifier`. -/
inductive Modifier where
  | view | nonPayable | payable
deriving DecidableEq

/-- lib.rs:107-120. -/
def modifierOf : Input → Modifier
  | .addLiquidity .. | .removeLiquidity .. | .removeLiquidityETH .. | .swapExactTokensForTokens ..
  | .swapTokensForExactTokens .. | .swapTokensForExactETH .. | .swapExactTokensForETH .. => .nonPayable
  | .addLiquidityETH .. | .swapExactETHForTokens .. | .swapETHForExactTokens .. => .payable
  | _ => .view

/-- /repo/evm-precompiles/utils/src/modifier.rs:33-50 `check_function_modifier`: no state change in a static call, no
value unless payable. -/
def checkModifier (isStatic : Bool) (value : Nat) (m : Modifier) : Except Err Unit := do
  ensure (¬ (isStatic = true ∧ m ≠ .view)) "StaticCall"
  ensure (m = .payable ∨ value = 0) "NotPayable"

/-- `do_swap_with_exact_supply` as the contract sees it: the new state and the amounts along the path, which the pallet
computes in the state before the swap (dex lib.rs:1206, 1230). -/
def supply (c : Dex.Cfg) (s : Dex.St) (who : Acct) (amountIn minOut : Nat) (path : List AssetId) (dst : Acct)
    (deadline : Nat) : Except Err (Dex.St × List Nat) := do
  let s' ← Dex.swapExactSupply c s who amountIn minOut path dst (some deadline)
  let amts ← Dex.getAmountsOut c s amountIn path
  pure (s', amts)

/-- `do_swap_with_exact_target` as the contract sees it (dex lib.rs:1252, 1268). -/
def target (c : Dex.Cfg) (s : Dex.St) (who : Acct) (amountOut maxIn : Nat) (path : List AssetId) (dst : Acct)
    (deadline : Nat) : Except Err (Dex.St × List Nat) := do
  let s' ← Dex.swapExactTarget c s who amountOut maxIn path dst (some deadline)
  let amts ← Dex.getAmountsIn c s amountOut path
  pure (s', amts)

/-- dex lib.rs:741-745: what `do_add_liquidity` returns, in the order of the arguments. -/
def addOut (a b : AssetId) (ev : Dex.Added) : List Nat :=
  if a = (Dex.mkPair a b).1 then [ev.amt0, ev.amt1, ev.liq] else [ev.amt1, ev.amt0, ev.liq]

/-- dex lib.rs:862-866: what `do_remove_liquidity` returns, in the order of the arguments. -/
def removeOut (a b : AssetId) (ev : Dex.Removed) : List Nat :=
  if a = (Dex.mkPair a b).1 then [ev.amt0, ev.amt1] else [ev.amt1, ev.amt0]

/-- lib.rs:161-229 `add_liquidity` and 231-296 `add_liquidity_eth`, after the token addresses are known. -/
def add (c : Dex.Cfg) (s : Dex.St) (who : Acct) (a b : AssetId) (desA desB minA minB : Nat) (dst : Acct)
    (deadline : Nat) : Except Err (Dex.St × List Nat) := do
  let da ← toBalance desA
  let db ← toBalance desB
  let ma ← toBalance minA
  let mb ← toBalance minB
  let dl ← toBlock deadline
  let (s', ev) ← Dex.addLiquidity c s who a b da db ma mb dst (some dl)
  pure (s', addOut a b ev)

/-- lib.rs:298-355 `remove_liquidity` and 357-416 `remove_liquidity_eth`, after the token addresses are known. -/
def remove (s : Dex.St) (who : Acct) (a b : AssetId) (liq minA minB : Nat) (dst : Acct)
    (deadline : Nat) : Except Err (Dex.St × List Nat) := do
  let l ← toBalance liq
  let ma ← toBalance minA
  let mb ← toBalance minB
  let dl ← toBlock deadline
  let (s', ev) ← Dex.removeLiquidity s who a b l ma mb dst (some dl)
  pure (s', removeOut a b ev)

/-- lib.rs:418-487, 558-624, 695-764: the three functions that sell an exact amount. -/
def sell (c : Dex.Cfg) (s : Dex.St) (who : Acct) (amountIn minOut : Nat) (path : List Nat) (dst : Acct)
    (deadline : Nat) : Except Err (Dex.St × List Nat) := do
  let p ← assetsAt path
  let i ← toBalance amountIn
  let m ← toBalance minOut
  let dl ← toBlock deadline
  supply c s who i m p dst dl

/-- lib.rs:489-556, 626-693, 766-832: the three functions that buy an exact amount. -/
def buy (c : Dex.Cfg) (s : Dex.St) (who : Acct) (amountOut maxIn : Nat) (path : List Nat) (dst : Acct)
    (deadline : Nat) : Except Err (Dex.St × List Nat) := do
  let p ← assetsAt path
  let o ← toBalance amountOut
  let m ← toBalance maxIn
  let dl ← toBlock deadline
  target c s who o m p dst dl

/-- The functions, once value and modifier have been dealt with: the new state and the returned numbers. `value` is the
`apparent_value` of the call. -/
def dispatch (c : Dex.Cfg) (s : Dex.St) (who : Acct) (value : Nat) : Input → Except Err (Dex.St × List Nat)
  | .addLiquidity ta tb da db ma mb dst dl => do
    let a ← okOr (assetAt ta) "InvalidAssetAddress"
    let b ← okOr (assetAt tb) "InvalidAssetAddress"
    add c s who a b da db ma mb dst dl
  | .addLiquidityETH t d m me dst dl => do
    let a ← okOr (assetAt t) "InvalidAssetAddress"
    add c s who a xrp d value m me dst dl
  | .removeLiquidity ta tb l ma mb dst dl => do
    let a ← okOr (assetAt ta) "InvalidAssetAddress"
    let b ← okOr (assetAt tb) "InvalidAssetAddress"
    remove s who a b l ma mb dst dl
  | .removeLiquidityETH t l m me dst dl => do
    let a ← okOr (assetAt t) "InvalidAssetAddress"
    remove s who a xrp l m me dst dl
  | .swapExactTokensForTokens i m path dst dl => sell c s who i m path dst dl
  | .swapTokensForExactTokens o m path dst dl => buy c s who o m path dst dl
  | .swapExactETHForTokens m path dst dl => sell c s who value m path dst dl
  | .swapTokensForExactETH o m path dst dl => buy c s who o m path dst dl
  | .swapExactTokensForETH i m path dst dl => sell c s who i m path dst dl
  | .swapETHForExactTokens o path dst dl => buy c s who o value path dst dl
  -- 834-856 `quote`
  | .quote a ra rb => do
    let x ← toBalance ra
    let y ← toBalance rb
    let q ← Dex.quote a x y
    pure (s, [q])
  -- 882-904 `get_amount_in`
  | .getAmountIn o ri ro => do
    let x ← toBalance o
    let y ← toBalance ri
    let z ← toBalance ro
    let q ← Dex.getAmountIn c x y z
    pure (s, [q])
  -- 858-880 `get_amount_out`
  | .getAmountOut i ri ro => do
    let x ← toBalance i
    let y ← toBalance ri
    let z ← toBalance ro
    let q ← Dex.getAmountOut c x y z
    pure (s, [q])
  -- 943-978 `get_amounts_in`
  | .getAmountsIn o path => do
    let p ← assetsAt path
    let x ← toBalance o
    let q ← Dex.getAmountsIn c s x p
    pure (s, q)
  -- 906-941 `get_amounts_out`
  | .getAmountsOut i path => do
    let p ← assetsAt path
    let x ← toBalance i
    let q ← Dex.getAmountsOut c s x p
    pure (s, q)

/-- A call of the contract: caller, value in wei, whether it is a static call, and function with arguments. -/
structure Call where
  who : Acct
  value : Nat
  isStatic : Bool
  input : Input

/-- The value of a call, moved by the EVM (dependency, through `EvmCurrencyScaler::transfer`, runtime/src/impls.rs:178-195)
before the contract runs. The EVM refuses values beyond `u128`. -/
def payValue (s : Dex.St) (who : Acct) (value : Nat) : Except Err Dex.St :=
  if value = 0 then .ok s
  else do
    ensure (value < U128) "OutOfFund"
    let v ← EvmMoney.toDrops value
    let led ← s.led.transfer xrp who dexAddr v
    pure { s with led := led }

/-- lib.rs:101-143 `execute`, with the EVM's transfer of the value in front. -/
def call (c : Dex.Cfg) (s : Dex.St) (k : Call) : Except Err (Dex.St × List Nat) := do
  let s1 ← payValue s k.who k.value
  checkModifier k.isStatic k.value (modifierOf k.input)
  dispatch c s1 k.who k.value k.input

/-- What can happen: calls of the contract and everything of the exchange model. -/
inductive Op where
  | contract (k : Call)
  | native (op : Dex.Op)

/-- One operation; a failing call reverts and changes nothing. -/
def step (c : Dex.Cfg) (s : Dex.St) : Op → Except Err Dex.St
  | .contract k => (call c s k).map Prod.fst
  | .native op => Dex.step c s op

/-- The account the operation acts for. -/
def Op.signer : Op → Option Acct
  | .contract k => some k.who
  | .native op => op.signer

/-- States reachable by any history; nobody holds a key of a pool, of the burn account or of the contract. -/
inductive Reach (c : Dex.Cfg) : Dex.St → Prop where
  | init {s : Dex.St} : Dex.Genesis s → Reach c s
  | step {s s' : Dex.St} {op : Op} : Reach c s → (∀ w, op.signer = some w → Dex.Keyed w ∧ w ≠ dexAddr) →
      step c s op = .ok s' → Reach c s'

end Verif.DexEvm
