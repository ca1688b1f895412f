import Verif.Ledger

/-!
# Model of what built-in contracts charge

/repo/evm-precompiles: for every function of a built-in contract that changes state, the cost of logs it records
(`record_log_costs_manual`, in /repo/evm-precompiles/utils/src/handle.rs:43-47), the logs it emits, and how the weight of what it does
is charged for (`record_cost` before a pallet's function is called, or `try_dispatch`). Emitting a log charges nothing by itself
(utils/src/logs.rs:76-90: `handle.log`). Not modelled: what the functions do (other modules do), the calls futurepasses pass on
(their gas is the called contract's), the proof sizes of weights, and the memory and call costs of the EVM around them.
-/

namespace Verif.Gas

/-- The functions that change state. A number is how many entries (serial numbers, tokens, swaps, bytes) a call has; lists of numbers
are the serial numbers of each collection. -/
inductive Fn where
  | erc20Approve | erc20Transfer | erc20TransferFrom
  | nftTransferFrom | nftSafeTransferFrom | nftSafeTransferFromData | nftApprove | nftSetApprovalForAll
  | nftMint (n : Nat) | nftSetMaxSupply | nftSetBaseUri (bytes : Nat) | nftTogglePublicMint | nftSetMintFee
  | nftRenounce | nftTransferOwnership | nftBurn | nftEnableXls20 | nftReRequestXls20 (n : Nat)
  | sftSetApprovalForAll | sftSafeTransferFrom | sftSafeBatchTransferFrom (n : Nat) | sftBurn | sftBurnBatch (n : Nat)
  | sftRenounce | sftTransferOwnership | sftCreateToken | sftMint | sftMintBatch (n : Nat) | sftSetMaxSupply
  | sftSetBaseUri (bytes : Nat) | sftTogglePublicMint | sftSetMintFee
  | dexAdd | dexAddEth | dexRemove | dexRemoveEth | dexSwap (n : Nat)
  | passRegister | passUnregister | passProxy | passRenounce | passTransferOwnership | passCreate
  | marketRegister | marketSellNft (n : Nat) | marketSellSft (n : Nat) | marketUpdate (n : Nat) | marketBuy (n : Nat)
  | marketAuctionNft (n : Nat) | marketAuctionSft (n : Nat) | marketBid | marketCancel (n : Nat) | marketOffer | marketCancelOffer
  | marketAccept
  | nftInitialize | sftInitialize
  | pegErc20 | pegErc721 (serials : List Nat)
deriving DecidableEq

/-- The length in bytes of a byte string in the ABI, without its offset and length words (utils/src/data.rs: whole words). -/
def padded (n : Nat) : Nat := (n + 31) / 32 * 32

/-- What a function records for its logs: topics and bytes. The lines are those of the call of `record_log_costs_manual` in `src/lib.rs`
of the contract. -/
def recorded : Fn → Option (Nat × Nat)
  -- erc20: 233, 270, 307
  | .erc20Approve => some (2, 32)
  | .erc20Transfer => some (2, 32)
  | .erc20TransferFrom => some (3, 32)
  -- erc721: 346, 405, 424, 528, 628, 739, 798, 833, 899, 925, 986, 1019, 1044, (none: 1096-1117), 1122
  | .nftTransferFrom => some (3, 32)
  | .nftSafeTransferFrom => some (3, 32)
  | .nftSafeTransferFromData => some (4, 32)
  | .nftApprove => some (2, 32)
  | .nftSetApprovalForAll => some (2, 32)
  | .nftMint _ => some (2, 32)
  | .nftSetMaxSupply => some (1, 32)
  | .nftSetBaseUri _ => some (1, 32)
  | .nftTogglePublicMint => some (1, 32)
  | .nftSetMintFee => some (3, 32)
  | .nftRenounce => some (3, 32)
  | .nftTransferOwnership => some (3, 32)
  | .nftBurn => some (4, 32)
  | .nftEnableXls20 => none
  | .nftReRequestXls20 _ => some (2, 32)
  -- erc1155: 339, 372, 461, (none: 609-657), 664, 797, 830, 855, 913, 958, 1019, 1061, 1093, 1124
  | .sftSetApprovalForAll => some (3, 32)
  | .sftSafeTransferFrom => some (4, 32)
  | .sftSafeBatchTransferFrom _ => some (4, 32)
  | .sftBurn => none
  | .sftBurnBatch _ => some (4, 32)
  | .sftRenounce => some (3, 32)
  | .sftTransferOwnership => some (3, 32)
  | .sftCreateToken => some (2, 32)
  | .sftMint => some (4, 32)
  | .sftMintBatch _ => some (4, 32)
  | .sftSetMaxSupply => some (2, 32)
  | .sftSetBaseUri _ => some (1, 32)
  | .sftTogglePublicMint => some (2, 32)
  | .sftSetMintFee => some (3, 32)
  -- dex: 162, (none: 228-285), 295, 359, 458 and 528, 597, 667, 737, 806 (the topics of all swaps, the bytes of one word)
  | .dexAdd => some (3, 32)
  | .dexAddEth => none
  | .dexRemove => some (4, 32)
  | .dexRemoveEth => some (4, 32)
  | .dexSwap n => some (4 * n, 32)
  -- futurepass: 234, 273, 383 and 410, 437, 496, 597, 627; futurepass-registrar: 110
  | .passRegister => some (3, 32)
  | .passUnregister => some (2, 32)
  | .passProxy => some (4, 32)
  | .passRenounce => some (3, 32)
  | .passTransferOwnership => some (3, 32)
  | .passCreate => some (2, 32)
  -- marketplace: 230, 285, 390, 505, 560, 613, 718, 832, 874, 942, 1011, 1047
  | .marketRegister => some (2, 32)
  | .marketSellNft _ => some (3, 32)
  | .marketSellSft _ => some (3, 32)
  | .marketUpdate _ => some (3, 32)
  | .marketBuy _ => some (3, 32)
  | .marketAuctionNft _ => some (3, 32)
  | .marketAuctionSft _ => some (3, 32)
  | .marketBid => some (3, 32)
  | .marketCancel _ => some (2, 32)
  | .marketOffer => some (2, 32)
  | .marketCancelOffer => some (2, 32)
  | .marketAccept => some (3, 32)
  -- nft: 105; sft: 100
  | .nftInitialize => some (7, 32)
  | .sftInitialize => some (7, 32)
  -- peg: 106, 175
  | .pegErc20 => some (3, 32)
  | .pegErc721 _ => some (3, 32)

/-- The logs a call emits when it succeeds: topics and bytes of each. The lines are those of the call of `log0` to `log4`. -/
def emitted : Fn → List (Nat × Nat)
  -- erc20: 253, 290, 350
  | .erc20Approve => [(3, 32)]
  | .erc20Transfer => [(3, 32)]
  | .erc20TransferFrom => [(3, 32)]
  -- erc721: 394, 394, 517, 561, 646, 779 (one for each token), 818, 851, 911, 954, 1002, 1033, 1083, 1112, 1155 (one for each token)
  | .nftTransferFrom => [(4, 0)]
  | .nftSafeTransferFrom => [(4, 0)]
  | .nftSafeTransferFromData => [(4, 0)]
  | .nftApprove => [(4, 0)]
  | .nftSetApprovalForAll => [(3, 32)]
  | .nftMint n => List.replicate n (4, 0)
  | .nftSetMaxSupply => [(1, 32)]
  | .nftSetBaseUri b => [(1, 64 + padded b)]
  | .nftTogglePublicMint => [(1, 32)]
  | .nftSetMintFee => [(3, 0)]
  | .nftRenounce => [(3, 0)]
  | .nftTransferOwnership => [(3, 0)]
  | .nftBurn => [(4, 0)]
  | .nftEnableXls20 => [(0, 32)]
  | .nftReRequestXls20 n => List.replicate n (1, 64)
  -- erc1155: 357, 404, 508, 647, 716, 813, 844, 893, 941, 1002, 1045, 1078, 1109, 1156
  | .sftSetApprovalForAll => [(3, 32)]
  | .sftSafeTransferFrom => [(4, 64)]
  | .sftSafeBatchTransferFrom n => [(4, 128 + 64 * n)]
  | .sftBurn => [(4, 64)]
  | .sftBurnBatch n => [(4, 128 + 64 * n)]
  | .sftRenounce => [(3, 0)]
  | .sftTransferOwnership => [(3, 0)]
  | .sftCreateToken => [(2, 0)]
  | .sftMint => [(4, 64)]
  | .sftMintBatch n => [(4, 128 + 64 * n)]
  | .sftSetMaxSupply => [(2, 0)]
  | .sftSetBaseUri b => [(1, 64 + padded b)]
  | .sftTogglePublicMint => [(2, 32)]
  | .sftSetMintFee => [(4, 0)]
  -- dex: 213, 275, 344, 402, 467 and 537, 606, 676, 746, 815 (one for each swap of the path)
  | .dexAdd => [(3, 32)]
  | .dexAddEth => [(3, 32)]
  | .dexRemove => [(4, 32)]
  | .dexRemoveEth => [(4, 32)]
  | .dexSwap n => List.replicate n (4, 96)
  -- futurepass: 259, 288, 395 and 422, 483, 557, 613, 645; futurepass-registrar: 126
  | .passRegister => [(3, 32)]
  | .passUnregister => [(2, 32)]
  | .passProxy => [(4, 32)]
  | .passRenounce => [(3, 0)]
  | .passTransferOwnership => [(3, 0)]
  | .passCreate => [(2, 32)]
  -- marketplace: 271, 371, 485, 541, 587, 697, 813, 860, 905 and 920, 993, 1031, 1068
  | .marketRegister => [(3, 32)]
  | .marketSellNft n => [(4, 128 + 32 * n)]
  | .marketSellSft n => [(4, 192 + 64 * n)]
  | .marketUpdate n => [(4, 128 + 32 * n)]
  | .marketBuy n => [(4, 128 + 32 * n)]
  | .marketAuctionNft n => [(4, 128 + 32 * n)]
  | .marketAuctionSft n => [(4, 128 + 32 * n)]
  | .marketBid => [(4, 32)]
  | .marketCancel n => [(3, 128 + 32 * n)]
  | .marketOffer => [(3, 96)]
  | .marketCancelOffer => [(3, 96)]
  | .marketAccept => [(4, 96)]
  -- nft: 199; sft: 176
  | .nftInitialize => [(2, 32)]
  | .sftInitialize => [(3, 0)]
  -- peg: 156, 251 (one for each collection)
  | .pegErc20 => [(4, 32)]
  | .pegErc721 ns => ns.map (fun n => (4, 64 + 32 * n))

/-- How a piece of work is charged for. -/
inductive Work where
  /-- `RuntimeHelper::try_dispatch` (utils/src/substrate.rs:59-92) -/
  | dispatch
  /-- `handle.record_cost(weight_to_gas(…))?`, then the pallet's function is called -/
  | upfront
  /-- the pallet's function is called, and nothing recorded -/
  | direct
deriving DecidableEq

/-- What a function has done by pallets, in order. -/
def work : Fn → List Work
  -- erc20: 328 (the allowance) and 339 (the transfer)
  | .erc20TransferFrom => [.dispatch, .dispatch]
  -- erc1155: 886-893: `pallet_sft::do_create_token`
  | .sftCreateToken => [.direct]
  -- dex: 194, 256, 326, 375, 444 and 514, 583, 653, 723, 792
  | .dexAdd | .dexAddEth | .dexRemove | .dexRemoveEth | .dexSwap _ => [.upfront]
  -- futurepass-registrar: 114
  | .passCreate => [.upfront]
  -- the calls futurepasses pass on
  | .passProxy => []
  -- marketplace: 257, 354, 468, 569, 678, 794, 977
  | .marketRegister | .marketSellNft _ | .marketSellSft _ | .marketBuy _ | .marketAuctionNft _ | .marketAuctionSft _
  | .marketOffer => [.upfront]
  -- nft: 176; sft: 159; peg: 135, 231
  | .nftInitialize | .sftInitialize | .pegErc20 | .pegErc721 _ => [.upfront]
  -- all others: one `try_dispatch`
  | _ => [.dispatch]

/-- A piece of work in a given state of the chain. -/
structure Task where
  /-- the weight declared for it -/
  declared : Nat
  /-- the weight of what is really done (reported in `PostDispatchInfo`, when it succeeds) -/
  actual : Nat
  succeeds : Bool
deriving DecidableEq

/-- How a call of a contract ends (`PrecompileResult`, dependency). -/
inductive Outcome where
  | done
  /-- the changes are rolled back, the remaining gas is returned -/
  | reverted
  /-- the changes are rolled back, the gas is consumed -/
  | outOfGas
deriving DecidableEq

/-- The end of a call: what came out, how much of the gas is left, and the weight of the work done. -/
structure End where
  outcome : Outcome
  left : Nat
  weight : Nat
deriving DecidableEq

/-- `FixedGasWeightMapping::weight_to_gas` (/repo/runtime/src/lib.rs:1119-1124), with the weight of a unit of gas. -/
def toGas (per w : Nat) : Nat := w / per

/-- `record_cost`: nothing if there is not enough gas. -/
def charge (gas cost : Nat) : Option Nat := if cost ≤ gas then some (gas - cost) else none

/-- /repo/evm-precompiles/utils/src/costs.rs:23-46 `log_costs`; arguments that overflow 64 bits run out of gas either way. -/
def logCost (l : Nat × Nat) : Nat := 375 + 375 * l.1 + 8 * l.2

/-- What a function records for its logs. -/
def logCharge (f : Fn) : Nat := ((recorded f).map logCost).getD 0

/-- One piece of work: `none` in the second place if the gas does not suffice (all of it is then consumed), and whether it succeeded
otherwise. -/
def runTask (per gas : Nat) (t : Task) : Work → Nat × Option (Nat × Bool)
  | .dispatch =>
    -- substrate.rs:69-74: what is required is only compared with what is left
    if gas < toGas per t.declared then (0, none)
    -- substrate.rs:81-82: an error is returned, nothing recorded
    else if t.succeeds = false then (t.actual, some (gas, false))
    -- substrate.rs:84-91
    else match charge gas (toGas per t.actual) with
      | none => (t.actual, none)
      | some g => (t.actual, some (g, true))
  | .upfront =>
    match charge gas (toGas per t.declared) with
    | none => (0, none)
    | some g => (t.actual, some (g, t.succeeds))
  | .direct => (t.actual, some (gas, t.succeeds))

/-- The pieces of work in turn, until one fails. -/
def runTasks (per : Nat) : List (Work × Task) → Nat → Nat → End
  | [], gas, w => ⟨.done, gas, w⟩
  | (k, t) :: rest, gas, w =>
    match runTask per gas t k with
    | (a, none) => ⟨.outOfGas, 0, w + a⟩
    | (a, some (g, false)) => ⟨.reverted, g, w + a⟩
    | (a, some (g, true)) => runTasks per rest g (w + a)

/-- Whether the cost of logs is recorded after the work (dex: 458) rather than at the start. -/
def logsLast : Fn → Bool
  | .dexSwap _ => true
  | _ => false

/-- A call of a function with some gas: the cost of its logs, that of the reads it makes itself (`db_read_gas_cost`), and its work. -/
def call (per : Nat) (f : Fn) (reads : Nat) (tasks : List Task) (gas : Nat) : End :=
  match charge gas (reads + if logsLast f = true then 0 else logCharge f) with
  | none => ⟨.outOfGas, 0, 0⟩
  | some g =>
    let e := runTasks per ((work f).zip tasks) g 0
    if logsLast f = true ∧ e.outcome = .done then
      match charge e.left (logCharge f) with
      | none => ⟨.outOfGas, 0, e.weight⟩
      | some g => ⟨.done, g, e.weight⟩
    else e

/-- A contract that makes the same call again and again, whether it reverts or not: the gas left and the weight of the work done. -/
def again (per : Nat) (f : Fn) (reads : Nat) (tasks : List Task) : Nat → Nat → Nat × Nat
  | 0, gas => (gas, 0)
  | k + 1, gas =>
    let e := call per f reads tasks gas
    let r := again per f reads tasks k e.left
    (r.1, e.weight + r.2)

end Verif.Gas
