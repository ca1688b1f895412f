{
 "claims": [
  {
   "property": "C01",
   "status": "proved",
   "theorems": [
    "Verif.Dex.C01_swap_keeps_product"
   ],
   "note": ""
  },
  {
   "property": "C02",
   "status": "proved",
   "theorems": [
    "Verif.Dex.C02_exact_supply",
    "Verif.Dex.C02_exact_supply_trader"
   ],
   "note": ""
  },
  {
   "property": "C03",
   "status": "proved",
   "theorems": [
    "Verif.Dex.C03_exact_target",
    "Verif.Dex.C03_exact_target_trader"
   ],
   "note": ""
  },
  {
   "property": "C04",
   "status": "partial",
   "theorems": [
    "Verif.Dex.C04_quote_in_suffices",
    "Verif.Dex.C04_quote_out_in",
    "Verif.Dex.C04_quote_lt_reserve",
    "Verif.Dex.C04_saturated_quote_refuted"
   ],
   "note": "Holds for every quote below u128::MAX; a quote that saturates buys less than the target (refuted by a witness)."
  },
  {
   "property": "C05",
   "status": "proved",
   "theorems": [
    "Verif.Dex.C05_no_dilution"
   ],
   "note": ""
  },
  {
   "property": "C06",
   "status": "proved",
   "theorems": [
    "Verif.Dex.C06_add_remove_no_profit",
    "Verif.Dex.C06_swap_back_no_profit"
   ],
   "note": "For pools nobody has sent tokens to directly (NoDonation)."
  },
  {
   "property": "C07",
   "status": "proved",
   "theorems": [
    "Verif.Dex.C07_tokens_conserved",
    "Verif.Dex.C07_supply_is_sum"
   ],
   "note": ""
  },
  {
   "property": "C08",
   "status": "proved",
   "theorems": [
    "Verif.Dex.C08_reserves_backed",
    "Verif.Dex.C08_pools_distinct"
   ],
   "note": ""
  },
  {
   "property": "C09",
   "status": "proved",
   "theorems": [
    "Verif.Dex.C09_min_liquidity_locked",
    "Verif.Dex.C09_lp_token_permanent"
   ],
   "note": ""
  },
  {
   "property": "C10",
   "status": "proved",
   "theorems": [
    "Verif.Dex.C10_disabled_no_swap",
    "Verif.Dex.C10_disabled_no_add",
    "Verif.Dex.C10_remove_ignores_status"
   ],
   "note": ""
  },
  {
   "property": "C100",
   "status": "proved",
   "theorems": [
    "Verif.Futurepass.C100_signed",
    "Verif.Futurepass.C100_refused",
    "Verif.Futurepass.C100_evm",
    "Verif.Futurepass.C100_stranger"
   ],
   "note": ""
  },
  {
   "property": "C101",
   "status": "proved",
   "theorems": [
    "Verif.Futurepass.C101_reserved",
    "Verif.Futurepass.C101_total",
    "Verif.Futurepass.C101_create",
    "Verif.Futurepass.C101_register",
    "Verif.Futurepass.C101_unregister",
    "Verif.Futurepass.C101_renounce"
   ],
   "note": ""
  },
  {
   "property": "C102",
   "status": "partial",
   "theorems": [
    "Verif.Futurepass.C102_partial",
    "Verif.Futurepass.C102_refuted"
   ],
   "note": "Holds when the holder removes the delegate; a delegate that leaves receives the deposit the holder paid (witness)."
  },
  {
   "property": "C103",
   "status": "partial",
   "theorems": [
    "Verif.Futurepass.C103_partial",
    "Verif.Futurepass.C103_refuted"
   ],
   "note": "Holds when the caller holds the futurepass called; otherwise the caller's own futurepass moves (witness)."
  },
  {
   "property": "C104",
   "status": "partial",
   "theorems": [
    "Verif.Futurepass.C104_partial",
    "Verif.Futurepass.C104_refuted"
   ],
   "note": "Holds for plain calls; the futurepass precompile accepts DELEGATECALL, so a contract that a holder calls can take the futurepass (witness)."
  },
  {
   "property": "C105",
   "status": "partial",
   "theorems": [
    "Verif.Futurepass.C105_partial",
    "Verif.Futurepass.C105_refuted"
   ],
   "note": "Direct removal always succeeds; proxied management is refused after a transfer to a former delegate (witness)."
  },
  {
   "property": "C106",
   "status": "partial",
   "theorems": [
    "Verif.Futurepass.C106_partial",
    "Verif.Futurepass.C106_refuted"
   ],
   "note": "Proxied EVM calls with less than four bytes of call data to a futurepass or the registrar crash (witness); nothing else does."
  },
  {
   "property": "C107",
   "status": "partial",
   "theorems": [
    "Verif.EvmMoney.C107_moves",
    "Verif.EvmMoney.C107_exact_partial",
    "Verif.EvmMoney.C107_series_partial",
    "Verif.EvmMoney.C107_series_bounds",
    "Verif.EvmMoney.C107_exact_refuted",
    "Verif.EvmMoney.C107_series_refuted"
   ],
   "note": "False for amounts that are not whole drops: each payment is rounded up at the payer's cost (witnesses). Exact for whole drops; tight bounds otherwise."
  },
  {
   "property": "C108",
   "status": "proved",
   "theorems": [
    "Verif.EvmMoney.C108_fee",
    "Verif.EvmMoney.C108_plain",
    "Verif.EvmMoney.C108_pref"
   ],
   "note": "For a supply below 2^127 drops, gas prices at least the base fee and fees below 2^128 wei."
  },
  {
   "property": "C109",
   "status": "proved",
   "theorems": [
    "Verif.EvmMoney.C109_supply",
    "Verif.EvmMoney.C109_no_minting"
   ],
   "note": ""
  },
  {
   "property": "C11",
   "status": "partial",
   "theorems": [
    "Verif.Dex.C11_fee_bound_partial",
    "Verif.Dex.C11_toggle_refuted"
   ],
   "note": "Bound proved for histories that never change the fee account; false when the fee is toggled (witness)."
  },
  {
   "property": "C110",
   "status": "proved",
   "theorems": [
    "Verif.EvmMoney.C110_pot_covers"
   ],
   "note": "For a supply below 2^127 drops."
  },
  {
   "property": "C111",
   "status": "partial",
   "theorems": [
    "Verif.EvmMoney.C111_fee",
    "Verif.EvmMoney.C111_signer_pays_partial",
    "Verif.EvmMoney.C111_refund_refuted"
   ],
   "note": "When a futurepass pays, it is charged the full fee and the refund goes to the signer (witness); holds when the signer pays."
  },
  {
   "property": "C112",
   "status": "partial",
   "theorems": [
    "Verif.EvmMoney.C112_signed",
    "Verif.EvmMoney.C112_evm_partial",
    "Verif.EvmMoney.C112_evm_refuted"
   ],
   "note": "Holds for signed transactions; the maximal payment in an EVM transaction is decoded and ignored (witness)."
  },
  {
   "property": "C113",
   "status": "proved",
   "theorems": [
    "Verif.EvmMoney.C113_enough"
   ],
   "note": "When the EVM charges at most base fee plus tip per gas."
  },
  {
   "property": "C114",
   "status": "partial",
   "theorems": [
    "Verif.EvmMoney.C114_no_crash_partial",
    "Verif.EvmMoney.C114_fee_data_partial",
    "Verif.EvmMoney.C114_crash_refuted"
   ],
   "note": "A fee preference with a huge maximal fee per gas crashes the computation (witness); transactions without one never crash while the supply in wei fits 128 bits."
  },
  {
   "property": "C115",
   "status": "proved",
   "theorems": [
    "Verif.EvmMoney.C115_bystanders"
   ],
   "note": ""
  },
  {
   "property": "C116",
   "status": "partial",
   "theorems": [
    "Verif.Entry.C116_blocked_never_runs_partial",
    "Verif.Entry.C116_lists_safe",
    "Verif.Entry.C116_refuted"
   ],
   "note": "Precompiles that call pallets directly (e.g. the exchange's) ignore the block lists (witness); nothing else does."
  },
  {
   "property": "C117",
   "status": "partial",
   "theorems": [
    "Verif.Entry.C117_blocked_account_partial",
    "Verif.Entry.C117_refuted_xrpl",
    "Verif.Entry.C117_refuted_delegate"
   ],
   "note": "Signed extrinsics, Ethereum transactions and EVM::call are refused; XRPL messages of a blocked account and calls through delegates of a blocked futurepass run (witnesses)."
  },
  {
   "property": "C118",
   "status": "partial",
   "theorems": [
    "Verif.Entry.C118_blocked_target_partial",
    "Verif.Entry.C118_refuted_fee_proxy",
    "Verif.Entry.C118_refuted_nested"
   ],
   "note": "The direct target is checked; calls through the fee-proxy precompile and calls made by contracts are not (witnesses)."
  },
  {
   "property": "C119",
   "status": "proved",
   "theorems": [
    "Verif.Entry.C119_switched_off"
   ],
   "note": ""
  },
  {
   "property": "C12",
   "status": "proved",
   "theorems": [
    "Verif.Ethy.C12_delivered_once"
   ],
   "note": ""
  },
  {
   "property": "C120",
   "status": "proved",
   "theorems": [
    "Verif.Entry.C120_xrpl_authentic"
   ],
   "note": "Signature check, hashing and account derivation are arbitrary functions."
  },
  {
   "property": "C121",
   "status": "partial",
   "theorems": [
    "Verif.Entry.C121_no_replay_partial",
    "Verif.Entry.C121_refuted"
   ],
   "note": "An account that runs empty and is removed starts again at nonce 0, so an XRPL message still in its block range can be replayed (witness); holds while the account is not removed."
  },
  {
   "property": "C122",
   "status": "proved",
   "theorems": [
    "Verif.Entry.C122_fee",
    "Verif.Entry.C122_failed_call"
   ],
   "note": "Fees in XRP; the fee of a call is an arbitrary function."
  },
  {
   "property": "C123",
   "status": "partial",
   "theorems": [
    "Verif.Entry.C123_no_panic_partial",
    "Verif.Entry.C123_refuted"
   ],
   "note": "An empty public key text makes the node slice an empty string (witness); every other message is handled."
  },
  {
   "property": "C124",
   "status": "proved",
   "theorems": [
    "Verif.Entry.C124_doughnut_authentic"
   ],
   "note": ""
  },
  {
   "property": "C125",
   "status": "partial",
   "theorems": [
    "Verif.Entry.C125_revoked_stops_partial",
    "Verif.Entry.C125_revoke",
    "Verif.Entry.C125_only_issuer",
    "Verif.Entry.C125_refuted_bytes",
    "Verif.Entry.C125_refuted_fee"
   ],
   "note": "The revocation is by hash of the submitted bytes, so a trailing byte evades it, and a revoked doughnut still makes the issuer pay fees and tips (witnesses); the same bytes and a revoked holder run nothing."
  },
  {
   "property": "C126",
   "status": "proved",
   "theorems": [
    "Verif.Entry.C126_only_permitted"
   ],
   "note": ""
  },
  {
   "property": "C127",
   "status": "partial",
   "theorems": [
    "Verif.NftPeg.C127_backed_partial",
    "Verif.NftPeg.C127_large_id_refuted"
   ],
   "note": "Holds when deposited ids are below 2^32-1; two larger ids share a serial number (witness)."
  },
  {
   "property": "C128",
   "status": "proved",
   "theorems": [
    "Verif.NftPeg.C128_withdraw"
   ],
   "note": ""
  },
  {
   "property": "C129",
   "status": "partial",
   "theorems": [
    "Verif.Xls20.C129_deposit_partial",
    "Verif.Xls20.C129_failed_stuck",
    "Verif.Xls20.C129_stuck_forever",
    "Verif.Xls20.C129_burnable_refuted",
    "Verif.Xls20.C129_migration_refuted"
   ],
   "note": "A token its issuer may burn, or any token that arrives during a migration, stays with the door account for ever (witnesses); every deposit processed without an error gives the receiver the token. Assumes that issuer and sequence number determine a token on the XRP ledger and that root does not map collections by hand."
  },
  {
   "property": "C13",
   "status": "partial",
   "theorems": [
    "Verif.Ethy.C13_challenged_not_delivered",
    "Verif.Ethy.C13_only_blocks_deliver",
    "Verif.Ethy.C13_waits_challenge_period_partial",
    "Verif.Ethy.C13_stale_schedule_refuted"
   ],
   "note": "First half proved. Second half proved for ids without an invalid verdict; false otherwise (stale schedule entry, witness)."
  },
  {
   "property": "C130",
   "status": "proved",
   "theorems": [
    "Verif.Xls20.C130_withdraw",
    "Verif.Xls20.C130_can_withdraw"
   ],
   "note": "Assumes that root does not map collections by hand."
  },
  {
   "property": "C131",
   "status": "partial",
   "theorems": [
    "Verif.Xls20.C131_backed_partial",
    "Verif.Xls20.C131_remap_refuted"
   ],
   "note": "False once root maps two XRPL collections to one: a depositor gets nothing and another account withdraws their token (witness)."
  },
  {
   "property": "C132",
   "status": "partial",
   "theorems": [
    "Verif.Xls20.C132_recorded_by",
    "Verif.Xls20.C132_fixed_partial",
    "Verif.Xls20.C131_remap_refuted"
   ],
   "note": "The id changes when root maps two XRPL collections to one (witness)."
  },
  {
   "property": "C133",
   "status": "partial",
   "theorems": [
    "Verif.Xls20.C133_decode",
    "Verif.Xls20.C133_collections_apart_partial",
    "Verif.Xls20.C133_remap_refuted"
   ],
   "note": "Collections are apart while root does not map them by hand."
  },
  {
   "property": "C134",
   "status": "proved",
   "theorems": [
    "Verif.Entry.C134_acts",
    "Verif.Entry.C134_source"
   ],
   "note": "Which accounts the EVM code calls from is an input of the model (the EVM itself is not modelled); everything else is not."
  },
  {
   "property": "C135",
   "status": "proved",
   "theorems": [
    "Verif.Migration.C135_outcome",
    "Verif.Migration.C135_same",
    "Verif.Migration.C135_guarded",
    "Verif.Migration.C135_paused"
   ],
   "note": "For every migration whose version check turns true only at completion."
  },
  {
   "property": "C136",
   "status": "proved",
   "theorems": [
    "Verif.Migration.C136_finishes",
    "Verif.Migration.C136_delay"
   ],
   "note": ""
  },
  {
   "property": "C137",
   "status": "partial",
   "theorems": [
    "Verif.Migration.C137_weight_partial",
    "Verif.Migration.C137_refuted"
   ],
   "note": "The loop stops only after the limit has been reached, so a block may use up to one step more than remains (witness)."
  },
  {
   "property": "C138",
   "status": "partial",
   "theorems": [
    "Verif.Migration.C138_fresh_partial",
    "Verif.Migration.C138_refuted"
   ],
   "note": "The last key is not cleared when the runtime is replaced during a migration, so the next migration skips items (witness); holds when no upgrade falls into a migration."
  },
  {
   "property": "C139",
   "status": "partial",
   "theorems": [
    "Verif.Nfi.C139_data_partial",
    "Verif.Nfi.C139_burn",
    "Verif.Nfi.C139_refuted"
   ],
   "note": "Data of a token burnt while root has set another EVM chain id stays and reappears with the old chain id (witness); holds while the chain id is not changed."
  },
  {
   "property": "C14",
   "status": "partial",
   "theorems": [
    "Verif.Ethy.C14_resubmission_partial",
    "Verif.Ethy.C14_genuine_event_blocked_refuted"
   ],
   "note": "False: the schedule entry of the struck-down claim marks the id as processed (witness). Resubmission works until then."
  },
  {
   "property": "C140",
   "status": "proved",
   "theorems": [
    "Verif.Nfi.C140_mint",
    "Verif.Nfi.C140_token",
    "Verif.Nfi.C140_manual",
    "Verif.Nfi.C140_positive",
    "Verif.Nfi.C140_else"
   ],
   "note": "For totals below 2^128."
  },
  {
   "property": "C141",
   "status": "partial",
   "theorems": [
    "Verif.Nfi.C141_enable",
    "Verif.Nfi.C141_flag",
    "Verif.Nfi.C141_data",
    "Verif.Nfi.C141_submit",
    "Verif.Nfi.C141_request_partial",
    "Verif.Nfi.C141_refuted"
   ],
   "note": "The owner of an SFT collection can ask (and pays) for the data of a token that does not exist (witness); everything else holds."
  },
  {
   "property": "C142",
   "status": "partial",
   "theorems": [
    "Verif.NfiUpgrade.C142_data",
    "Verif.NfiUpgrade.C142_flags",
    "Verif.NfiUpgrade.C142_upgrade",
    "Verif.NfiUpgrade.C142_once",
    "Verif.NfiUpgrade.C142_refuted"
   ],
   "note": "The loop can come across a record it has just written and take it for an old one, which makes one extra record, for a token whose collection id is the chain id (witness); no other record is made, and all records are kept."
  },
  {
   "property": "C143",
   "status": "partial",
   "theorems": [
    "Verif.Callback.C143_reachable",
    "Verif.Callback.C143_held_partial",
    "Verif.Callback.C143_plain",
    "Verif.Callback.C143_refuted"
   ],
   "note": "safeTransferFrom checks the approval before it calls the receiver; the receiver can sell the token to an open offer and then takes it back from the buyer, who pays and gets nothing (witness). Tokens owned before the transaction are safe."
  },
  {
   "property": "C144",
   "status": "partial",
   "theorems": [
    "Verif.Callback.C144_no_panic_partial",
    "Verif.Callback.C144_refuted"
   ],
   "note": "A receiver that returns fewer than four bytes makes the node panic (witness); no panic otherwise."
  },
  {
   "property": "C145",
   "status": "partial",
   "theorems": [
    "Verif.Callback.C145_721_refuted",
    "Verif.Callback.C145_721_arguments",
    "Verif.Callback.C145_1155_refuted",
    "Verif.Callback.C145_1155_partial"
   ],
   "note": "The receiver sees the operator, not the token contract, as its caller, and ERC-721 receivers are told owner and receiver instead of operator and owner (for all transfers). The arguments of single ERC-1155 transfers are as demanded."
  },
  {
   "property": "C146",
   "status": "partial",
   "theorems": [
    "Verif.Callback.C146_refuted",
    "Verif.Callback.C146_single_partial"
   ],
   "note": "Batch transfers ask with the selector of single transfers and wait for that of batches, so they never reach a standard receiver (for all batches); single transfers do."
  },
  {
   "property": "C147",
   "status": "proved",
   "theorems": [
    "Verif.Callback.C147_consent"
   ],
   "note": ""
  },
  {
   "property": "C148",
   "status": "partial",
   "theorems": [
    "Verif.Callback.C148_guard_partial",
    "Verif.Callback.C148_refuted"
   ],
   "note": "Nesting is counted per address and twelve bytes of the address are ignored, so the same collection can be called under another address (witness); holds if contracts use the canonical addresses."
  },
  {
   "property": "C149",
   "status": "partial",
   "theorems": [
    "Verif.Precompile.C149_roundtrip",
    "Verif.Precompile.C149_injective",
    "Verif.Precompile.C149_disjoint",
    "Verif.Precompile.C149_serves",
    "Verif.Precompile.C149_unique",
    "Verif.Precompile.C149_canonical",
    "Verif.Precompile.C149_refuted"
   ],
   "note": "The last twelve bytes of a token contract's address are ignored, so each token contract has 2^96 addresses (for every collection); everything else holds, with exactly these exceptions."
  },
  {
   "property": "C15",
   "status": "partial",
   "theorems": [
    "Verif.Ethy.C15_majority_partial",
    "Verif.Ethy.C15_one_vote_each",
    "Verif.Ethy.C15_verdict_final",
    "Verif.Ethy.C15_rotation_refuted"
   ],
   "note": "Majority proved for a fixed notary set; false when the set changes during a vote (witness)."
  },
  {
   "property": "C150",
   "status": "partial",
   "theorems": [
    "Verif.Precompile.C150_balanced",
    "Verif.Precompile.C150_answers",
    "Verif.Precompile.C150_nesting_partial",
    "Verif.Precompile.C150_create_refuted",
    "Verif.Precompile.C150_alias_refuted"
   ],
   "note": "The limit is counted per address, and a contract created by a futurepass starts with new counters, so both other addresses and constructors re-enter (witnesses). Holds per address without such creations; counters always return to what they were."
  },
  {
   "property": "C151",
   "status": "partial",
   "theorems": [
    "Verif.Precompile.C151_delegate_partial",
    "Verif.Precompile.C151_refuted"
   ],
   "note": "Futurepasses can be borrowed (witness, see also C104); nothing else can."
  },
  {
   "property": "C152",
   "status": "proved",
   "theorems": [
    "Verif.DexEvm.C152_sell",
    "Verif.DexEvm.C152_buy"
   ],
   "note": ""
  },
  {
   "property": "C153",
   "status": "proved",
   "theorems": [
    "Verif.DexEvm.C153_add",
    "Verif.DexEvm.C153_remove"
   ],
   "note": ""
  },
  {
   "property": "C154",
   "status": "partial",
   "theorems": [
    "Verif.DexEvm.C154_sell_partial",
    "Verif.DexEvm.C154_buy_partial",
    "Verif.DexEvm.C154_add_partial",
    "Verif.DexEvm.C154_refuted",
    "Verif.DexEvm.C154_refuted_case",
    "Verif.DexEvm.C154_refuted_token",
    "Verif.DexEvm.C154_refuted_delivery"
   ],
   "note": "The contract takes the number of wei for a number of drops and takes it from the caller in addition to the value (for every use): 10^12 times too much. The first (last) token of the path need not be XRP (witnesses). The exact effects are proved."
  },
  {
   "property": "C155",
   "status": "partial",
   "theorems": [
    "Verif.DexEvm.C155_refuted",
    "Verif.DexEvm.C155_clean_partial"
   ],
   "note": "The value of every successful call stays in the contract's account for ever, over all later histories."
  },
  {
   "property": "C156",
   "status": "proved",
   "theorems": [
    "Verif.DexEvm.C156_refused"
   ],
   "note": ""
  },
  {
   "property": "C157",
   "status": "proved",
   "theorems": [
    "Verif.DexEvm.C157_query",
    "Verif.DexEvm.C157_sell",
    "Verif.DexEvm.C157_buy"
   ],
   "note": ""
  },
  {
   "property": "C158",
   "status": "partial",
   "theorems": [
    "Verif.DexEvm.C158_partial",
    "Verif.DexEvm.C158_refuted"
   ],
   "note": "The answer also contains tokens that somebody sent to the pool's address directly (witness); exact otherwise."
  },
  {
   "property": "C159",
   "status": "proved",
   "theorems": [
    "Verif.Abi.C159_answer",
    "Verif.Abi.C159_call",
    "Verif.Abi.C159_fixed"
   ],
   "note": ""
  },
  {
   "property": "C16",
   "status": "proved",
   "theorems": [
    "Verif.Ethy.C16_holds_backed",
    "Verif.Ethy.C16_open_iff_challenged",
    "Verif.Ethy.C16_invalid_pays",
    "Verif.Ethy.C16_valid_pays",
    "Verif.Ethy.C16_relayer_bonded",
    "Verif.Ethy.C16_withdraw_once"
   ],
   "note": ""
  },
  {
   "property": "C160",
   "status": "proved",
   "theorems": [
    "Verif.Abi.C160_arguments",
    "Verif.Abi.C160_distinct"
   ],
   "note": ""
  },
  {
   "property": "C161",
   "status": "proved",
   "theorems": [
    "Verif.Abi.C161_meaning",
    "Verif.Abi.C161_range",
    "Verif.Abi.C161_total"
   ],
   "note": ""
  },
  {
   "property": "C162",
   "status": "partial",
   "theorems": [
    "Verif.Abi.C162_partial",
    "Verif.Abi.C162_refuted"
   ],
   "note": "Addresses with dirty high bytes and booleans other than 0 and 1 are accepted (witnesses); signatures of numbers and 32-byte strings accept proper encodings only."
  },
  {
   "property": "C163",
   "status": "partial",
   "theorems": [
    "Verif.Abi.C163_partial",
    "Verif.Abi.C163_refuted",
    "Verif.Abi.C163_refuted_factor"
   ],
   "note": "erc721Withdraw takes a list of lists, whose items may all point to one list: 196 + 64 k bytes decode into k^2 numbers, for every k, before any limit is checked. Proved for all signatures without nested lists."
  },
  {
   "property": "C164",
   "status": "proved",
   "theorems": [
    "Verif.Gossip.C164_authentic",
    "Verif.Gossip.C164_only",
    "Verif.Gossip.C164_once"
   ],
   "note": "Gossip validator, queue and record; the gossip engine's suppression of identical bytes and time are not modelled."
  },
  {
   "property": "C165",
   "status": "partial",
   "theorems": [
    "Verif.Gossip.C165_accepted_partial",
    "Verif.Gossip.C165_counted_partial",
    "Verif.Gossip.C165_stored_partial",
    "Verif.Gossip.C165_kept_partial",
    "Verif.Gossip.C165_suppressed_refuted"
   ],
   "note": "False of the code: the signature covers the digest only, so anybody can put signed digests seen before under another event id (or an old block number); the validators then count as having voted and their genuine votes are discarded until the validators change, so the event is never proved at the node. Proved: acceptance when no earlier message with a valid signature named the event, and counting from there on."
  },
  {
   "property": "C166",
   "status": "partial",
   "theorems": [
    "Verif.Gossip.C166_quiet_partial",
    "Verif.Gossip.C166_open_partial",
    "Verif.Gossip.C166_cache_partial",
    "Verif.Gossip.C166_forgotten_refuted"
   ],
   "note": "False of the code: the cache drops the smallest id, so an event with a small id completed late is forgotten at the next completion. Proved: it holds unless 499 events with greater ids were completed; open events are never silenced."
  },
  {
   "property": "C167",
   "status": "partial",
   "theorems": [
    "Verif.Gossip.C167_memory_partial",
    "Verif.Gossip.C167_memory_refuted",
    "Verif.Gossip.C167_stays_refuted"
   ],
   "note": "False of the code: one signed digest under n event ids leaves n entries, which stay. Proved: the bound per event."
  },
  {
   "property": "C168",
   "status": "partial",
   "theorems": [
    "Verif.Gossip.Finality.C168_every_block_partial",
    "Verif.Gossip.Finality.C168_caught_up_partial",
    "Verif.Gossip.Finality.C168_restart_refuted",
    "Verif.Gossip.Finality.C168_header_refuted"
   ],
   "note": "False of the code across restarts (the worker starts at the client's last finalised block, not at the last one it handled) and when a header cannot be read. Proved: for a running node with readable headers, whichever notifications are skipped."
  },
  {
   "property": "C169",
   "status": "partial",
   "theorems": [
    "Verif.Gossip.Finality.C169_catch_up_partial",
    "Verif.Gossip.Finality.C169_catch_up_refuted"
   ],
   "note": "False of the code: one nested call per missing block exhausts any stack. Proved: with more frames than missing blocks."
  },
  {
   "property": "C17",
   "status": "proved",
   "theorems": [
    "Verif.EthyProof.C17_ids_increase",
    "Verif.EthyProof.C17_sent_or_pending",
    "Verif.EthyProof.C17_request_recorded"
   ],
   "note": "For fewer than 2^64 requests (the id is a u64)."
  },
  {
   "property": "C170",
   "status": "proved",
   "theorems": [
    "Verif.Sign.C170_accepted_was_signed",
    "Verif.Sign.C170_signed_is_accepted",
    "Verif.Sign.C170_no_signature"
   ],
   "note": "Hash functions and key recovery are parameters; unforgeability is a hypothesis, collisions an explicit alternative. Ethereum transactions of exactly 32 bytes are excluded (one may equal the hash of a long transaction)."
  },
  {
   "property": "C171",
   "status": "partial",
   "theorems": [
    "Verif.Sign.C171_partial",
    "Verif.Sign.C171_consent_is_no_transaction",
    "Verif.Sign.C171_text_authorises",
    "Verif.Sign.C171_refuted"
   ],
   "note": "False of the code: for every transaction there is a text of 32 bytes (the hash of its message) whose personal signature authorises it. Proved for texts of other lengths (5 bytes excluded too: the whole string could be a hash) and for delegates' consents."
  },
  {
   "property": "C172",
   "status": "proved",
   "theorems": [
    "Verif.Sign.C172_other_chain",
    "Verif.Sign.C172_other_version"
   ],
   "note": ""
  },
  {
   "property": "C173",
   "status": "partial",
   "theorems": [
    "Verif.Sign.C173_partial",
    "Verif.Sign.C173_refuted"
   ],
   "note": "False of the code: the consent names no chain, so it is taken on every chain. Proved: it binds futurepass, delegate, type and deadline."
  },
  {
   "property": "C174",
   "status": "partial",
   "theorems": [
    "Verif.MarketEvm.C174_partial",
    "Verif.MarketEvm.C174_no_auction",
    "Verif.MarketEvm.C174_no_sft_auction",
    "Verif.MarketEvm.C174_refuted",
    "Verif.MarketEvm.C174_cut_refuted",
    "Verif.MarketEvm.C174_share_refuted"
   ],
   "note": "False of the code: auctions with marketplace zero mean marketplace 0, which never exists, so no auction without marketplace can be made; an offer's marketplace is cut to 2^32-1; a share above one is cut to one. Proved as an equivalence for all other calls."
  },
  {
   "property": "C175",
   "status": "partial",
   "theorems": [
    "Verif.MarketEvm.C175_partial",
    "Verif.MarketEvm.C175_zero_dead",
    "Verif.MarketEvm.C175_refuted"
   ],
   "note": "False of the code: an offer made with marketplace zero is for marketplace 0, which never exists, and can never be accepted in any later state. Proved that every offer whose fees can be combined, are not too large for the amount, and whose token can be handed over is accepted."
  },
  {
   "property": "C176",
   "status": "partial",
   "theorems": [
    "Verif.MarketEvm.C176_asking",
    "Verif.MarketEvm.C176_partial",
    "Verif.MarketEvm.C176_offer_partial",
    "Verif.MarketEvm.C176_refuted",
    "Verif.MarketEvm.C176_offer_asset_refuted"
   ],
   "note": "False of the code: the quantities of a listing of semi-fungible tokens and the asset of an offer are not reported. Proved for listings of NFTs, and for token, amount and buyer of offers."
  },
  {
   "property": "C177",
   "status": "proved",
   "theorems": [
    "Verif.Notary.C177_vouch",
    "Verif.Notary.C177_one_claim",
    "Verif.Notary.C177_disputed"
   ],
   "note": "All three statements, the last over all histories with arbitrary votes of dishonest notaries. The data compared are the four fields the notary code encodes (see C178)."
  },
  {
   "property": "C178",
   "status": "partial",
   "theorems": [
    "Verif.Notary.C178_read",
    "Verif.Notary.C178_partial",
    "Verif.Notary.C178_refuted",
    "Verif.Notary.C178_slashed_refuted",
    "Verif.Notary.C178_outage_refuted",
    "Verif.Notary.C178_early_refuted",
    "Verif.Notary.C178_second_refuted"
   ],
   "note": "False of the code for every event of the bridge contract: claims are read from five fields, notaries compare with four, so all honest notaries vote against and the relayer loses the bond. Also false, even for four fields, when a provider is down, too early, and for a second message of a transaction. Proved for data of four fields in the only matching log."
  },
  {
   "property": "C179",
   "status": "partial",
   "theorems": [
    "Verif.Notary.C179_partial",
    "Verif.Notary.C179_silent",
    "Verif.Notary.C179_blocked",
    "Verif.Notary.C179_refuted"
   ],
   "note": "False of the code: only the oldest open challenge is looked at; with one notary away it can stay undecided, and no later challenge is ever examined. Proved for the oldest open challenge."
  },
  {
   "property": "C18",
   "status": "proved",
   "theorems": [
    "Verif.EthyProof.C18_paused_sends_nothing",
    "Verif.EthyProof.C18_unpaused_drains"
   ],
   "note": "With C17_sent_or_pending, each is sent exactly once."
  },
  {
   "property": "C180",
   "status": "partial",
   "theorems": [
    "Verif.Notary.C180_answer",
    "Verif.Notary.C180_agree",
    "Verif.Notary.C180_refuted",
    "Verif.Notary.C180_edge_refuted"
   ],
   "note": "Correctness of answers proved. Agreement proved when the requested block is acceptable for each notary; false otherwise (notaries one block apart report different answers)."
  },
  {
   "property": "C181",
   "status": "proved",
   "theorems": [
    "Verif.Outbound.C181_digest",
    "Verif.Outbound.C181_history"
   ],
   "note": ""
  },
  {
   "property": "C182",
   "status": "proved",
   "theorems": [
    "Verif.Outbound.C182_packages",
    "Verif.Outbound.C182_erc20",
    "Verif.Outbound.C182_nft",
    "Verif.Outbound.C182_paid",
    "Verif.Outbound.C182_exact",
    "Verif.Outbound.C182_withdraw"
   ],
   "note": "C182_paid for bridged tokens other than the native one, under the assumptions of C36."
  },
  {
   "property": "C183",
   "status": "partial",
   "theorems": [
    "Verif.Outbound.C183_handover",
    "Verif.Outbound.C183_keys_partial",
    "Verif.Outbound.C183_keys_refuted"
   ],
   "note": "Authenticity proved. False of the code that only addresses of keys are announced: bytes that are no public key become the zero address. Proved when all keys are public keys."
  },
  {
   "property": "C184",
   "status": "partial",
   "theorems": [
    "Verif.Outbound.C184_handover",
    "Verif.Outbound.C184_announced_refuted",
    "Verif.Outbound.C184_nft",
    "Verif.Outbound.C184_nft_refuted"
   ],
   "note": "False of the code: messages are limited to 3200 bytes, so a set of 98 or more validators takes over without being announced (the limit is 4096), and withdrawals of more than 95 units (3 per collection, 1 per NFT) are refused although ten times fifty are allowed. Exact limits proved."
  },
  {
   "property": "C185",
   "status": "partial",
   "theorems": [
    "Verif.Outbound.C185_erc20",
    "Verif.Outbound.C185_nft",
    "Verif.Outbound.C185_only",
    "Verif.Outbound.C185_alive_partial",
    "Verif.Outbound.C185_alive_refuted"
   ],
   "note": "Reading and routing proved. False of the code that no event aborts a block: fewer than 32 bytes from the contract of the NFT peg do. Proved for all other events."
  },
  {
   "property": "C186",
   "status": "partial",
   "theorems": [
    "Verif.Evm721.C186_std_partial",
    "Verif.Evm721.C186_ids",
    "Verif.Evm721.C186_operator_refuted"
   ],
   "note": "Approvals given by operators excluded (their log names the operator, see C188), and histories with transfers naming a token twice (see C22)."
  },
  {
   "property": "C187",
   "status": "partial",
   "theorems": [
    "Verif.Evm721.C187_logs_partial",
    "Verif.Evm721.C187_zero_refuted",
    "Verif.Evm721.C187_extrinsic_refuted"
   ],
   "note": "False of the code for tokens sent to the zero address and for changes by extrinsics, which leave no log. Proved for all other histories, including deliveries by callbacks."
  },
  {
   "property": "C188",
   "status": "partial",
   "theorems": [
    "Verif.Evm721.C188_transfer",
    "Verif.Evm721.C188_approve",
    "Verif.Evm721.C188_zero_refuted",
    "Verif.Evm721.C188_throw_refuted",
    "Verif.Evm721.C188_log_refuted",
    "Verif.Evm721.C188_operator_refuted"
   ],
   "note": "Success proved. False of the code: transfers to the zero address succeed, getApproved of no token and balanceOf zero answer, approvals by an operator are logged in its name, and it cannot approve itself."
  },
  {
   "property": "C189",
   "status": "partial",
   "theorems": [
    "Verif.Evm1155.C189_std",
    "Verif.Evm1155.C189_supply_partial",
    "Verif.Evm1155.C189_ids",
    "Verif.Evm1155.C189_transfer",
    "Verif.Evm1155.C189_supply_refuted",
    "Verif.Evm1155.C189_zero_refuted"
   ],
   "note": "Conformance proved for every successful call. False of the code: tokens listed for sale are in the supply but in no balance; transfers of nothing and to oneself are refused."
  },
  {
   "property": "C19",
   "status": "partial",
   "theorems": [
    "Verif.Witness.C19_completed_rejected_partial",
    "Verif.Witness.C19_one_proof_partial",
    "Verif.Witness.C19_reopened_refuted"
   ],
   "note": "Proved for positive thresholds; false for a threshold of zero, announced with fewer than two XRPL signers (witness)."
  },
  {
   "property": "C190",
   "status": "partial",
   "theorems": [
    "Verif.Evm1155.C190_logs_partial",
    "Verif.Evm1155.C190_created_refuted",
    "Verif.Evm1155.C190_cap_refuted",
    "Verif.Evm1155.C190_listing_refuted",
    "Verif.Evm1155.C190_zero_refuted"
   ],
   "note": "False of the code: tokens issued by createToken, listings for sale and the token whose maximum is set are not in the logs, and mints for the zero address look like burns. Proved for all else."
  },
  {
   "property": "C191",
   "status": "partial",
   "theorems": [
    "Verif.Evm721.C191_erc721_partial",
    "Verif.Evm721.C191_burn_refuted",
    "Verif.Evm1155.C191_erc1155_partial",
    "Verif.Evm1155.C191_erc1155_refuted",
    "Verif.Evm20.C191_erc20"
   ],
   "note": "False of the code: burn of ERC-721, and createToken, setMaxSupply, transferOwnership and renounceOwnership of ERC-1155, have effect in static calls. Proved for all other functions, and for all of ERC-20."
  },
  {
   "property": "C192",
   "status": "partial",
   "theorems": [
    "Verif.Evm721.C192_erc721",
    "Verif.Evm721.C192_rerequest_refuted"
   ],
   "note": "False of the code: reRequestXls20Mint with more than 1000 serial numbers panics, whoever calls it. Proved that exactly these calls do. Callbacks to receivers are C144-C146."
  },
  {
   "property": "C193",
   "status": "partial",
   "theorems": [
    "Verif.Evm721.C193_nft_partial",
    "Verif.Evm721.C193_royalty_refuted",
    "Verif.Evm1155.C193_sft_partial",
    "Verif.Evm1155.C193_sft_refuted"
   ],
   "note": "False of the code for single shares over a hundred per cent: they become a hundred. Proved for all others."
  },
  {
   "property": "C194",
   "status": "proved",
   "theorems": [
    "Verif.Evm721.C194_interfaces"
   ],
   "note": ""
  },
  {
   "property": "C195",
   "status": "partial",
   "theorems": [
    "Verif.Door.C195_sync_partial",
    "Verif.Door.C195_whitelist_refuted",
    "Verif.Door.C195_tickets_refuted",
    "Verif.Door.C195_single_refuted",
    "Verif.Door.C195_paused_refuted",
    "Verif.Door.C195_order_refuted",
    "Verif.Door.C195_limit_refuted"
   ],
   "note": "False of the code: after set_xrpl_door_signers, after a handover without tickets, during a manual pause, to a single signer, or with an older list relayed after a newer one, the door accounts and the chain disagree for ever, as the chain compares with its own keys and never asks again. Proved for orderly handovers."
  },
  {
   "property": "C196",
   "status": "partial",
   "theorems": [
    "Verif.Door.C196_payable_partial",
    "Verif.Door.C196_deferred",
    "Verif.Door.C196_stale_refuted"
   ],
   "note": "False of the code: a withdrawal signed before a handover and relayed after it cannot be carried out, and nobody is asked to sign it again. Proved as long as at most one of the account's signers was not asked."
  },
  {
   "property": "C197",
   "status": "partial",
   "theorems": [
    "Verif.Door.C197_requested",
    "Verif.Door.C197_majority_partial",
    "Verif.Door.C197_half_refuted"
   ],
   "note": "Proved that everything carried out was asked for. The majority fails for two signers, of which one is enough."
  },
  {
   "property": "C198",
   "status": "partial",
   "theorems": [
    "Verif.Evm20.C198_std_partial",
    "Verif.Evm20.C198_allowed_partial",
    "Verif.Evm20.C198_supply_partial",
    "Verif.Evm20.C198_supply_refuted",
    "Verif.Evm20.C198_zero_refuted",
    "Verif.Evm20.C198_approval_refuted",
    "Verif.Evm20.C198_unlimited_refuted",
    "Verif.Evm20.C198_dust_refuted",
    "Verif.Evm20.C198_frozen_refuted"
   ],
   "note": "False of the code: locked tokens are in the supply but in no balance, nothing cannot be sent to an account without tokens or without approval, nobody can approve themselves, amounts from 2^128 on are cut to 2^128-1, with a minimum balance above one transfers take more than they say, and frozen accounts show no receipts. Proved for all else."
  },
  {
   "property": "C199",
   "status": "partial",
   "theorems": [
    "Verif.Evm20.C199_allowance",
    "Verif.Evm20.C199_balance_partial",
    "Verif.Evm20.C199_balance_refuted"
   ],
   "note": "Allowances proved for every history. Balances proved for histories of contract calls; false of the code otherwise, as mints, burns and transfers by extrinsics and pallets leave no log."
  },
  {
   "property": "C20",
   "status": "partial",
   "theorems": [
    "Verif.Witness.C20_incomplete_accepted_partial",
    "Verif.Witness.C20_incomplete_rejected_refuted"
   ],
   "note": "False when two later events complete first (witness); proved otherwise."
  },
  {
   "property": "C200",
   "status": "partial",
   "theorems": [
    "Verif.Dex.C200_sell_partial",
    "Verif.Dex.C200_buy_partial",
    "Verif.Dex.C200_twice_refuted",
    "Verif.Dex.C200_overflow_refuted"
   ],
   "note": "False of the code for paths that come back through the same pair, and for pools so large that the constant-product check overflows 256 bits. Proved for all other paths when the issuance of the assets leaves room (below about 2^117 with the fee of 3/1000)."
  },
  {
   "property": "C201",
   "status": "partial",
   "theorems": [
    "Verif.EvmMoney.C201_admitted_partial",
    "Verif.EvmMoney.C201_no_refusal",
    "Verif.EvmMoney.C201_crash_refuted",
    "Verif.EvmMoney.C201_later_refuted"
   ],
   "note": "Admission and execution agree in the same state, if issuances leave room. False of the code: a gas limit of 2^64 or a huge fee cap crashes the check, and it is not repeated when the transaction is included, so an admitted transaction may fail without paying."
  },
  {
   "property": "C202",
   "status": "proved",
   "theorems": [
    "Verif.Dex.C202_withdraw"
   ],
   "note": ""
  },
  {
   "property": "C203",
   "status": "proved",
   "theorems": [
    "Verif.PegEvm.C203_erc20",
    "Verif.PegEvm.C203_delay",
    "Verif.PegEvm.C203_erc721"
   ],
   "note": ""
  },
  {
   "property": "C204",
   "status": "partial",
   "theorems": [
    "Verif.PegEvm.C204_erc20",
    "Verif.PegEvm.C204_erc721",
    "Verif.PegEvm.C204_once",
    "Verif.PegEvm.C204_address_refuted"
   ],
   "note": "All proved but the address: the last twelve bytes of the address are ignored and logged as given, so a withdrawal may be logged under addresses that are not the asset's."
  },
  {
   "property": "C205",
   "status": "partial",
   "theorems": [
    "Verif.Static.C205_market",
    "Verif.Static.C205_erc20",
    "Verif.Static.C205_peg",
    "Verif.Static.C205_futurepass_partial",
    "Verif.Static.C205_futurepass_refuted"
   ],
   "note": "False of the code for futurepasses, whose contract never asks whether a call is static: ownership is given away and delegates are registered and removed in static calls. Proved for the marketplace, assets, the bridge and the registrar. (The exchange is in C156 and C157, tokens in C191.)"
  },
  {
   "property": "C206",
   "status": "partial",
   "theorems": [
    "Verif.Fees.C206_root",
    "Verif.Fees.C206_weight",
    "Verif.Fees.C206_monotone_partial",
    "Verif.Fees.C206_dearer",
    "Verif.Fees.C206_wrap_refuted"
   ],
   "note": "False of the code for prices per byte from 2^96 on, which root may set: the product wraps and longer transactions cost less. Proved below that."
  },
  {
   "property": "C207",
   "status": "partial",
   "theorems": [
    "Verif.ProofRpc.C207_ethereum_partial",
    "Verif.ProofRpc.C207_xrpl_partial",
    "Verif.ProofRpc.C207_change_refuted",
    "Verif.ProofRpc.C207_signers_refuted"
   ],
   "note": "False of the code if the validators change while signatures are collected, and if root changes the XRPL signers (nodes count the old ones until the validators change). Proved for histories in which all requested proofs are made before the sets change and every change is logged."
  },
  {
   "property": "C208",
   "status": "partial",
   "theorems": [
    "Verif.ProofRpc.C208_served_partial",
    "Verif.ProofRpc.C208_stable_partial",
    "Verif.ProofRpc.C208_subscribers",
    "Verif.ProofRpc.C208_pruned_refuted",
    "Verif.ProofRpc.C208_chain_refuted"
   ],
   "note": "False of the code for nodes that drop old state, and subscribers are sent XRPL proofs as if they were for Ethereum. The rest proved, for the histories of C207 with positive thresholds."
  },
  {
   "property": "C209",
   "status": "partial",
   "theorems": [
    "Verif.Vortex.C209_eras",
    "Verif.Vortex.C209_prices",
    "Verif.Vortex.C209_others",
    "Verif.Vortex.C209_period",
    "Verif.Vortex.C209_fixed_refuted"
   ],
   "note": "False of the code after the trigger: prices can be set at any time, so redemptions of the same vortex give different assets. The rest proved."
  },
  {
   "property": "C21",
   "status": "proved",
   "theorems": [
    "Verif.Witness.C21_proof_has_threshold",
    "Verif.Witness.C21_collected_distinct"
   ],
   "note": ""
  },
  {
   "property": "C210",
   "status": "partial",
   "theorems": [
    "Verif.Gas.C210_logs_partial",
    "Verif.Gas.C210_logs_refuted"
   ],
   "note": "False for many functions: the number of topics recorded leaves out one (transfers and approvals of tokens, listings), or the logs of a batch are recorded as one, or nothing is recorded; the list of functions is exact (an equivalence, for all lengths), the others are charged enough."
  },
  {
   "property": "C211",
   "status": "partial",
   "theorems": [
    "Verif.Gas.C211_paid_partial",
    "Verif.Gas.C211_first_partial",
    "Verif.Gas.C211_logs_partial",
    "Verif.Gas.C211_reverted_refuted",
    "Verif.Gas.C211_create_refuted"
   ],
   "note": "False for calls that revert after a dispatched call failed (nothing is recorded, repeated at will) and for createToken of SFT collections (nothing recorded at all); proved for all other calls that succeed or run out of gas, and for functions that pay first whatever comes out."
  },
  {
   "property": "C212",
   "status": "partial",
   "theorems": [
    "Verif.Xrpl.C212_limits",
    "Verif.Xrpl.C212_block_partial",
    "Verif.Xrpl.C212_halt_refuted"
   ],
   "note": "False: the list of settled deposits of a ledger is filled over several blocks, and the next deposit of that ledger that is due panics in on_initialize (expect), in every block that is tried, for any limit; the limits hold, and blocks can be made as long as settled and due deposits of each ledger are within the limit."
  },
  {
   "property": "C213",
   "status": "proved",
   "theorems": [
    "Verif.Xrpl.C213_submit",
    "Verif.Xrpl.C213_pending",
    "Verif.Xrpl.C213_prune"
   ],
   "note": "Equivalences for submissions and manual pruning, with the resulting states."
  },
  {
   "property": "C214",
   "status": "partial",
   "theorems": [
    "Verif.Uri.C214_uri_partial",
    "Verif.Uri.C214_distinct",
    "Verif.Uri.C214_set",
    "Verif.Uri.C214_base_refuted",
    "Verif.Uri.C214_absent_refuted"
   ],
   "note": "False for base URIs that are not valid UTF-8: they are accepted and then left out of the URIs; and tokens that do not exist have URIs too. The rest proved."
  },
  {
   "property": "C215",
   "status": "proved",
   "theorems": [
    "Verif.Uri.C215_told",
    "Verif.Uri.C215_grows",
    "Verif.Uri.C215_all",
    "Verif.Uri.C215_fixed"
   ],
   "note": "Invariants over all histories."
  },
  {
   "property": "C216",
   "status": "partial",
   "theorems": [
    "Verif.Uri.C216_ethereum_partial",
    "Verif.Uri.C216_xrpl_partial",
    "Verif.Uri.C216_xrpl_refuted"
   ],
   "note": "Proved for Ethereum; false for XRPL, where the URI has the number only and tokens of different issuers share one."
  },
  {
   "property": "C217",
   "status": "partial",
   "theorems": [
    "Verif.Imbalance.C217_supply_partial",
    "Verif.Imbalance.C217_algebra",
    "Verif.Imbalance.C217_zero_refuted",
    "Verif.Imbalance.C217_order_refuted"
   ],
   "note": "False of the interface in two cases: an imbalance merged into an empty one loses its asset and is never squared up, and a negative imbalance dropped while the supply is less is cut off. Proved for all programs that put together only imbalances of one asset (or add nothing), stay within 128 bits and drop no more than the supply; the code of this runtime does (C109)."
  },
  {
   "property": "C218",
   "status": "proved",
   "theorems": [
    "Verif.Text.C218_grammar",
    "Verif.Text.C218_written",
    "Verif.Text.C218_first",
    "Verif.Text.C218_none"
   ],
   "note": "An equivalence with a grammar, by induction on texts."
  },
  {
   "property": "C219",
   "status": "partial",
   "theorems": [
    "Verif.Text.C219_amount_partial",
    "Verif.Text.C219_panic_refuted",
    "Verif.Text.C219_prefix_refuted",
    "Verif.Text.C219_refused_refuted"
   ],
   "note": "False of the code: short texts and some of several bytes panic, the two characters before the digits are not looked at, fewer than 32 digits and numbers from 2^64 on are refused, and what the node answers cannot be given to it."
  },
  {
   "property": "C22",
   "status": "partial",
   "theorems": [
    "Verif.Nft.C22_one_owner_partial",
    "Verif.Nft.C22_balances_partial",
    "Verif.Nft.C22_repeated_serial_refuted",
    "Verif.Nft.C22_two_owners_refuted"
   ],
   "note": "Proved when bridges mint only into bridged collections (one owner) and transfers list no serial twice (balances); false otherwise (witnesses)."
  },
  {
   "property": "C220",
   "status": "partial",
   "theorems": [
    "Verif.Text.C220_bytes_partial",
    "Verif.Text.C220_block",
    "Verif.Text.C220_panic_refuted",
    "Verif.Text.C220_plus_refuted",
    "Verif.Text.C220_error_refuted"
   ],
   "note": "False of the code: an even text after 0x that is not hexadecimal panics, a plus sign is read as a digit zero, and an error of the node is an empty result."
  },
  {
   "property": "C221",
   "status": "partial",
   "theorems": [
    "Verif.Xrpl.C221_allotted_partial",
    "Verif.Xrpl.C221_allot",
    "Verif.Xrpl.C221_taken",
    "Verif.Xrpl.C221_before_refuted"
   ],
   "note": "Proved while root names a first ticket within or behind the range it names; false otherwise: the call accepts a first ticket before the range, and uses it."
  },
  {
   "property": "C222",
   "status": "partial",
   "theorems": [
    "Verif.Xrpl.C222_once_partial",
    "Verif.Xrpl.C222_restored",
    "Verif.Xrpl.C222_wider_refuted"
   ],
   "note": "Proved if root names every credited transaction of the ledgers it opens again; the call does not check this, and without it a forgotten deposit is credited again."
  },
  {
   "property": "C223",
   "status": "proved",
   "theorems": [
    "Verif.Asset.C223_created",
    "Verif.Asset.C223_grows",
    "Verif.Asset.C223_falls",
    "Verif.Asset.C223_loses",
    "Verif.Asset.C223_roles",
    "Verif.Asset.C223_native",
    "Verif.Asset.C223_once"
   ],
   "note": "By cases over all calls; the native total and the numbers by invariants of all histories."
  },
  {
   "property": "C224",
   "status": "partial",
   "theorems": [
    "Verif.Asset.C224_bound_partial",
    "Verif.Asset.C224_owner_partial",
    "Verif.Asset.C224_decimals_refuted"
   ],
   "note": "Proved while owners set no more than 18; false otherwise: the limit is not asked when the owner sets the metadata of the asset through pallet-assets, which the runtime lets through."
  },
  {
   "property": "C225",
   "status": "partial",
   "theorems": [
    "Verif.Asset.C225_metadata_partial",
    "Verif.Asset.C225_kept",
    "Verif.Asset.C225_returned_refuted"
   ],
   "note": "Proved for the metadata; false for the deposit of creation: it stays reserved in every history, as the asset itself is made with a deposit of zero."
  },
  {
   "property": "C226",
   "status": "proved",
   "theorems": [
    "Verif.Xls20.C226_still",
    "Verif.Xls20.C226_refused",
    "Verif.Xls20.C226_during"
   ],
   "note": "By cases over all operations, then by induction over histories."
  },
  {
   "property": "C227",
   "status": "partial",
   "theorems": [
    "Verif.Era.C227_calm_partial",
    "Verif.Era.C227_forced_refuted",
    "Verif.Era.C227_late_refuted"
   ],
   "note": "Proved if nothing is forced and elections succeed; false otherwise: the session before a forced era, or before one that is late after a failed election, is not taken for the last one, so the validators of the new era do not become notaries."
  },
  {
   "property": "C228",
   "status": "partial",
   "theorems": [
    "Verif.Era.C228_announced_partial",
    "Verif.Era.C228_one_partial",
    "Verif.Era.C228_numbers",
    "Verif.Era.C228_size_refuted",
    "Verif.Era.C228_two_refuted"
   ],
   "note": "The numbering holds in all histories. The rest is proved for at most 97 validators if nothing is forced; false otherwise: a larger set takes effect although the message is too large to be sent, and two sets are told with one number after forcing is stopped."
  },
  {
   "property": "C229",
   "status": "partial",
   "theorems": [
    "Verif.Era.C229_calm_partial",
    "Verif.Era.C229_stopped_refuted",
    "Verif.Era.C229_lost_refuted"
   ],
   "note": "Proved if nothing is forced, elections succeed and the scheduler takes calls; false otherwise: if forcing is stopped after the announcement, or the scheduler refuses, nothing ends the pause before the last session of some later era."
  },
  {
   "property": "C23",
   "status": "partial",
   "theorems": [
    "Verif.Nft.C23_issuance_partial",
    "Verif.Nft.C23_max_final",
    "Verif.Nft.C23_bridged_refuted"
   ],
   "note": "Proved when bridges mint only into bridged collections; mint_bridged does not look at the maximum (witness)."
  },
  {
   "property": "C230",
   "status": "partial",
   "theorems": [
    "Verif.Wide.C230_erc721_partial",
    "Verif.Wide.C230_initialize_partial",
    "Verif.Wide.C230_erc1155_partial",
    "Verif.Wide.C230_market_partial",
    "Verif.Wide.C230_dex_partial",
    "Verif.Wide.C230_peg_partial",
    "Verif.Wide.C230_approve_refuted",
    "Verif.Wide.C230_share_refuted",
    "Verif.MarketEvm.C174_cut_refuted",
    "Verif.Evm721.C193_royalty_refuted"
   ],
   "note": "Proved for all functions of the NFT, SFT, marketplace, exchange and bridge contracts but the following: amounts of ERC-20 contracts, the marketplace of an offer, and shares of more than a hundred per cent are cut."
  },
  {
   "property": "C231",
   "status": "proved",
   "theorems": [
    "Verif.Erc20Peg.C231_erc20",
    "Verif.Erc20Peg.C231_erc20_closed",
    "Verif.Erc20Peg.C231_erc20_map",
    "Verif.Nfi.C231_nfi",
    "Verif.Nfi.C231_nfi_relayer",
    "Verif.Xls20.C231_xls20",
    "Verif.Xls20.C231_xls20_relayer",
    "Verif.Market.C231_market",
    "Verif.Market.C231_market_fee",
    "Verif.Xrpl.C231_xrpl",
    "Verif.Xrpl.C231_xrpl_relayer",
    "Verif.Xrpl.C231_xrpl_withdraw"
   ],
   "note": "For each pallet the settings after a history are a fold of root's calls alone; by induction over all histories, failing calls included."
  },
  {
   "property": "C232",
   "status": "proved",
   "theorems": [
    "Verif.Market.C232"
   ],
   "note": "The counter of listings stays below 2^128."
  },
  {
   "property": "C233",
   "status": "partial",
   "theorems": [
    "Verif.Market.C233_partial",
    "Verif.Market.C233_behind",
    "Verif.Market.C233_ends",
    "Verif.Market.C233_buy",
    "Verif.Market.C233_refuted"
   ],
   "note": "False: accepting an offer for a token that is on auction ends the auction without an event (C233_refuted). True as long as that does not happen (C233_partial); in every history a reader is right about every open listing, all offers, marketplaces and the fee receiver, and errs only in taking ended auctions for open ones (C233_behind). Endings in the block hook and purchases are reported once and truly (C233_ends, C233_buy). Which token an offer is for, the reserved buyer, the royalties and the closing block after a late bid are not in the events."
  },
  {
   "property": "C234",
   "status": "partial",
   "theorems": [
    "Verif.Nft.C234_partial",
    "Verif.Nft.C234_behind",
    "Verif.Nft.C234_transfer",
    "Verif.Nft.C234_refuted"
   ],
   "note": "False in two ways, each proved as: no function of the events gives the owners. The event of a new collection does not say whose its first tokens are, and a bridge that withdraws a token burns it without an event of the NFT pallet. True of all histories without the two (C234_partial); in every history collections are known exactly, and a token the reader is wrong about was last concerned by one of the two (C234_behind). Assumes that bridges mint only into bridged collections."
  },
  {
   "property": "C235",
   "status": "proved",
   "theorems": [
    "Verif.Sft.C235",
    "Verif.Sft.C235_sum"
   ],
   "note": "Exact in every history, for every way into the pallet; what the events say accounts have adds up to what they say is the supply."
  },
  {
   "property": "C236",
   "status": "proved",
   "theorems": [
    "Verif.Dex.C236",
    "Verif.Dex.C236_shares",
    "Verif.Dex.C236_atmost",
    "Verif.Dex.C236_fees"
   ],
   "note": "C236_fees shows that the bound with a fee receiver can be strict: fees are minted without an event of the exchange."
  },
  {
   "property": "C237",
   "status": "partial",
   "theorems": [
    "Verif.Dex.C237_partial",
    "Verif.Dex.C237_refuted",
    "Verif.Dex.C237_gift_refuted"
   ],
   "note": "False in two ways, each proved as: two histories from the same start leave the same events and different reserves. A swap along three assets does not tell what the pool in the middle gave, and that depends on whether supply or target was fixed (C237_refuted); tokens paid to a pool's address become reserves at the next swap without an event (C237_gift_refuted). True as a lower bound for all histories of direct swaps, and exactly if moreover nobody pays a pool address (C237_partial)."
  },
  {
   "property": "C238",
   "status": "proved",
   "theorems": [
    "Verif.Futurepass.C238_holders",
    "Verif.Futurepass.C238_delegates",
    "Verif.Futurepass.C238_owners"
   ],
   "note": "The reader's picture is a fold over the events; by induction over histories, each operation cut into elementary changes. C238_owners needs that fewer than 2^128 futurepasses were made."
  },
  {
   "property": "C239",
   "status": "proved",
   "theorems": [
    "Verif.NftPeg.C239_nft",
    "Verif.NftPeg.C239_nft_withdraw",
    "Verif.Ethy.C239_ethy",
    "Verif.Ethy.C239_ethy_due",
    "Verif.Ethy.C239_ethy_relayer",
    "Verif.Ethy.C239_ethy_keeps",
    "Verif.EthyProof.C239_out",
    "Verif.EthyProof.C239_out_paused",
    "Verif.EthyProof.C239_out_perBlock",
    "Verif.Migration.C239_migration",
    "Verif.Migration.C239_migration_rest",
    "Verif.Migration.C239_migration_limit"
   ],
   "note": "For each pallet the settings after a history are a fold of root's calls alone; by induction over all histories, failing calls included."
  },
  {
   "property": "C24",
   "status": "proved",
   "theorems": [
    "Verif.Nft.C24_fresh",
    "Verif.Nft.C24_minted_once"
   ],
   "note": "For histories in which bridges mint only into bridged collections, as the bridge pallets do."
  },
  {
   "property": "C240",
   "status": "partial",
   "theorems": [
    "Verif.Crowdsale.C240_page",
    "Verif.Crowdsale.C240_known",
    "Verif.Crowdsale.C240_partial",
    "Verif.Crowdsale.C240_total",
    "Verif.Crowdsale.C240_refuted"
   ],
   "note": "False only for failed sales: when the queue of sales to be paid is full the sale becomes failed and no event is emitted, so readers go on believing that it sells (C240_refuted). Everything else on the page is exact in every history (C240_page)."
  },
  {
   "property": "C241",
   "status": "partial",
   "theorems": [
    "Verif.Vortex.C241_partial",
    "Verif.Vortex.C241_work",
    "Verif.Vortex.C241_one",
    "Verif.Vortex.C241_starved",
    "Verif.Vortex.C241_refuted"
   ],
   "note": "False: anybody can starve the workers with one free unsigned call a block, for every number of blocks (C241_starved for every chain, C241_refuted for a concrete one). True if nobody else submits payout calls (C241_partial), although the pool takes only one of the calls submitted after a block, since they share a tag (C241_one). The pool is taken to be emptied into the next block; its size limits, bans and time-outs are not modelled."
  },
  {
   "property": "C242",
   "status": "proved",
   "theorems": [
    "Verif.Crowdsale.C242",
    "Verif.Crowdsale.C242_work"
   ],
   "note": "By a measure that falls with every block. Needs that at least one payment fits a call (in the runtime 100) and that nobody signs for a vault. The pool is taken to be emptied into the next block; its size limits, bans and time-outs are not modelled."
  },
  {
   "property": "C243",
   "status": "partial",
   "theorems": [
    "Verif.Precompile.C243_partial",
    "Verif.Precompile.C243_stays",
    "Verif.Precompile.C243_calls",
    "Verif.Precompile.C243_refuted",
    "Verif.Precompile.C243_forced_refuted"
   ],
   "note": "False of ROOT, XRP and VTX, which exist from the genesis block and never get code (C243_refuted), and of assets that root creates by force (C243_forced_refuted). True of all other tokens. That addresses of deployed contracts are hashes is not used."
  },
  {
   "property": "C244",
   "status": "partial",
   "theorems": [
    "Verif.Erc20Peg.C244_sent",
    "Verif.Erc20Peg.C244_numbers",
    "Verif.Erc20Peg.C244_waiting",
    "Verif.Erc20Peg.C244_lost",
    "Verif.Erc20Peg.C244_paid",
    "Verif.Erc20Peg.C244_deposit",
    "Verif.Erc20Peg.C244_refuted"
   ],
   "note": "False only in the last part: the event of a payment carries no payment number, so the execution of a delayed deposit looks like an immediate deposit and readers cannot tell which payments still wait (C244_refuted: two histories with the same events, in one the payment waits, in the other it is done). All other parts are proved for every history in which root leaves the token mappings alone."
  },
  {
   "property": "C245",
   "status": "partial",
   "theorems": [
    "Verif.Xrpl.C245_sent",
    "Verif.Xrpl.C245_numbers",
    "Verif.Xrpl.C245_waiting",
    "Verif.Xrpl.C245_credited",
    "Verif.Xrpl.C245_order",
    "Verif.Xrpl.C245_answered",
    "Verif.Xrpl.C245_refuted",
    "Verif.Xrpl.C245_lost_refuted"
   ],
   "note": "Proved: requests match the payments handed over, numbers, waiting withdrawals, credited deposits, order, and an answer to every deposit that is not challenged. The last sentence is false twice: a challenge (by anybody) leaves no event and its deposit is never answered (TransactionChallenge is declared but not deposited); a delayed withdrawal that cannot be built is dropped without an event."
  },
  {
   "property": "C246",
   "status": "partial",
   "theorems": [
    "Verif.Vortex.C246_page",
    "Verif.Vortex.C246_minted",
    "Verif.Vortex.C246_paid",
    "Verif.Vortex.C246_done",
    "Verif.Vortex.C246_old_refuted",
    "Verif.Vortex.C246_redeem_refuted",
    "Verif.Vortex.C246_missed_refuted"
   ],
   "note": "First sentence proved. The last sentence is false three times: the old administrator is read after the new one is stored, so every event names the new one twice (C246_old_refuted, for all calls); redemptions deposit no event (C246_redeem_refuted); failed payments deposit no event, so a distribution can be announced as done with a registered account about which nothing was told (C246_missed_refuted)."
  },
  {
   "property": "C247",
   "status": "partial",
   "theorems": [
    "Verif.Ethy.C247_page",
    "Verif.Ethy.C247_due",
    "Verif.Ethy.C247_invalid",
    "Verif.Ethy.C247_verified",
    "Verif.Ethy.C247_refuted",
    "Verif.Ethy.C247_lost_refuted"
   ],
   "note": "First sentence proved. The last sentence is false twice: while there is no relayer, a claim confirmed by the notaries leaves the list of open challenges and loses its votes without an event (C247_refuted: two histories with the same events); and the id of a rejected claim is marked as processed without an event at the block once announced for it, after which the genuine event is refused (C247_lost_refuted). ProcessingOk and ProcessingFailed are one event here."
  },
  {
   "property": "C248",
   "status": "partial",
   "theorems": [
    "Verif.Nfi.C248_page",
    "Verif.Nfi.C248_kind",
    "Verif.Nfi.C248_fee",
    "Verif.Nfi.C248_removed_refuted"
   ],
   "note": "All but the last sentence proved. The last sentence is false: every burnt NFT is announced as having lost its data (C248_removed_refuted), though the reader's picture stays right."
  },
  {
   "property": "C249",
   "status": "partial",
   "theorems": [
    "Verif.Xls20.C249_page_partial",
    "Verif.Xls20.C249_notes",
    "Verif.Xls20.C249_requested",
    "Verif.Xls20.C249_paid",
    "Verif.Xls20.C249_enabled",
    "Verif.Xls20.C249_deposit_refuted",
    "Verif.Xls20.C249_owner_refuted"
   ],
   "note": "First sentence proved (the payment for repeated requests; payments inside mints are C58). The last sentence is false twice: a deposit writes the id of a token and the collection of an issuer without an event of this pallet (C249_deposit_refuted; without deposits the reader's picture is exact, C249_page_partial), and the event of a payment names the minter as collection owner, in public mints too (C249_owner_refuted)."
  },
  {
   "property": "C25",
   "status": "proved",
   "theorems": [
    "Verif.Nft.C25_transfer",
    "Verif.Nft.C25_burn",
    "Verif.Nft.C25_only_owner_moves"
   ],
   "note": ""
  },
  {
   "property": "C250",
   "status": "partial",
   "theorems": [
    "Verif.NftPeg.C250_page",
    "Verif.NftPeg.C250_blocked",
    "Verif.NftPeg.C250_done",
    "Verif.NftPeg.C250_withdrawn",
    "Verif.NftPeg.C250_sent",
    "Verif.NftPeg.C250_minted_partial",
    "Verif.NftPeg.C250_minted_refuted",
    "Verif.NftPeg.C250_lost_refuted",
    "Verif.NftPeg.C250_reclaim_refuted"
   ],
   "note": "First sentence proved. The last sentence is false three times: with an id of 2^32 or more a token can be announced as minted to one account while it belongs to another (C250_minted_refuted; for ids below 2^32-1 the announced owner is right, C250_minted_partial); tokens after the first contract whose tokens cannot be minted are named in no event of the pallet though the contract holds them (C250_lost_refuted); the event of a reclaimed record does not carry its number (C250_reclaim_refuted: two histories with the same events)."
  },
  {
   "property": "C251",
   "status": "partial",
   "theorems": [
    "Verif.Echo.C251_sessions",
    "Verif.Echo.C251_once",
    "Verif.Echo.C251_sent",
    "Verif.Echo.C251_decode",
    "Verif.Echo.C251_answer",
    "Verif.Echo.C251_answer_decodes",
    "Verif.Echo.C251_told",
    "Verif.Echo.C251_large_refuted",
    "Verif.Echo.C251_pong_refuted"
   ],
   "note": "First sentence proved for numbers below 2^64. The last sentence is false twice: numbers of 2^64 and above are cut to 2^64-1, so different pings get the same answer with neither number (C251_large_refuted); and every contract may send pongs, so pongs are announced for pings that were never sent, repeatedly (C251_pong_refuted; the code comments that the source is not verified, for testing). ethabi is modelled by the ABI specification."
  },
  {
   "property": "C252",
   "status": "proved",
   "theorems": [
    "Verif.Blame.C252_first",
    "Verif.Blame.C252_real",
    "Verif.Blame.C252_same"
   ],
   "note": "By induction over the types. The specification of faults (badTy, badTys) is stated with the meaning of call data of C161 and not with the reader."
  },
  {
   "property": "C253",
   "status": "partial",
   "theorems": [
    "Verif.Blame.C253_output",
    "Verif.Blame.C253_path",
    "Verif.Blame.C253_text",
    "Verif.Blame.C253_struct",
    "Verif.Blame.C253_capital",
    "Verif.Blame.C253_name_refuted",
    "Verif.Blame.C253_custom_refuted"
   ],
   "note": "First two sentences proved. The last is false twice: the modifier camel of the crate paste (modelled from its documentation; the crate is not in the repository) makes UpperCamelCase, so an argument tokenIds is called TokenIds and no argument with a small first letter is ever called by its name (C253_capital, C253_name_refuted); and texts that contracts make themselves begin like the name of an argument (C253_custom_refuted)."
  },
  {
   "property": "C254",
   "status": "partial",
   "theorems": [
    "Verif.Holds.C254_book",
    "Verif.Holds.C254_money",
    "Verif.Holds.C254_payable",
    "Verif.Holds.C254_burnt_refuted"
   ],
   "note": "First two sentences proved. The last holds as long as nobody acts on the holding account from outside (C254_payable), and is false if the issuer of an asset burns what is held: no event of this pallet tells of it and the reader's amount cannot be released (C254_burnt_refuted)."
  },
  {
   "property": "C255",
   "status": "partial",
   "theorems": [
    "Verif.Asset.C255_numbers",
    "Verif.Asset.C255_exists",
    "Verif.Asset.C255_owner",
    "Verif.Asset.C255_cost",
    "Verif.Asset.C255_balance_refuted",
    "Verif.Asset.C255_creator_refuted"
   ],
   "note": "All but the last sentence proved. The last is false twice: the event's initial balance is the least balance of accounts and nobody has any of a new asset (C255_balance_refuted, for all calls); and the event names the owner as creator, so that two histories with the same events differ in who made and paid for the asset (C255_creator_refuted)."
  },
  {
   "property": "C256",
   "status": "proved",
   "theorems": [
    "Verif.Entry.C256_page",
    "Verif.Entry.C256_foretell",
    "Verif.Entry.C256_refused",
    "Verif.Entry.C256_protected"
   ],
   "note": "By induction over histories and nested calls. What is foretold is what the checks of these pallets decide; that XRPL messages and delegates pass some of them is C117."
  },
  {
   "property": "C257",
   "status": "partial",
   "theorems": [
    "Verif.Entry.C257_xrpl",
    "Verif.Entry.C257_doughnut",
    "Verif.Entry.C257_fee_partial",
    "Verif.Entry.C257_address_refuted",
    "Verif.Entry.C257_fee_refuted"
   ],
   "note": "All but the last sentence proved. The last is false twice: the address in the event is copied from a field of the message that nothing compares with the key, so the holder of one key can have any address told (C257_address_refuted, for every address); and a call with fee preferences nested in a batch deposits its event although the fee is taken in XRP without a swap (C257_fee_refuted)."
  },
  {
   "property": "C258",
   "status": "partial",
   "theorems": [
    "Verif.Migration.C258_settings",
    "Verif.Migration.C258_free",
    "Verif.Migration.C258_busy_partial",
    "Verif.Migration.C258_complete",
    "Verif.Migration.C258_busy_refuted",
    "Verif.Migration.C258_items_refuted"
   ],
   "note": "Settings, freedom of calls and the truth of the end are proved for all histories. That calls are refused while a migration is announced is proved unless a new runtime finds its storage up to date during the migration: then on_runtime_upgrade ends it without an event (C258_busy_refuted). items_migrated counts steps, of which the last, for migrations written like the pallet's mock, migrates nothing (C258_items_refuted)."
  },
  {
   "property": "C259",
   "status": "proved",
   "theorems": [
    "Verif.Fees.C259_page",
    "Verif.Fees.C259_fee",
    "Verif.Fees.C259_silent"
   ],
   "note": "The adjustment of fees to how full blocks are is a number given with each transaction, as in C206."
  },
  {
   "property": "C26",
   "status": "proved",
   "theorems": [
    "Verif.Nft.C26_pages"
   ],
   "note": "For histories in which no transfer lists a serial twice (see C22)."
  },
  {
   "property": "C260",
   "status": "partial",
   "theorems": [
    "Verif.Outbound.C260_sent",
    "Verif.Outbound.C260_waiting",
    "Verif.Outbound.C260_change",
    "Verif.Outbound.C260_content_refuted",
    "Verif.Outbound.C260_open_refuted"
   ],
   "note": "First two sentences proved (the numbers of waiting messages as long as at most 2^64 numbers were taken). The last is false twice: a delayed message is announced by its number only (C260_content_refuted), and the end of a change of validators, which opens the bridge again, has no event (C260_open_refuted). Only the events of the bridge pallet are heard, not those of the pallets that send."
  },
  {
   "property": "C261",
   "status": "partial",
   "theorems": [
    "Verif.Imbalance.C261_page",
    "Verif.Imbalance.C261_refused",
    "Verif.Imbalance.C261_supply",
    "Verif.Imbalance.C261_set",
    "Verif.Imbalance.C261_set_or_stays",
    "Verif.Imbalance.C261_nothing_refuted"
   ],
   "note": "All but the last sentence proved (the supply for programs as in C217). The last is false: setting a balance to what it is, and withdrawing nothing, even from an asset that does not exist, is announced as a withdrawal (C261_nothing_refuted), although the code's comment calls it a no-op. The minimum balance is one, as for the only asset of the runtime with this interface."
  },
  {
   "property": "C262",
   "status": "partial",
   "theorems": [
    "Verif.Door.C262_allowed",
    "Verif.Door.C262_asked",
    "Verif.Door.C262_all_partial",
    "Verif.Door.C262_failed_refuted",
    "Verif.Door.C262_now_refuted"
   ],
   "note": "First two sentences proved. The third holds if no failure is announced (C262_all_partial), and is false otherwise: if only the second door account has no ticket, a failure is announced although the first was asked to change its list and does so (C262_failed_refuted). The last is false: when the signers of the chain change there is no event (C262_now_refuted). Requests are named by their content instead of their proof ids."
  },
  {
   "property": "C263",
   "status": "partial",
   "theorems": [
    "Verif.Relocate.C263_rename",
    "Verif.Relocate.C263_round",
    "Verif.Relocate.C263_move",
    "Verif.Relocate.C263_clear",
    "Verif.Relocate.C263_short_partial",
    "Verif.Relocate.C263_size_refuted",
    "Verif.Relocate.C263_same_refuted"
   ],
   "note": "Proved for all stores, names and types: renaming, moving and clearing do what they answer and nothing else. False parts: a value longer than the type is renamed and cut, with the answer true, although the comment on the helper says false; a value moved to the pallet where it already is is lost, with the answer true."
  },
  {
   "property": "C264",
   "status": "partial",
   "theorems": [
    "Verif.Relocate.C264_keys",
    "Verif.Relocate.C264_rename",
    "Verif.Relocate.C264_get",
    "Verif.Relocate.C264_move",
    "Verif.Relocate.C264_take",
    "Verif.Relocate.C264_empty_refuted",
    "Verif.Relocate.C264_joined_refuted"
   ],
   "note": "Proved: all entries are taken along, decodable or not, if at least one can be decoded; reading keys gives exactly the decodable entries. False parts: if no entry can be decoded, nothing is moved although the map is not empty; entries that were under the new name stay there and join the map."
  },
  {
   "property": "C265",
   "status": "partial",
   "theorems": [
    "Verif.Selectors.C265_read_partial",
    "Verif.Selectors.C265_layout",
    "Verif.Selectors.C265_unnamed_refuted",
    "Verif.Selectors.C265_attribute_refuted",
    "Verif.Selectors.C265_nested_refuted",
    "Verif.Selectors.C265_order_refuted",
    "Verif.Selectors.C265_comment_refuted"
   ],
   "note": "Proved for every interface in which arguments are named, external is the first attribute, custom types are declared before use and used at most in arrays of one dimension, and comments stand on lines of their own. Each of these conditions is needed: without it the functions read are wrong (refuted one by one)."
  },
  {
   "property": "C266",
   "status": "partial",
   "theorems": [
    "Verif.Bags.C266_everyone",
    "Verif.Bags.C266_first_partial",
    "Verif.Bags.C266_room_partial",
    "Verif.Bags.C266_queue",
    "Verif.Bags.C266_small_refuted",
    "Verif.Bags.C266_exact_refuted"
   ],
   "note": "Proved: everyone is in the list once; whoever has more than 1.113172351 times the stake of someone with at least ten thousand ROOT comes first and is not left out for them. False parts: all stakes up to ten thousand ROOT are in one bag, where only the order of coming counts, so a voter with one unit can displace one with ten thousand ROOT; above, the order is kept up to that factor only. The list itself (pallet-bags-list) is a dependency, modelled by its documentation; stakes are those last told to it."
  },
  {
   "property": "C267",
   "status": "partial",
   "theorems": [
    "Verif.SignKeys.C267_signs_partial",
    "Verif.SignKeys.C267_only_own_partial",
    "Verif.SignKeys.C267_other_keys_partial",
    "Verif.SignKeys.C267_passive_partial",
    "Verif.SignKeys.C267_chain_partial",
    "Verif.SignKeys.C267_chain_only_own_partial",
    "Verif.SignKeys.C267_second_key_refuted",
    "Verif.SignKeys.C267_missed_answer_refuted"
   ],
   "note": "Proved if the runtime answers at every block; that one number names one set of validators and that changes are announced in their block is proved of the pallet for fewer than 2^64 changes (C267_chain_partial). False parts: of several validators' keys on one node only the first in the order of the set is used, so the others never vote (C267_second_key_refuted); if the runtime does not answer at the block of a change, the node goes on with the old validators and does not ask again (C267_missed_answer_refuted). Signatures are free pairs of key and digest; what becomes of votes is C70, C71, C164 and C165."
  },
  {
   "property": "C268",
   "status": "partial",
   "theorems": [
    "Verif.NodeFlags.C268_given",
    "Verif.NodeFlags.C268_last",
    "Verif.NodeFlags.C268_not_validator",
    "Verif.NodeFlags.C268_votes",
    "Verif.NodeFlags.C268_stopped",
    "Verif.NodeFlags.C268_xrp_unused",
    "Verif.NodeFlags.C268_off_refuted",
    "Verif.NodeFlags.C268_purge_refuted"
   ],
   "note": "First sentence proved for all histories. The last is false three times: a validator started without --eth-http asks the address of an earlier run, which stays in the offchain storage (C268_off_refuted; C268_last says which); --xrp-http is stored and never read (C268_xrp_unused, for all nodes and flags); purge-chain removes the database but not the Ethereum index beside it (C268_purge_refuted). That the offchain storage is part of the database is a fact about substrate."
  },
  {
   "property": "C269",
   "status": "partial",
   "theorems": [
    "Verif.Prompt.C269_none_waiting_partial",
    "Verif.Prompt.C269_last_vote",
    "Verif.Prompt.C269_early",
    "Verif.Prompt.C269_early_signer",
    "Verif.Prompt.C269_delivered_partial",
    "Verif.Prompt.C269_change_refuted"
   ],
   "note": "Proved: the vote that completes the number makes the proof at once, as does the request if enough votes came before it, on nodes that sign and that do not; false votes do not prevent it. While the validators do not change no known request waits with enough signatures, and once the request and enough genuine votes were delivered, in any order among anything else, the proof was made (C269_delivered_partial, over whole histories). False part: after a change of validators that lowers the number needed, a request with enough signatures on record waits for another vote (C269_change_refuted). An event whose number is below the completed ones is treated as completed (C20); the theorems assume it is not."
  },
  {
   "property": "C27",
   "status": "proved",
   "theorems": [
    "Verif.Nft.C27_ids_distinct",
    "Verif.Nft.C27_new_id"
   ],
   "note": ""
  },
  {
   "property": "C28",
   "status": "proved",
   "theorems": [
    "Verif.Sft.C28_sums",
    "Verif.Sft.C28_max_final"
   ],
   "note": ""
  },
  {
   "property": "C29",
   "status": "proved",
   "theorems": [
    "Verif.Sft.C29_transfer",
    "Verif.Sft.C29_burn",
    "Verif.Sft.C29_mint",
    "Verif.Sft.C29_transfer_succeeds"
   ],
   "note": ""
  },
  {
   "property": "C30",
   "status": "proved",
   "theorems": [
    "Verif.Market.C30_buy",
    "Verif.Market.C30_accept",
    "Verif.Market.C30_auction",
    "Verif.Market.C30_share_nearest"
   ],
   "note": "Total issuance of each asset below 2^128 - 8."
  },
  {
   "property": "C31",
   "status": "partial",
   "theorems": [
    "Verif.Market.C31_locked",
    "Verif.Market.C31_disjoint",
    "Verif.Market.C31_reserved",
    "Verif.Market.C31_cancel_unlocks_partial",
    "Verif.Market.C31_cancel_succeeds",
    "Verif.Market.C31_refuted",
    "Verif.Market.C31_settlement_refuted"
   ],
   "note": "Locked while listed: proved. Closing unlocks: false when an offer is accepted on one token of a bundle, and when an auction's settlement fails (witnesses)."
  },
  {
   "property": "C32",
   "status": "proved",
   "theorems": [
    "Verif.Market.C32_bid",
    "Verif.Market.C32_extended",
    "Verif.Market.C32_reserve",
    "Verif.Market.C32_monotone",
    "Verif.Market.C32_only_bids"
   ],
   "note": ""
  },
  {
   "property": "C33",
   "status": "partial",
   "theorems": [
    "Verif.Market.C33_exact",
    "Verif.Market.C33_asset",
    "Verif.Market.C33_stuck",
    "Verif.Market.C33_partial",
    "Verif.Market.C33_cancel_offer",
    "Verif.Market.C33_refuted"
   ],
   "note": "Proved when no offer is accepted for a token on auction; false otherwise, and the bid is then stuck for ever (witness)."
  },
  {
   "property": "C34",
   "status": "proved",
   "theorems": [
    "Verif.Holds.C34_backed",
    "Verif.Holds.C34_conserved",
    "Verif.Holds.C34_release_succeeds",
    "Verif.Holds.C34_spend_succeeds"
   ],
   "note": "Histories in which the keyless holding account signs nothing; asset issuers burning from it are C79."
  },
  {
   "property": "C35",
   "status": "proved",
   "theorems": [
    "Verif.Holds.C35_place",
    "Verif.Holds.C35_release",
    "Verif.Holds.C35_spend",
    "Verif.Holds.C35_others",
    "Verif.Holds.C35_sorted"
   ],
   "note": ""
  },
  {
   "property": "C36",
   "status": "proved",
   "theorems": [
    "Verif.Erc20Peg.C36_backed",
    "Verif.Erc20Peg.C36_native",
    "Verif.Erc20Peg.C36_native_never_minted"
   ],
   "note": "The environment may move balances but not change the supply of bridged assets other than through the peg."
  },
  {
   "property": "C37",
   "status": "proved",
   "theorems": [
    "Verif.Erc20Peg.C37_once",
    "Verif.Erc20Peg.C37_schedule_fixed",
    "Verif.Erc20Peg.C37_not_early",
    "Verif.Erc20Peg.C37_idle_executes",
    "Verif.Erc20Peg.C37_claim_executes",
    "Verif.Erc20Peg.C37_withdrawal_delayed"
   ],
   "note": ""
  },
  {
   "property": "C38",
   "status": "partial",
   "theorems": [
    "Verif.Erc20Peg.C38_executed_partial",
    "Verif.Erc20Peg.C38_not_forgotten_partial",
    "Verif.Erc20Peg.C38_refuted"
   ],
   "note": "Proved for positive delays while the list of ready blocks has room; false for a delay of zero (witness)."
  },
  {
   "property": "C39",
   "status": "proved",
   "theorems": [
    "Verif.Xrpl.C39_once",
    "Verif.Xrpl.C39_replay"
   ],
   "note": "A credit is identified by transaction hash and ledger index: pruned hashes can be submitted again only with a ledger index inside the window."
  },
  {
   "property": "C40",
   "status": "partial",
   "theorems": [
    "Verif.Xrpl.C40_challenged",
    "Verif.Xrpl.C40_submit",
    "Verif.Xrpl.C40_pending",
    "Verif.Xrpl.C40_unchallenged_partial",
    "Verif.Xrpl.C40_refuted"
   ],
   "note": "A challenge is final. Undisputed deposits are credited; but anybody can challenge for free and challenges are never resolved (witness)."
  },
  {
   "property": "C41",
   "status": "partial",
   "theorems": [
    "Verif.Xrpl.C41_rounding",
    "Verif.Xrpl.C41_full",
    "Verif.Xrpl.C41_issued",
    "Verif.Xrpl.C41_delayed",
    "Verif.Xrpl.C41_xrp_partial",
    "Verif.Xrpl.C41_xrp_refuted"
   ],
   "note": "Exact for issued currencies; for XRP below 2^64 drops, above that fewer drops are sent than taken (witness)."
  },
  {
   "property": "C42",
   "status": "partial",
   "theorems": [
    "Verif.Xrpl.C42_unique_partial",
    "Verif.Xrpl.C42_refuted"
   ],
   "note": "Proved when allocations lie behind the tickets already allocated; the calls accept overlapping ones (witness)."
  },
  {
   "property": "C43",
   "status": "partial",
   "theorems": [
    "Verif.Xrpl.C43_scheduled",
    "Verif.Xrpl.C43_immediate",
    "Verif.Xrpl.C43_block",
    "Verif.Xrpl.C43_once",
    "Verif.Xrpl.C43_waits",
    "Verif.Xrpl.C43_live",
    "Verif.Xrpl.C43_capacity",
    "Verif.Xrpl.C43_lost_refuted"
   ],
   "note": "Never early, never skipped, at most once, and executed after a bounded number of blocks with idle capacity; a transaction that cannot be built is dropped although the tokens were taken (witness, with a codec that refuses exponents below -96)."
  },
  {
   "property": "C44",
   "status": "partial",
   "theorems": [
    "Verif.Vortex.C44_once",
    "Verif.Vortex.C44_moves",
    "Verif.Vortex.C44_paid_partial",
    "Verif.Vortex.C44_covered_partial",
    "Verif.Vortex.C44_paid_refuted"
   ],
   "note": "At most once and exactly the registered amount, always. That everybody is paid holds when the rewards of a distribution add up to less than 2^128; beyond that the sum wraps, payments fail and are marked as paid (witness). Transfers fail only for lack of funds in the model."
  },
  {
   "property": "C45",
   "status": "partial",
   "theorems": [
    "Verif.Vortex.C45_minted_partial",
    "Verif.Vortex.C45_enough",
    "Verif.Vortex.C45_minted_refuted"
   ],
   "note": "Exact when no account is registered twice; at least what is owed otherwise (witness: registered twice, minted twice)."
  },
  {
   "property": "C46",
   "status": "proved",
   "theorems": [
    "Verif.Vortex.C46_prorata",
    "Verif.Vortex.C46_backing",
    "Verif.Vortex.C46_run"
   ],
   "note": ""
  },
  {
   "property": "C47",
   "status": "proved",
   "theorems": [
    "Verif.Vortex.C47_step",
    "Verif.Vortex.C47_forward",
    "Verif.Vortex.C47_frozen",
    "Verif.Vortex.C47_mint_once",
    "Verif.Vortex.C47_supply"
   ],
   "note": ""
  },
  {
   "property": "C48",
   "status": "partial",
   "theorems": [
    "Verif.Crowdsale.C48_amounts",
    "Verif.Crowdsale.C48_pending",
    "Verif.Crowdsale.C48_covered_partial",
    "Verif.Crowdsale.C48_claim_partial",
    "Verif.Crowdsale.C48_batch_partial",
    "Verif.Crowdsale.C48_refuted"
   ],
   "note": "Amounts recorded exactly for all values; that the vault covers them holds when the funds raised times 10^6 fit 128 bits; beyond that nearly all vouchers go back to the administrator (witness)."
  },
  {
   "property": "C49",
   "status": "proved",
   "theorems": [
    "Verif.Crowdsale.C49_open",
    "Verif.Crowdsale.C49_recorded",
    "Verif.Crowdsale.C49_contribute",
    "Verif.Crowdsale.C49_close"
   ],
   "note": "Assumes nobody signs for a vault address and the payment asset's issuer does not burn the vault's balance."
  },
  {
   "property": "C50",
   "status": "proved",
   "theorems": [
    "Verif.Crowdsale.C50_redeem",
    "Verif.Crowdsale.C50_backed",
    "Verif.Crowdsale.C50_only"
   ],
   "note": "Mint limit times 10^6 below 2^32, as configured."
  },
  {
   "property": "C51",
   "status": "partial",
   "theorems": [
    "Verif.Crowdsale.C51_partial",
    "Verif.Crowdsale.C51_closes",
    "Verif.Crowdsale.C51_stuck",
    "Verif.Crowdsale.C51_refuted"
   ],
   "note": "Proved for durations of at least one block; a duration of zero is accepted and such a sale never closes (proved for all continuations, with a witness)."
  },
  {
   "property": "C52",
   "status": "proved",
   "theorems": [
    "Verif.Futurepass.C52_holder",
    "Verif.Futurepass.C52_owner",
    "Verif.Futurepass.C52_fresh",
    "Verif.Futurepass.C52_create"
   ],
   "note": "Fewer than 2^128 futurepasses; nobody signs for a futurepass address."
  },
  {
   "property": "C53",
   "status": "proved",
   "theorems": [
    "Verif.Futurepass.C53_transfer",
    "Verif.Futurepass.C53_renounce",
    "Verif.Futurepass.C53_only"
   ],
   "note": "C53_only covers every route except batches and nested proxying of management calls by the same signer, which are sequences of the calls covered."
  },
  {
   "property": "C54",
   "status": "proved",
   "theorems": [
    "Verif.Nft.C54_transfer_allowed",
    "Verif.Nft.C54_burn_allowed",
    "Verif.Nft.C54_cleared",
    "Verif.Nft.C54_approval_current"
   ],
   "note": ""
  },
  {
   "property": "C55",
   "status": "proved",
   "theorems": [
    "Verif.Erc20.C55_bound",
    "Verif.Erc20.C55_approve",
    "Verif.Erc20.C55_self",
    "Verif.Erc20.C55_total"
   ],
   "note": ""
  },
  {
   "property": "C56",
   "status": "partial",
   "theorems": [
    "Verif.EvmMoney.C56_rounds_up",
    "Verif.EvmMoney.C56_roundtrip",
    "Verif.EvmMoney.C56_multiples",
    "Verif.EvmMoney.C56_back_partial",
    "Verif.EvmMoney.C56_back_refuted"
   ],
   "note": "Rounding and exact multiples for every amount and number of decimals; converting back crashes for amounts within one unit of 2^128 (witness), and never loses value below."
  },
  {
   "property": "C57",
   "status": "partial",
   "theorems": [
    "Verif.Entry.C57_rejected_partial",
    "Verif.Entry.C57_ethereum",
    "Verif.Entry.C57_no_evm",
    "Verif.Entry.C57_quiet",
    "Verif.Entry.C57_no_lockout",
    "Verif.Entry.C57_protected_refused",
    "Verif.Entry.C57_never_listed",
    "Verif.Entry.C57_case",
    "Verif.Entry.C57_case_call",
    "Verif.Entry.C57_recover",
    "Verif.Entry.C57_refuted"
   ],
   "note": "Signed extrinsics and Ethereum transactions are stopped, EVM code never runs, and lock-out is impossible; calls signed by an XRPL key still run in maintenance mode (witness)."
  },
  {
   "property": "C58",
   "status": "partial",
   "theorems": [
    "Verif.Xls20.C58_re_request_partial",
    "Verif.Xls20.C58_mint_partial",
    "Verif.Xls20.C58_never_more",
    "Verif.Xls20.C58_refuted"
   ],
   "note": "The fee is cut to 32 bits and the total to 2^32-1: with a fee of 2^32 drops the relayer gets nothing (witness); exact for totals below 2^32, and never more than n times the fee."
  },
  {
   "property": "C59",
   "status": "partial",
   "theorems": [
    "Verif.Entry.C59_limit_partial",
    "Verif.Entry.C59_refuted"
   ],
   "note": "Amounts are cut to 64 bits before the check: a transfer of 2^64+1 passes a limit of 1000 (witness); holds below 2^64."
  },
  {
   "property": "C60",
   "status": "partial",
   "theorems": [
    "Verif.NftPeg.C60_deposit_partial",
    "Verif.NftPeg.C60_one_contract_partial",
    "Verif.NftPeg.C60_reclaim_only_receiver",
    "Verif.NftPeg.C60_reclaim_sends_back",
    "Verif.NftPeg.C60_record_kept",
    "Verif.NftPeg.C60_reclaim_once",
    "Verif.NftPeg.C128_withdraw",
    "Verif.NftPeg.C60_large_id_refuted",
    "Verif.NftPeg.C60_later_contract_refuted",
    "Verif.NftPeg.C60_theft_refuted"
   ],
   "note": "Token ids above 2^32-1 are cut to the same serial number, the contracts after the first one that fails are forgotten, and the two together let one user withdraw another's token (witnesses); holds for ids below 2^32-1 up to the first failure."
  },
  {
   "property": "C61",
   "status": "proved",
   "theorems": [
    "Verif.Dex.C61_add_limits",
    "Verif.Dex.C61_remove_limits"
   ],
   "note": ""
  },
  {
   "property": "C62",
   "status": "partial",
   "theorems": [
    "Verif.Ethy.C62_unchallenged_delivered_partial",
    "Verif.Ethy.C62_confirmed_delivered_partial",
    "Verif.Ethy.C62_zero_period_refuted"
   ],
   "note": "Proved for a positive challenge period; false for a period of zero (witness)."
  },
  {
   "property": "C63",
   "status": "partial",
   "theorems": [
    "Verif.Ethy.C63_all_votes_settle_partial",
    "Verif.Ethy.C63_no_verdict_refuted"
   ],
   "note": "Proved when the number of notaries divides 100; false for 29 notaries (witness)."
  },
  {
   "property": "C64",
   "status": "partial",
   "theorems": [
    "Verif.Ethy.C64_challenged_listed_partial",
    "Verif.Ethy.C64_dropped_challenge_refuted"
   ],
   "note": "Holds while a relayer is set; false when a claim is confirmed with no relayer (witness)."
  },
  {
   "property": "C65",
   "status": "partial",
   "theorems": [
    "Verif.Ethy.C65_only_current_relayer_slashed_partial",
    "Verif.Ethy.C65_wrong_relayer_slashed_refuted"
   ],
   "note": "Only the current relayer is slashed, who need not be the submitter (witness)."
  },
  {
   "property": "C66",
   "status": "partial",
   "theorems": [
    "Verif.EthyProof.C66_handover_by_old_set_partial",
    "Verif.EthyProof.C66_handover_refuted"
   ],
   "note": "Proved when the bridge is open at the change; false when it was paused by hand (witness)."
  },
  {
   "property": "C67",
   "status": "proved",
   "theorems": [
    "Verif.Ethy.C67_no_id_skipped"
   ],
   "note": ""
  },
  {
   "property": "C68",
   "status": "proved",
   "theorems": [
    "Verif.EthCall.C68_answered_once",
    "Verif.EthCall.C68_answer_final",
    "Verif.EthCall.C68_one_vote_each",
    "Verif.EthCall.C68_all_votes_answer"
   ],
   "note": ""
  },
  {
   "property": "C69",
   "status": "partial",
   "theorems": [
    "Verif.EthCall.C69_threshold_or_hopeless_partial",
    "Verif.EthCall.C69_minority_answer_refuted"
   ],
   "note": "Proved: threshold, or no result can win. False in the second case: the last vote is reported (witness)."
  },
  {
   "property": "C70",
   "status": "partial",
   "theorems": [
    "Verif.Witness.C70_signed_partial",
    "Verif.Witness.C70_unsigned_proof_refuted"
   ],
   "note": "False with fewer than two XRPL signers (witness)."
  },
  {
   "property": "C71",
   "status": "partial",
   "theorems": [
    "Verif.Witness.C71_matches_set_partial",
    "Verif.Witness.C71_mixed_sets_refuted"
   ],
   "note": "False across a change of validators (witness); proved for a fixed set."
  },
  {
   "property": "C72",
   "status": "proved",
   "theorems": [
    "Verif.Witness.C72_expanded_positions"
   ],
   "note": ""
  },
  {
   "property": "C73",
   "status": "proved",
   "theorems": [
    "Verif.Nft.C73_mint_fee"
   ],
   "note": "For products below 2^128 (the fee saturates)."
  },
  {
   "property": "C74",
   "status": "proved",
   "theorems": [
    "Verif.Nft.C74_switched_off"
   ],
   "note": ""
  },
  {
   "property": "C75",
   "status": "proved",
   "theorems": [
    "Verif.Nft.C75_settings_by_owner"
   ],
   "note": ""
  },
  {
   "property": "C76",
   "status": "proved",
   "theorems": [
    "Verif.Sft.C76_only_holder",
    "Verif.Sft.C76_reserve"
   ],
   "note": ""
  },
  {
   "property": "C77",
   "status": "proved",
   "theorems": [
    "Verif.Sft.C77_mint_fee"
   ],
   "note": "For single entries whose fee is below 2^128 (the product saturates)."
  },
  {
   "property": "C78",
   "status": "proved",
   "theorems": [
    "Verif.Sft.C78_switched_off"
   ],
   "note": ""
  },
  {
   "property": "C79",
   "status": "partial",
   "theorems": [
    "Verif.Holds.C79_issuer_refuted",
    "Verif.Holds.C79_only_holds_partial"
   ],
   "note": "Refuted: the issuer of an asset can burn from the holding account."
  },
  {
   "property": "C80",
   "status": "partial",
   "theorems": [
    "Verif.Market.C80_buyable_partial",
    "Verif.Market.C80_refuted"
   ],
   "note": "Proved when the rounded royalties fit the price; false for small prices (witness)."
  },
  {
   "property": "C81",
   "status": "proved",
   "theorems": [
    "Verif.Market.C81_closes",
    "Verif.Market.C81_not_early",
    "Verif.Market.C81_no_reopen"
   ],
   "note": ""
  },
  {
   "property": "C82",
   "status": "partial",
   "theorems": [
    "Verif.Market.C82_outbid_partial",
    "Verif.Market.C82_refuted"
   ],
   "note": "Proved for positive standing bids; a standing bid of zero can block an auction (witness)."
  },
  {
   "property": "C83",
   "status": "proved",
   "theorems": [
    "Verif.Sft.C83_owner_only",
    "Verif.Sft.C83_operators",
    "Verif.Sft.C83_approval_effect"
   ],
   "note": ""
  },
  {
   "property": "C84",
   "status": "proved",
   "theorems": [
    "Verif.Market.C84_terms",
    "Verif.Market.C84_closed"
   ],
   "note": ""
  },
  {
   "property": "C85",
   "status": "proved",
   "theorems": [
    "Verif.Market.C85_listing",
    "Verif.Market.C85_offer"
   ],
   "note": ""
  },
  {
   "property": "C86",
   "status": "proved",
   "theorems": [
    "Verif.Erc20Peg.C86_withdrawal",
    "Verif.Erc20Peg.C86_deposit",
    "Verif.Erc20Peg.C86_executed"
   ],
   "note": "Payment ids below 2^64."
  },
  {
   "property": "C87",
   "status": "partial",
   "theorems": [
    "Verif.Erc20.C87_decrease",
    "Verif.Erc20.C87_exact_partial",
    "Verif.Erc20.C87_saturation_refuted"
   ],
   "note": "Exact for amounts below 2^128; larger amounts are cut down to 2^128 - 1 and reported as success (witness)."
  },
  {
   "property": "C88",
   "status": "proved",
   "theorems": [
    "Verif.Xrpl.C88_block"
   ],
   "note": ""
  },
  {
   "property": "C89",
   "status": "proved",
   "theorems": [
    "Verif.Xrpl.C89_taken"
   ],
   "note": ""
  },
  {
   "property": "C90",
   "status": "partial",
   "theorems": [
    "Verif.Vortex.C90_share_partial",
    "Verif.Vortex.C90_share_refuted"
   ],
   "note": "Exact when amount times vault balance is below 2^128; beyond that the caller loses most of their share (witness: a billion tokens with 18 decimals)."
  },
  {
   "property": "C91",
   "status": "proved",
   "theorems": [
    "Verif.Vortex.C91_finishes"
   ],
   "note": ""
  },
  {
   "property": "C92",
   "status": "proved",
   "theorems": [
    "Verif.Vortex.C92_admin"
   ],
   "note": ""
  },
  {
   "property": "C93",
   "status": "partial",
   "theorems": [
    "Verif.Vortex.C93_batch_partial",
    "Verif.Vortex.C93_batch_refuted"
   ],
   "note": "One payment more than the batch size is made (witness)."
  },
  {
   "property": "C94",
   "status": "proved",
   "theorems": [
    "Verif.Crowdsale.C94_queue",
    "Verif.Crowdsale.C94_progress"
   ],
   "note": ""
  },
  {
   "property": "C95",
   "status": "partial",
   "theorems": [
    "Verif.Crowdsale.C95_redeemable_partial",
    "Verif.Crowdsale.C95_burned_refuted",
    "Verif.Crowdsale.C95_locked_refuted",
    "Verif.Crowdsale.C95_size_refuted"
   ],
   "note": "Proved for sales of collections that never minted, can mint and are below the size limit; initialize checks none of the three (a witness for each)."
  },
  {
   "property": "C96",
   "status": "proved",
   "theorems": [
    "Verif.Crowdsale.C96_vault"
   ],
   "note": "Assumes nobody signs for a vault address and the asset's issuer does not burn the vault's balance."
  },
  {
   "property": "C97",
   "status": "proved",
   "theorems": [
    "Verif.Crowdsale.C97_life",
    "Verif.Crowdsale.C97_open"
   ],
   "note": ""
  },
  {
   "property": "C98",
   "status": "proved",
   "theorems": [
    "Verif.Futurepass.C98_agreed",
    "Verif.Futurepass.C98_asked"
   ],
   "note": ""
  },
  {
   "property": "C99",
   "status": "partial",
   "theorems": [
    "Verif.Futurepass.C99_partial",
    "Verif.Futurepass.C99_refuted"
   ],
   "note": "Holds once all signatures have expired; before that the signature used can be used again (witness)."
  }
 ]
}