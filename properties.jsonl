{"id": "C01", "title": "Swaps never shrink a pool's constant product", "statement": "Every swap that succeeds, whether by exact supply or exact target and over any path, leaves each pool it touches with reserve0*reserve1 at least as large as before.", "quantifier": "all pool reserves, fee parameters, amounts, paths and prior histories of the exchange", "why_tests_cant": "The claim is an inequality over pairs of 128-bit reserves and amounts with integer rounding; tests sample a few amounts, the rounding direction matters for all of them.", "anchors": ["pallet/dex/src/lib.rs: _swap, get_amount_out, do_swap_with_exact_supply, do_swap_with_exact_target"]}
{"id": "C02", "title": "Exact-supply swaps honour the trader's limits", "statement": "When swap_with_exact_supply succeeds the trader is debited exactly amount_in of the first token of the path and credited at least min_amount_out of the last token, the deadline had not passed, and no other account except the pools' changes in those tokens; otherwise nothing changes.", "quantifier": "all exchange states, traders, paths, amounts, minimums and deadlines", "why_tests_cant": "Holds for every reserve configuration and path length; a test fixes them.", "anchors": ["pallet/dex/src/lib.rs: swap_with_exact_supply, do_swap_with_exact_supply, get_amounts_out, _swap"]}
{"id": "C03", "title": "Exact-target swaps honour the trader's limits", "statement": "When swap_with_exact_target succeeds the trader is credited exactly amount_out of the last token of the path and debited at most amount_in_max of the first token, and the deadline had not passed; otherwise nothing changes.", "quantifier": "all exchange states, traders, paths, amounts, maximums and deadlines", "why_tests_cant": "Holds for every reserve configuration and path length; a test fixes them.", "anchors": ["pallet/dex/src/lib.rs: swap_with_exact_target, do_swap_with_exact_target, get_amounts_in, _swap"]}
{"id": "C04", "title": "Quotes are mutually consistent", "statement": "Supplying the input quoted for a target output buys at least that output, and the input quoted for the output of a given input is never more than that input plus one; the quoted output is always strictly less than the output reserve.", "quantifier": "all reserves, amounts and fee numerators below the denominator", "why_tests_cant": "An arithmetic law over unbounded integers with floor rounding in two directions.", "anchors": ["pallet/dex/src/lib.rs: get_amount_in, get_amount_out"]}
{"id": "C05", "title": "Adding or removing liquidity never dilutes the other providers", "statement": "A successful add_liquidity or remove_liquidity never decreases, for either token of the pair, the amount of pool tokens backing one unit of the liquidity token held by anyone else.", "quantifier": "all pool reserves, liquidity supplies and amounts", "why_tests_cant": "Needs rounding to favour the pool for all values; tests check single points.", "anchors": ["pallet/dex/src/lib.rs: do_add_liquidity, do_remove_liquidity"]}
{"id": "C06", "title": "Liquidity cannot be created by cycling deposits", "statement": "Adding liquidity to a pool and removing exactly the liquidity tokens received returns at most the amounts deposited, for each token; a swap followed by the reverse swap returns at most the amount put in.", "quantifier": "all pools, amounts and fee settings", "why_tests_cant": "A no-profit law over all amounts and reserves; rounding attacks live at unusual magnitudes.", "anchors": ["pallet/dex/src/lib.rs: do_add_liquidity, do_remove_liquidity, _swap"]}
{"id": "C07", "title": "The exchange only moves tokens", "statement": "No exchange operation creates or destroys any traded token: the total over all accounts of every token other than the pair's liquidity token is unchanged, and the liquidity token's supply always equals the sum of the balances.", "quantifier": "all histories of exchange operations by any accounts", "why_tests_cant": "A conservation invariant over unbounded histories and account sets.", "anchors": ["pallet/dex/src/lib.rs: do_add_liquidity, do_remove_liquidity, _swap, mint_fee"]}
{"id": "C08", "title": "Recorded reserves are always fully backed", "statement": "In every reachable state the recorded reserves of each trading pair are at most the balances actually held by that pair's pool address, and distinct pairs have distinct pool addresses.", "quantifier": "all histories of exchange operations and direct transfers to pools", "why_tests_cant": "Invariant over unbounded histories, including donations between operations.", "anchors": ["pallet/dex/src/lib.rs: _swap, do_add_liquidity, do_remove_liquidity", "pallet/dex/src/types.rs: TradingPair::pool_address"]}
{"id": "C09", "title": "Minimum liquidity is locked forever", "statement": "Once a pool has been funded its liquidity supply never drops below 1000, because 1000 units stay with the burn account which can never withdraw.", "quantifier": "all histories of exchange operations", "why_tests_cant": "Must survive every later interleaving of deposits and withdrawals.", "anchors": ["pallet/dex/src/lib.rs: do_add_liquidity, do_remove_liquidity"]}
{"id": "C10", "title": "Disabled pairs cannot be traded but can be exited", "statement": "While a trading pair is disabled every swap through it and every add_liquidity to it fails, yet remove_liquidity does not depend on the pair being enabled.", "quantifier": "all states, callers and arguments", "why_tests_cant": "A gate that must be on every path through the code.", "anchors": ["pallet/dex/src/lib.rs: do_add_liquidity, get_amounts_out, get_amounts_in, do_remove_liquidity, disable_trading_pair"]}
{"id": "C11", "title": "The protocol fee only taxes growth while it is switched on", "statement": "The liquidity minted to the fee account at any mint/burn is at most one sixth of the growth of sqrt(k) since the fee was last collected or switched on; growth that happened while the fee was switched off is not taxed.", "quantifier": "all histories including toggling the fee account", "why_tests_cant": "Depends on the whole history of fee toggles and swaps.", "anchors": ["pallet/dex/src/lib.rs: mint_fee, set_fee_to"]}
{"id": "C12", "title": "Every bridge event is delivered at most once", "statement": "Over any history of submissions, missed-event submissions, challenges, notarizations, missed-id removals and block executions, no Ethereum event id is routed to its destination more than once.", "quantifier": "all histories of bridge calls by any accounts, all event ids and block schedules", "why_tests_cant": "Replay protection is a property of entire histories, including pruning of the processed-id list.", "anchors": ["pallet/ethy/src/lib.rs: on_initialize, submit_event, submit_missing_event, remove_missing_event_id", "pallet/ethy/src/impls.rs: do_submit_event, prune_claim_ids"]}
{"id": "C13", "title": "Challenged events are not delivered until resolved, and every claim waits out its challenge period", "statement": "An event claim is never delivered while it is challenged, and at least the challenge period passes between a claim's submission and its delivery.", "quantifier": "all histories of bridge calls and all block schedules", "why_tests_cant": "The stale schedule left by an invalidated claim only shows in particular call orders.", "anchors": ["pallet/ethy/src/lib.rs: on_initialize, submit_challenge", "pallet/ethy/src/impls.rs: do_submit_event, handle_invalid_claim"]}
{"id": "C14", "title": "A false claim cannot block the genuine event", "statement": "If a claim for an event id is proven invalid, a later correct claim for the same id can still be submitted and delivered.", "quantifier": "all histories of bridge calls", "why_tests_cant": "Depends on what remains scheduled after the false claim is removed.", "anchors": ["pallet/ethy/src/impls.rs: handle_invalid_claim", "pallet/ethy/src/lib.rs: on_initialize, submit_event"]}
{"id": "C15", "title": "Notarization verdicts require a real majority", "statement": "A challenged claim is declared valid only if at least the threshold share of the notary set voted yes, and invalid only if more than the complementary share voted no; each notary key counts at most once per claim, and a claim can get at most one verdict.", "quantifier": "all notary-set sizes, vote sequences and thresholds", "why_tests_cant": "Threshold arithmetic with floor percentages for every committee size and vote order.", "anchors": ["pallet/ethy/src/impls.rs: handle_event_notarization, handle_valid_claim, handle_invalid_claim", "pallet/ethy/src/lib.rs: validate_unsigned, submit_notarization"]}
{"id": "C16", "title": "Relayer and challenger bonds are always backed and returned exactly once", "statement": "At every moment the amount held for an account by the bridge equals its recorded relayer bond plus the bonds of its open challenges; a resolved challenge pays its challenger once, and the active relayer cannot withdraw.", "quantifier": "all histories of bond deposits, withdrawals, challenges and verdicts", "why_tests_cant": "An accounting invariant over all interleavings.", "anchors": ["pallet/ethy/src/lib.rs: set_relayer, deposit_relayer_bond, withdraw_relayer_bond, submit_challenge", "pallet/ethy/src/impls.rs: handle_invalid_claim, handle_valid_claim"]}
{"id": "C17", "title": "Every outgoing event proof id is unique and never lost", "statement": "Each requested outgoing event gets a fresh, strictly increasing proof id, and each issued id is in exactly one of two places: already sent for signing, or waiting in the pending queue.", "quantifier": "all histories of requests, pauses and idle blocks (below 2^64 requests)", "why_tests_cant": "A partition invariant over all histories with pauses at arbitrary points.", "anchors": ["pallet/ethy/src/impls.rs: send_event, sign_xrpl_transaction, do_request_event_proof", "pallet/ethy/src/lib.rs: on_idle"]}
{"id": "C18", "title": "Pausing the bridge defers but never drops outgoing proofs", "statement": "While the bridge is paused no proof is sent for signing, and after it is unpaused enough idle blocks send every deferred proof exactly once.", "quantifier": "all histories; all per-block drain limits of at least one", "why_tests_cant": "A liveness claim over unbounded schedules.", "anchors": ["pallet/ethy/src/impls.rs: bridge_paused, do_request_event_proof", "pallet/ethy/src/lib.rs: on_idle"]}
{"id": "C19", "title": "A completed event proof is never reopened", "statement": "After an event proof is marked complete, every later witness for it is rejected, no matter in which order events complete or how the completed list is compacted.", "quantifier": "all sequences of completions and witnesses over all event ids", "why_tests_cant": "Depends on every order of completion, including gaps.", "anchors": ["ethy-gadget/src/witness_record.rs: mark_complete, note_event_witness, compact_sequence"]}
{"id": "C20", "title": "An incomplete event is never mistaken for completed", "statement": "A witness for an event that was never marked complete is not rejected as belonging to a completed event.", "quantifier": "all sequences of completions and witnesses over all event ids", "why_tests_cant": "Only particular out-of-order completion sequences break it.", "anchors": ["ethy-gadget/src/witness_record.rs: note_event_witness, compact_sequence"]}
{"id": "C21", "title": "Consensus needs the threshold of distinct validators", "statement": "The signatures collected for an event are sorted by validator index with no index repeated, each one verified for the event's digest, and consensus is reported only when the number of distinct validators (for XRPL: distinct XRPL signers) reaches the proof threshold.", "quantifier": "all sequences of witnesses, metadata arrivals and duplicates under a fixed validator set", "why_tests_cant": "Counting soundness over all message orders and duplications.", "anchors": ["ethy-gadget/src/witness_record.rs: note_event_witness, has_consensus, process_unverified_witnesses, signatures_for"]}
{"id": "C22", "title": "Every NFT has exactly one owner and balances add up", "statement": "In every reachable state each existing token of a collection has exactly one owner, the number of tokens an account owns is its reported balance, and the balances of a collection add up to its issuance.", "quantifier": "all histories of mint, transfer, burn and bridged mint with arbitrary serial lists", "why_tests_cant": "Ownership is stored as per-owner lists; consistency must survive every operation order and every serial list, including repeated serials.", "anchors": ["pallet/nft/src/impls.rs: do_transfer, do_mint, do_burn, mint_bridged_token", "pallet/nft/src/types.rs: add_user_tokens, remove_user_tokens, token_balance_of"]}
{"id": "C23", "title": "NFT issuance never exceeds the collection's maximum", "statement": "Once a maximum issuance is set, no sequence of mints, bridged mints, burns or limit changes lets the collection's current issuance exceed it, and mint never allocates a serial at or above it.", "quantifier": "all histories of collection operations", "why_tests_cant": "Cap must hold across every path that can mint.", "anchors": ["pallet/nft/src/impls.rs: pre_mint, mint_bridged_token, do_mint", "pallet/nft/src/lib.rs: set_max_issuance"]}
{"id": "C24", "title": "Minted NFT serials are fresh", "statement": "Serial numbers handed out by mint are consecutive, never previously minted on this chain and never existing at the time, even after burns.", "quantifier": "all histories of mints, burns, transfers of natively created collections", "why_tests_cant": "No-reuse is a property of the entire history.", "anchors": ["pallet/nft/src/impls.rs: pre_mint, do_mint, do_burn"]}
{"id": "C25", "title": "Only the owner can move an NFT and locked NFTs do not move", "statement": "A transfer or burn changes the owner of a token only if the caller owned it and it was not locked; all other tokens keep their owner.", "quantifier": "all states, callers and serial lists", "why_tests_cant": "Frame condition over all tokens of all collections.", "anchors": ["pallet/nft/src/impls.rs: do_transfer, do_burn, set_token_lock"]}
{"id": "C26", "title": "Paging through owned NFTs is complete", "statement": "Reading an account's tokens page by page with the returned cursor yields each owned serial exactly once in increasing order and then stops.", "quantifier": "all owned-serial lists and all page limits of at least one", "why_tests_cant": "Pagination off-by-ones appear only at particular list/limit combinations.", "anchors": ["pallet/nft/src/impls.rs: owned_tokens"]}
{"id": "C27", "title": "Identifiers derived from counters never collide", "statement": "Asset and collection ids derived from the per-chain counter and the chain id are distinct for distinct counter values and distinct chain ids, and creation fails rather than wrap when the counter is exhausted.", "quantifier": "all counter values and chain ids", "why_tests_cant": "Injectivity over the full 32-bit space.", "anchors": ["pallet/common/src/utils.rs: next_asset_uuid", "pallet/nft/src/impls.rs: next_collection_uuid", "pallet/assets-ext/src/lib.rs: create, next_asset_uuid"]}
{"id": "C28", "title": "SFT balances always add up to the issuance and respect the cap", "statement": "For every semi-fungible token the sum over all accounts of free plus reserved balance equals its issuance, which never exceeds its maximum issuance; every account appears once.", "quantifier": "all histories of create, mint, transfer, burn, reserve, release and cap changes with arbitrary batches", "why_tests_cant": "Batched lists with repeated serials and arbitrary histories.", "anchors": ["pallet/sft/src/impls.rs: do_create_token, do_mint, do_transfer, do_burn, do_set_max_issuance", "pallet/sft/src/types.rs: add_balance, remove_balance, transfer_balance"]}
{"id": "C29", "title": "SFT operations are all-or-nothing and touch only what they name", "statement": "A batch transfer or burn either moves exactly the listed quantities of the listed serials or changes nothing, and reserved balance can never be transferred or burned.", "quantifier": "all states, batches and callers", "why_tests_cant": "Rollback must be complete at every failure position in the batch.", "anchors": ["pallet/sft/src/impls.rs: do_transfer, do_burn, reserve_balance, free_reserved_balance", "pallet/sft/src/types.rs: SftTokenBalance"]}
{"id": "C30", "title": "A sale distributes exactly the sale price", "statement": "The royalty payouts, marketplace fee, network fee and the seller's remainder of any completed sale add up exactly to the price paid, and no payout is negative, for every royalty schedule that passes validation.", "quantifier": "all prices, royalty schedules and fee settings", "why_tests_cant": "Exactness under per-mille rounding for all 128-bit prices.", "anchors": ["pallet/marketplace/src/impls.rs: calculate_bundle_royalties, calculate_royalty_payouts, process_payment_and_transfer", "primitives/src/nft.rs: RoyaltiesSchedule"]}
{"id": "C31", "title": "A listed token cannot leave the seller except through the listing", "statement": "From the moment an NFT is listed until the listing is closed the token is locked: it cannot be transferred, burned or listed again, and closing the listing (sale, cancellation, expiry) unlocks it.", "quantifier": "all histories of listings, bids, offers and block ends", "why_tests_cant": "Lock/listing correspondence is an invariant over all histories.", "anchors": ["pallet/marketplace/src/impls.rs: do_sell, do_auction, do_buy, do_cancel_sale, do_accept_offer, close_listings_at, process_auction_closure", "pallet/marketplace/src/types.rs: lock_tokens, unlock_tokens"]}
{"id": "C32", "title": "Auction prices only rise and outbid bidders are refunded in full", "statement": "Each accepted bid is strictly higher than the previous one and at least the reserve price; the previous bidder's whole bid is released at that moment.", "quantifier": "all bid sequences", "why_tests_cant": "Holds over all bid histories.", "anchors": ["pallet/marketplace/src/impls.rs: do_bid"]}
{"id": "C33", "title": "Bidders' and offerers' money is never stranded", "statement": "In every reachable state, for each account and asset, the amount held by the marketplace equals the sum of its open offers and its current winning bids on open auctions; so every held amount can still be paid out or refunded.", "quantifier": "all histories of listings, bids, offers, acceptances, cancellations and auction closures", "why_tests_cant": "An accounting invariant that must survive interleavings of offers and auctions over the same token.", "anchors": ["pallet/marketplace/src/impls.rs: do_bid, do_make_simple_offer, do_cancel_offer, do_accept_offer, process_auction_closure, remove_listing"]}
{"id": "C34", "title": "Held funds are always fully backed", "statement": "For every asset the balance of the holding account is at least the sum of all recorded holds over all accounts and pallets, and place_hold, release_hold and spend_hold conserve the asset's total.", "quantifier": "all histories of holds, releases, spends and ordinary transfers by users", "why_tests_cant": "Solvency invariant over all histories and accounts.", "anchors": ["pallet/assets-ext/src/lib.rs: place_hold, release_hold, spend_hold, hold_balance"]}
{"id": "C35", "title": "Holds of different pallets do not interfere", "statement": "Placing, releasing or spending a hold for one pallet, account and asset changes no other hold, and releasing or spending more than the recorded hold fails without effect.", "quantifier": "all hold states", "why_tests_cant": "Sorted-list bookkeeping must be right for every list.", "anchors": ["pallet/assets-ext/src/lib.rs: place_hold, release_hold, spend_hold"]}
{"id": "C36", "title": "Bridged ERC-20 supply is always backed", "statement": "Counting from genesis with one-to-one asset mappings, for every bridged token the local supply plus withdrawals still waiting plus deposits still waiting equals the amount deposited on Ethereum minus the amount of withdrawals sent; the native token is never minted by the bridge.", "quantifier": "all histories of deposits, withdrawals, delays, idle blocks", "why_tests_cant": "Conservation across asynchronous delayed processing over all histories.", "anchors": ["pallet/erc20-peg/src/lib.rs: do_withdrawal, process_withdrawal, do_deposit, process_deposit, delay_payment, process_delayed_payment, mint_or_transfer, burn_or_transfer"]}
{"id": "C37", "title": "A delayed ERC-20 payment is executed at most once and not early", "statement": "A delayed payment is executed at most once, never before the block it was scheduled for unless root claims it, and its id is never reused.", "quantifier": "all histories and block schedules", "why_tests_cant": "Exactly-once across idle-weight splits and manual claims.", "anchors": ["pallet/erc20-peg/src/lib.rs: on_idle, on_initialize, claim_delayed_payment, delay_payment, process_delayed_payment"]}
{"id": "C38", "title": "Every delayed ERC-20 payment is eventually executed", "statement": "Given enough idle weight in later blocks, every delayed payment is eventually executed.", "quantifier": "all histories and payment-delay settings", "why_tests_cant": "A liveness claim over unbounded schedules, broken only by specific delay settings.", "anchors": ["pallet/erc20-peg/src/lib.rs: on_initialize, on_idle, delay_payment"]}
{"id": "C39", "title": "An XRPL transaction is credited at most once", "statement": "Over any history of relayer submissions, challenges, settlements and pruning (without root resetting the records), a given XRPL transaction (hash with its ledger index) is credited at most once.", "quantifier": "all histories of bridge operations and block executions", "why_tests_cant": "Replay protection across pruning windows is a property of histories.", "anchors": ["pallet/xrpl-bridge/src/lib.rs: submit_transaction, process_xrp_tx, clear_storages, prune_settled_ledger_index"]}
{"id": "C40", "title": "A challenged XRPL transaction is not credited, and uncontested ones are", "statement": "A transaction challenged before its processing block is never credited by that submission; a transaction nobody legitimately disputes is credited after the challenge period.", "quantifier": "all histories", "why_tests_cant": "Second half fails only through specific adversarial calls.", "anchors": ["pallet/xrpl-bridge/src/lib.rs: submit_challenge, process_xrp_tx"]}
{"id": "C41", "title": "XRPL amounts survive the conversion exactly", "statement": "The amount burned for an issued-currency withdrawal is exactly the amount written in the XRPL transaction: rounding to 16 significant digits happens before burning, never increases the amount, and loses less than one unit in the last place kept.", "quantifier": "all 128-bit amounts and decimals", "why_tests_cant": "Digit-count arithmetic over the full 128-bit range.", "anchors": ["pallet/xrpl-bridge/src/lib.rs: saturate_balance, balance_to_mantissa_exponent, process_asset_withdrawal, serialize_xrp_tx"]}
{"id": "C42", "title": "Door-account tickets are never used twice", "statement": "Each outgoing XRPL transaction of a door account carries a ticket sequence number that no earlier transaction of that account carried.", "quantifier": "all histories of withdrawals and ticket allocations by the relayer", "why_tests_cant": "Depends on interleaving allocations with withdrawals.", "anchors": ["pallet/xrpl-bridge/src/lib.rs: get_door_ticket_sequence, set_ticket_sequence_next_allocation, set_ticket_sequence_current_allocation"]}
{"id": "C43", "title": "Delayed XRPL withdrawals are executed at most once, never early, and never skipped", "statement": "Every delayed withdrawal is scheduled at a block the idle processing has not yet passed; it is submitted exactly once, at or after that block, provided later blocks have idle weight.", "quantifier": "all histories, delay settings and idle-weight patterns", "why_tests_cant": "Pointer-versus-schedule invariant over all histories.", "anchors": ["pallet/xrpl-bridge/src/lib.rs: process_delayed_payments, delay_payment, add_to_withdraw"]}
{"id": "C44", "title": "Vortex rewards are paid at most once and the vault can always pay", "statement": "In each distribution every registered account is paid at most once and at most its registered amount; the amount minted for a distribution covers all registered rewards, so no payment fails for lack of funds; when the distribution is done every registered account has been paid.", "quantifier": "all histories of registrations, starts and batched payouts", "why_tests_cant": "Batched iteration with a resume key across arbitrarily many unsigned calls.", "anchors": ["pallet/vortex-distribution/src/lib.rs: register_rewards, start_vtx_dist, pay_unsigned, do_start_vtx_dist, do_vtx_distribution"]}
{"id": "C45", "title": "The vortex minted equals the vortex owed", "statement": "The total minted for a distribution equals the sum of the rewards of the registered accounts.", "quantifier": "all registration histories", "why_tests_cant": "Fails only for repeated registrations.", "anchors": ["pallet/vortex-distribution/src/lib.rs: register_rewards, do_start_vtx_dist"]}
{"id": "C46", "title": "Vortex redemption is pro-rata and never hurts remaining holders", "statement": "Redeeming burns the caller's vortex and pays at most the pro-rata share of each vault asset; afterwards each remaining unit of vortex is backed by at least as much of every asset as before.", "quantifier": "all vault balances, supplies and redemption sequences", "why_tests_cant": "Rounding law over all 128-bit values.", "anchors": ["pallet/vortex-distribution/src/lib.rs: redeem_tokens_from_vault"]}
{"id": "C47", "title": "Distribution lifecycle is one-way", "statement": "A distribution moves only forward through enabled, triggered, paying and done (or to disabled); rewards cannot change after triggering and vortex is minted at most once per distribution.", "quantifier": "all histories of calls", "why_tests_cant": "State-machine property over all call orders.", "anchors": ["pallet/vortex-distribution/src/lib.rs: create_vtx_dist, disable_vtx_dist, start_vtx_dist, trigger_vtx_distribution, pay_unsigned, register_rewards"]}
{"id": "C48", "title": "Crowdsale vouchers are shared fairly and never run out", "statement": "Each contributor receives contribution*10^6/price vouchers when the soft cap is not exceeded, and their exact pro-rata share of the supply when it is (rounded down); the sum of all entitlements never exceeds the vouchers kept in the vault, so every contributor is paid in full in any order of claims.", "quantifier": "all contribution multisets, prices and collection sizes within the 128-bit range", "why_tests_cant": "Sum of floored shares over arbitrary many contributors and claim orders.", "anchors": ["pallet/crowdsale/src/impls.rs: calculate_voucher_rewards, transfer_user_vouchers, close_sales_at", "pallet/crowdsale/src/lib.rs: claim_voucher, distribute_crowdsale_rewards"]}
{"id": "C49", "title": "Crowdsale funds are accounted exactly", "statement": "While a sale is open the vault holds at least the funds raised, which equal the sum of the recorded contributions; when it closes the administrator receives exactly the funds raised.", "quantifier": "all participation histories", "why_tests_cant": "Accounting invariant over all histories.", "anchors": ["pallet/crowdsale/src/lib.rs: participate", "pallet/crowdsale/src/impls.rs: close_sales_at"]}
{"id": "C50", "title": "Every redeemable voucher is backed by an unminted NFT", "statement": "Redeeming quantity NFTs burns quantity*10^6 vouchers, and in every reachable state the outstanding voucher supply plus 10^6 times the NFTs already redeemed never exceeds 10^6 times the collection maximum.", "quantifier": "all histories of claims and redemptions", "why_tests_cant": "Invariant over histories; saturating arithmetic hides at large quantities.", "anchors": ["pallet/crowdsale/src/lib.rs: redeem_voucher", "pallet/crowdsale/src/impls.rs: create_voucher_asset"]}
{"id": "C51", "title": "Every enabled crowdsale eventually closes", "statement": "A sale that is enabled is closed at its end block.", "quantifier": "all durations accepted by initialize and all schedules", "why_tests_cant": "Liveness; only particular durations break it.", "anchors": ["pallet/crowdsale/src/lib.rs: initialize, enable", "pallet/crowdsale/src/impls.rs: close_sales_at"]}
{"id": "C52", "title": "One futurepass per holder, one holder per futurepass", "statement": "In every reachable state no two accounts hold the same futurepass, every holder is a registered owner-level delegate of its futurepass, every futurepass has at most one owner-level delegate, and newly created futurepass addresses are never reused.", "quantifier": "all histories of create, register, unregister, transfer", "why_tests_cant": "Cross-map consistency over all histories.", "anchors": ["pallet/futurepass/src/lib.rs: create, register_delegate_with_signature, unregister_delegate, transfer_futurepass, generate_futurepass_account", "runtime/src/impls.rs: ProxyPalletProvider"]}
{"id": "C53", "title": "Transferring a futurepass removes all previous control", "statement": "After transfer_futurepass succeeds the new owner is the only account with any delegate entry, so no earlier delegate can act for the futurepass; only the holder or the futurepass itself can transfer it.", "quantifier": "all delegate lists and callers", "why_tests_cant": "Must hold for all delegate lists, including when the new owner was already a delegate.", "anchors": ["pallet/futurepass/src/lib.rs: transfer_futurepass", "runtime/src/impls.rs: ProxyPalletProvider::remove_delegate"]}
{"id": "C54", "title": "NFT approvals die with ownership", "statement": "An account that is not the owner may act on a token only if it is the approved account of that token or an operator of its current owner; single-token approvals are cleared by every transfer and burn, so an approval given by a previous owner never authorises anything.", "quantifier": "all histories of approvals, transfers and burns", "why_tests_cant": "Stale approvals show up only in particular histories.", "anchors": ["pallet/token-approvals/src/lib.rs: erc721_approval, is_approved_or_owner, on_nft_transfer", "pallet/nft/src/impls.rs: do_transfer, do_burn"]}
{"id": "C55", "title": "An ERC-20 spender never spends more than approved", "statement": "Between two approvals the total an approved spender draws from an owner never exceeds the approved amount, and an allowance of one owner, asset and spender is not affected by others.", "quantifier": "all sequences of approvals and spends", "why_tests_cant": "Cumulative bound over unbounded sequences.", "anchors": ["pallet/token-approvals/src/lib.rs: erc20_approval, erc20_update_approval"]}
{"id": "C56", "title": "Decimal scaling between EVM wei and native units is safe", "statement": "Converting wei to the native 6-decimal unit rounds up by less than one unit and converting back never loses value; amounts that are exact multiples round-trip exactly.", "quantifier": "all 128-bit amounts and decimals up to 18", "why_tests_cant": "Arithmetic law over the full range.", "anchors": ["pallet/common/src/utils.rs: scale_wei_to_correct_decimals, scale_decimals_to_wei", "runtime/src/impls.rs: scale_wei_to_6dp, EvmCurrencyScaler"]}
{"id": "C57", "title": "Maintenance mode stops ordinary users and can always be undone", "statement": "While maintenance mode is on every signed call to a pallet outside the protected list is rejected, and no sequence of blocking operations can make calls to the protected pallets (including the maintenance and sudo pallets) be rejected; names are matched case-insensitively.", "quantifier": "all sequences of blocking operations and all calls", "why_tests_cant": "Lock-out freedom over all administrative histories.", "anchors": ["pallet/maintenance-mode/src/lib.rs: is_pallet_blockable, call_paused, validate, block_call, block_pallet"]}
{"id": "C58", "title": "The XLS-20 mint fee is charged in full", "statement": "Requesting an XLS-20 mint of n tokens transfers n times the configured per-token fee to the relayer.", "quantifier": "all fees and token counts", "why_tests_cant": "Truncation shows only for fees above 32 bits.", "anchors": ["pallet/xls20/src/lib.rs: pay_xls20_fee"]}
{"id": "C59", "title": "A doughnut's amount limit bounds the amount actually transferred", "statement": "If a doughnut's permissions reject every transfer above some limit, no transfer above that limit can be executed under it.", "quantifier": "all amounts and permission predicates", "why_tests_cant": "Truncation shows only above 64 bits.", "anchors": ["runtime/src/impls.rs: DoughnutCallValidator::check_extrinsic"]}
{"id": "C60", "title": "Bridged NFTs keep their identity and are never lost", "statement": "A deposit of ERC-721 tokens gives the receiver, for each token, either the token with the same id or a reclaimable record that the receiver alone can use exactly once to send it back; withdrawing sends back the id that was deposited.", "quantifier": "all deposits, token ids and failure points", "why_tests_cant": "Depends on id ranges and on which collection of a batch fails.", "anchors": ["pallet/nft-peg/src/lib.rs: decode_deposit_event, do_deposit, do_withdrawal, do_reclaim_blocked_nfts", "pallet/nft/src/impls.rs: mint_bridged_token"]}
{"id": "C61", "title": "Liquidity operations honour the provider's limits", "statement": "A successful add_liquidity happens no later than its deadline, takes at most the desired amount of each token and at least each stated minimum that does not exceed the desired amount, and credits a positive number of liquidity tokens to the recipient; a successful remove_liquidity happens no later than its deadline, takes exactly the stated number of liquidity tokens and credits the recipient with at least the minimum of each token.", "quantifier": "all reachable exchange states, providers, amounts, minimums and deadlines, either order of the pair", "why_tests_cant": "Either argument order and every reserve ratio must honour the limits.", "anchors": ["pallet/dex/src/lib.rs: add_liquidity, do_add_liquidity, remove_liquidity, do_remove_liquidity"]}
{"id": "C62", "title": "An accepted, undisputed bridge claim is delivered on time", "statement": "A claim accepted by the bridge that nobody challenges, or that the notaries have confirmed, is delivered no later than the block announced for it, whatever else happens.", "quantifier": "all histories before and after the submission, all block schedules", "why_tests_cant": "A liveness claim over unbounded futures.", "anchors": ["pallet/ethy/src/lib.rs: on_initialize, submit_event, submit_missing_event", "pallet/ethy/src/impls.rs: do_submit_event, handle_valid_claim"]}
{"id": "C63", "title": "Once all notaries have voted a challenge is settled", "statement": "When the last notary casts its vote on a challenged claim, the claim is declared valid or invalid.", "quantifier": "all sizes of the notary set and all splits of the vote", "why_tests_cant": "Rounding makes it fail only for particular sizes and splits.", "anchors": ["pallet/ethy/src/impls.rs: handle_event_notarization"]}
{"id": "C64", "title": "A challenged claim stays on the list of open challenges until it is settled", "statement": "As long as a claim is challenged it is on the list of open challenges that the notaries work through, and a settled claim does not stay challenged.", "quantifier": "all histories of bridge calls", "why_tests_cant": "Depends on the relayer being dismissed between the votes.", "anchors": ["pallet/ethy/src/impls.rs: handle_valid_claim, handle_invalid_claim", "pallet/ethy/src/lib.rs: submit_challenge"]}
{"id": "C65", "title": "Only the relayer who submitted a false claim is slashed", "statement": "When a claim is proven invalid, the bond that is confiscated is that of the relayer who submitted the claim.", "quantifier": "all histories of relayer changes, submissions and verdicts", "why_tests_cant": "Depends on a relayer change between submission and verdict.", "anchors": ["pallet/ethy/src/impls.rs: handle_invalid_claim", "pallet/ethy/src/lib.rs: set_relayer"]}
{"id": "C66", "title": "The handover proof is signed by the outgoing validators", "statement": "When the validators change, the message telling the Ethereum contract about the new set is handed out for signature by the outgoing set, the only one that contract accepts.", "quantifier": "all histories of pauses, requests and validator changes", "why_tests_cant": "Depends on the bridge being paused by hand at the moment of the change.", "anchors": ["pallet/ethy/src/impls.rs: handle_authorities_change, do_finalise_authorities_change, do_request_event_proof", "pallet/ethy/src/lib.rs: on_idle, set_bridge_paused"]}
{"id": "C67", "title": "No bridge event id is skipped", "statement": "Once the first event has been processed, an event id above it stays open for submission, by the normal or the missed-event call, until a claim for it has come due or root removes it; pruning the record of processed ids loses none.", "quantifier": "all histories of bridge calls and blocks, all limits on the stored ids", "why_tests_cant": "Pruning only starts after many events with gaps.", "anchors": ["pallet/ethy/src/impls.rs: prune_claim_ids", "pallet/ethy/src/lib.rs: on_initialize, submit_event, submit_missing_event, remove_missing_event_id"]}
{"id": "C68", "title": "An Ethereum call request gets one answer", "statement": "Every request to read from Ethereum is answered at most once, each validator votes on it at most once, and the request is answered at the latest when as many votes are in as there are validators.", "quantifier": "all histories of requests, votes and validator changes", "why_tests_cant": "Every split of the votes and every order must lead to exactly one answer.", "anchors": ["pallet/ethy/src/impls.rs: handle_call_notarization, checked_eth_call", "pallet/ethy/src/lib.rs: validate_unsigned, submit_notarization"]}
{"id": "C69", "title": "The answer to an Ethereum call request is the one the validators agreed on", "statement": "A result reported to the requester was submitted by at least the threshold of the validators.", "quantifier": "all histories of requests, votes and validator changes", "why_tests_cant": "Depends on the split of the votes.", "anchors": ["pallet/ethy/src/impls.rs: handle_call_notarization"]}
{"id": "C70", "title": "No bridge proof without signatures", "statement": "A proof that a node makes and publishes carries at least one verified validator signature.", "quantifier": "all histories of requests, witnesses and validator sets", "why_tests_cant": "Depends on the size of the XRPL signer set announced by the chain.", "anchors": ["ethy-gadget/src/witness_record.rs: has_consensus", "ethy-gadget/src/worker.rs: try_make_proof", "runtime/src/lib.rs: xrpl_signers"]}
{"id": "C71", "title": "The signatures of a proof belong to the validator set it names", "statement": "Each signature in a proof was made by the validator at that index of the validator set the proof is announced for.", "quantifier": "all histories of requests, witnesses and validator changes", "why_tests_cant": "Needs a validator change between two witnesses of one event.", "anchors": ["ethy-gadget/src/witness_record.rs: set_validators, note_event_witness", "ethy-gadget/src/worker.rs: try_make_proof"]}
{"id": "C72", "title": "The expanded proof puts every signature at its validator's position", "statement": "Expanding a proof to the full validator list keeps each collected signature at the index of its validator and fills the rest with empty signatures.", "quantifier": "all proofs a node makes and all sizes of the validator set", "why_tests_cant": "The loop stops early at an index out of range, which is right only for sorted lists.", "anchors": ["primitives/src/ethy.rs: expanded_signatures"]}
{"id": "C73", "title": "Public minting pays the collection owner the advertised price", "statement": "The owner of an NFT collection mints without a fee. Anybody else mints only while public minting is enabled, and then pays exactly price times quantity, all of it to the collection owner.", "quantifier": "all states, minters, quantities and prices", "why_tests_cant": "Every combination of price, quantity, balance and owner must charge the exact product to the right party.", "anchors": ["pallet/nft/src/impls.rs: pre_mint, charge_mint_fee", "pallet/nft/src/lib.rs: mint"]}
{"id": "C74", "title": "The switches of an NFT collection are respected", "statement": "While transfers, burning or minting of a collection are switched off, no token of it changes hands, disappears, or is minted on this chain, whichever entry point is used.", "quantifier": "all histories and all calls", "why_tests_cant": "There are several paths to each effect (extrinsic, precompile, bridge); all must check.", "anchors": ["pallet/nft/src/impls.rs: do_transfer, do_burn", "pallet/nft/src/lib.rs: mint, set_utility_flags"]}
{"id": "C75", "title": "Only the owner of a collection changes its settings", "statement": "Owner, maximum issuance, royalties, XLS-20 compatibility, public mint settings and switches of an existing NFT collection change only through a call signed by its owner, or, for a collection held by the pallet itself, by root assigning it.", "quantifier": "all histories and all calls", "why_tests_cant": "Has to hold for every call of the pallet in every state.", "anchors": ["pallet/nft/src/lib.rs: set_owner, set_max_issuance, set_royalties_schedule, set_mint_fee, set_utility_flags, toggle_public_mint, claim_unowned_collection", "pallet/nft/src/impls.rs: enable_xls20_compatibility"]}
{"id": "C76", "title": "Only the holder or an approved operator can reduce an SFT balance", "statement": "The total (free plus reserved) balance an account has of a semi-fungible token never goes down except by the account's own transfer or burn, or by an ERC-1155 transfer or burn of an operator the account approved for the collection. Reserving and releasing move exactly the named amount between free and reserved and never more than is there.", "quantifier": "every reachable state, every call with any arguments, every account, collection and serial", "why_tests_cant": "The balance lists are rewritten by mint, transfer, burn, reserve, release and maximum changes; tests check single calls of named accounts.", "anchors": ["pallet/sft/src/impls.rs: do_transfer, do_burn", "pallet/sft/src/types.rs: SftTokenInformation, SftTokenBalance", "evm-precompiles/erc1155/src/lib.rs: safe_transfer_from, burn"]}
{"id": "C77", "title": "A batch public SFT mint costs the sum of price times quantity", "statement": "The owner of an SFT collection mints for free. Any other account can only mint tokens for which public minting is enabled, and pays, in the configured asset, price times quantity for every entry of the batch, all to the collection owner.", "quantifier": "all collections, batches (with repeated serials), prices and balances", "why_tests_cant": "The fee is charged per entry inside the loop that mints; the sum over arbitrary batches with mixed assets is not a finite case set.", "anchors": ["pallet/sft/src/impls.rs: do_mint, charge_mint_fee"]}
{"id": "C78", "title": "SFT switches stop what they say", "statement": "While minting of an SFT collection is switched off no existing token of it is issued further; while burning is off issuance never falls; while transfers and burning are off no account's balance goes down.", "quantifier": "every reachable state, every call, every collection", "why_tests_cant": "Several entry points (pallet call, ERC-1155 contract) lead to each effect.", "anchors": ["pallet/sft/src/impls.rs: do_mint, do_transfer, do_burn", "pallet/sft/src/lib.rs: set_utility_flags"]}
{"id": "C79", "title": "Nobody but the holding pallets can take held money", "statement": "The money backing holds leaves the holding account only when a hold is released or spent: no other account's call, including those of the asset's issuer, reduces it.", "quantifier": "all histories of calls by all accounts", "why_tests_cant": "One administrative call of one asset's issuer breaks it; no finite set of call tests establishes its absence.", "anchors": ["pallet/assets-ext/src/lib.rs: place_hold, release_hold, spend_hold, burn_from"]}
{"id": "C80", "title": "A fixed-price listing can be bought for its price", "statement": "Whoever the listing allows and who has the price can buy an open fixed-price listing whose tokens are transferable, for exactly the price.", "quantifier": "all reachable states, listings, royalty schedules and prices", "why_tests_cant": "Rounding of royalties interacts with every price and every schedule.", "anchors": ["pallet/marketplace/src/impls.rs: do_buy, calculate_bundle_royalties", "pallet/marketplace/src/lib.rs: buy"]}
{"id": "C81", "title": "Listings close on time and never reopen", "statement": "A listing stays open until its closing block unless it is sold or cancelled, is closed at its closing block at the latest, and a closed listing never opens again.", "quantifier": "all histories of listings, bids (which extend auctions) and blocks", "why_tests_cant": "The schedule of closings is updated by every bid; only an invariant over histories shows that no entry is lost.", "anchors": ["pallet/marketplace/src/impls.rs: close_listings_at, do_bid", "pallet/marketplace/src/lib.rs: on_initialize"]}
{"id": "C82", "title": "A higher funded bid is always accepted", "statement": "On an open auction any account with the money (and room in its list of holds) can outbid the standing bid.", "quantifier": "all reachable states, bidders and amounts", "why_tests_cant": "A refund of the standing bid that fails in some reachable state blocks the auction for everybody.", "anchors": ["pallet/marketplace/src/impls.rs: do_bid", "pallet/assets-ext/src/lib.rs: release_hold"]}
{"id": "C83", "title": "Only its owner manages a semi-fungible collection", "statement": "Tokens are added to a collection, and its royalties, switches, public mint settings, owner and maximum issuances change, only in calls of the collection's owner; an operator's permission changes only when the holder changes it, to what the holder says.", "quantifier": "every reachable state and call", "why_tests_cant": "A universal statement over all calls by all accounts.", "anchors": ["pallet/sft/src/impls.rs: do_create_token, do_set_owner, do_set_max_issuance, do_set_royalties_schedule", "pallet/sft/src/lib.rs: set_utility_flags, toggle_public_mint, set_mint_fee", "pallet/token-approvals/src/lib.rs: erc1155_approval_for_all"]}
{"id": "C84", "title": "The terms of a listing are fixed", "statement": "While a listing is open its tokens, price, asset, buyer, seller and royalties stay as they were, except that the seller of a fixed price sale may change its price and that a bid may move the closing block of an auction back. It is closed only by its seller (an auction only without bids), by a permitted purchase, by its closing block, or by the owner of a token in it accepting an offer for that token.", "quantifier": "every reachable state and every operation of the marketplace and the token pallets", "why_tests_cant": "A universal statement over all calls by all accounts in all states.", "anchors": ["pallet/marketplace/src/impls.rs: do_update_fixed_price, do_buy, do_bid, do_cancel_sale, do_accept_offer, close_listings_at"]}
{"id": "C85", "title": "A sale carries exactly the agreed shares", "statement": "A new listing, and an accepted offer, pays the royalties of the collection, the network fee if a recipient is set, and the share of the marketplace it was made through, nothing else, and together at most the whole price.", "quantifier": "all listings and offers in all states", "why_tests_cant": "Ranges over all royalty schedules, marketplaces and fees.", "anchors": ["pallet/marketplace/src/impls.rs: calculate_bundle_royalties, do_sell, do_auction, do_accept_offer"]}
{"id": "C86", "title": "Exact effect of an ERC-20 bridge transfer", "statement": "An accepted deposit comes from the peg contract responsible for the token and gives exactly the deposited amount to the beneficiary; an accepted withdrawal takes exactly the amount from the caller and sends exactly one message with token, amount and beneficiary to the responsible contract; at once, or later as one waiting payment if the configured delay applies. No other balance changes; paused directions accept nothing.", "quantifier": "all states, tokens, amounts, beneficiaries and settings", "why_tests_cant": "Ranges over all settings, amounts and balances.", "anchors": ["pallet/erc20-peg/src/lib.rs: do_withdrawal, process_withdrawal, do_deposit, process_deposit, process_delayed_payment, mint_or_transfer, burn_or_transfer"]}
{"id": "C87", "title": "ERC-20 transfers move exactly what is asked, and only with consent", "statement": "A successful ERC-20 transfer moves exactly the requested amount from the source to the receiver and changes nothing else; a balance goes down through the interface only by a transfer of its holder or by one of an account with a sufficient allowance.", "quantifier": "all states, accounts, assets and 256-bit amounts", "why_tests_cant": "Ranges over all amounts and callers.", "anchors": ["evm-precompiles/erc20/src/lib.rs: transfer, transfer_from", "pallet/token-approvals/src/lib.rs: erc20_approval, erc20_update_approval"]}
{"id": "C88", "title": "An XRPL deposit pays exactly its beneficiary, and nobody else", "statement": "When a block credits XRPL deposits, each beneficiary's balance of the deposited asset grows by exactly the amounts submitted for them, the supply grows by the same total (for the native asset the bridge's own account pays instead), and no other balance changes.", "quantifier": "all states, all lists of due deposits, mixed assets and repeated beneficiaries", "why_tests_cant": "Sums over arbitrary lists of deposits of different kinds in one block.", "anchors": ["pallet/xrpl-bridge/src/lib.rs: process_xrp_tx, process_asset_deposit"]}
{"id": "C89", "title": "An XRPL withdrawal takes exactly the amount and the fee from its sender", "statement": "An accepted withdrawal takes the door fee in XRP and the (rounded) amount from the sender, destroys both (or moves the native asset to the bridge account), and changes no other balance and no other asset.", "quantifier": "all states, assets, amounts and senders, including the bridge account itself", "why_tests_cant": "Case analysis over all assets and account coincidences.", "anchors": ["pallet/xrpl-bridge/src/lib.rs: add_to_withdraw, process_xrp_withdrawal, process_root_withdrawal, process_asset_withdrawal"]}
{"id": "C90", "title": "Vortex redemption pays the exact share", "statement": "Redeeming vortex pays the caller the rounded-down pro-rata share of every priced asset in the vault.", "quantifier": "all vault balances, supplies and amounts", "why_tests_cant": "The multiplication saturates only for large products; tests use small balances.", "anchors": ["pallet/vortex-distribution/src/lib.rs: redeem_tokens_from_vault"]}
{"id": "C91", "title": "A started vortex distribution finishes", "statement": "Whatever else happens on the chain, a distribution that has been started and is not disabled is completed by finitely many payout calls.", "quantifier": "all histories interleaving payout calls with other calls", "why_tests_cant": "Termination of a resumable iteration over arbitrarily many calls and accounts.", "anchors": ["pallet/vortex-distribution/src/lib.rs: pay_unsigned"]}
{"id": "C92", "title": "Only root or the admin manages vortex distributions", "statement": "No call by anybody but root and the appointed admin creates, prices, fills, triggers, starts or disables a distribution, and only root appoints the admin.", "quantifier": "all states and calls", "why_tests_cant": "Universal over callers, calls and states.", "anchors": ["pallet/vortex-distribution/src/lib.rs: ensure_root_or_admin, set_admin"]}
{"id": "C93", "title": "A payout call stays within its batch", "statement": "One payout call makes at most as many payments as the configured batch size.", "quantifier": "all states and batch sizes", "why_tests_cant": "Needs every batch size and every order book.", "anchors": ["pallet/vortex-distribution/src/lib.rs: pay_unsigned"]}
{"id": "C94", "title": "Crowdsale payouts always make progress", "statement": "The sales being paid out are exactly the ones in the payout queue; while the queue is not empty the next payout call succeeds, pays the next contributors in line, and with the last of them ends the sale and takes it off the queue.", "quantifier": "all histories of sales, claims and payout calls", "why_tests_cant": "Progress in every reachable state, with many sales at once and claims interleaved.", "anchors": ["pallet/crowdsale/src/lib.rs: distribute_crowdsale_rewards, claim_voucher, try_force_distribution"]}
{"id": "C95", "title": "Vouchers of a crowdsale can be redeemed", "statement": "Whoever holds 10^6 vouchers per NFT of a closed sale can redeem them for NFTs.", "quantifier": "all holders, quantities and histories", "why_tests_cant": "Depends on what was done to the collection before and during the sale.", "anchors": ["pallet/crowdsale/src/lib.rs: initialize, redeem_voucher", "pallet/nft/src/impls.rs: pre_mint"]}
{"id": "C96", "title": "Nobody can take what a crowdsale vault holds", "statement": "The balances of a sale's vault only go down when the sale closes and when vouchers are paid out; no call by the administrator, proxied or not, and no call by others takes anything from it.", "quantifier": "all calls in all states", "why_tests_cant": "Ranges over all callers, calls and assets, including calls proxied through the vault.", "anchors": ["pallet/crowdsale/src/lib.rs: proxy_vault_call", "runtime/src/impls.rs: CrowdsaleProxyVaultValidator"]}
{"id": "C97", "title": "A crowdsale's terms never change and it only moves forward", "statement": "From the moment it is created the administrator, price, payment asset, collection, voucher and duration of a sale stay the same; it moves from pending through open to paying and ended, never back; only its administrator opens it; and the funds raised stay the same once it is closed.", "quantifier": "all histories", "why_tests_cant": "Needs all interleavings of calls and blocks.", "anchors": ["pallet/crowdsale/src/lib.rs: initialize, enable, participate, distribute_crowdsale_rewards, claim_voucher, try_force_distribution"]}
{"id": "C98", "title": "Nobody becomes a delegate without agreeing", "statement": "An account becomes a delegate of a futurepass only by becoming its holder, or when the holder (or somebody the holder gave that right) asks for it and presents an unexpired signature of that account over this futurepass.", "quantifier": "all calls in all reachable states, direct, proxied, batched or from the EVM", "why_tests_cant": "Needs every route to the delegate list.", "anchors": ["pallet/futurepass/src/lib.rs: register_delegate_with_signature, unregister_delegate, transfer_futurepass, proxy_extrinsic", "runtime/src/impls.rs: ProxyPalletProvider, ProxyType"]}
{"id": "C99", "title": "A delegate that has left stays out", "statement": "After a delegate has been removed or has left, it is a delegate again only with a signature it makes afterwards.", "quantifier": "all histories", "why_tests_cant": "Replays show up only in particular histories.", "anchors": ["pallet/futurepass/src/lib.rs: register_delegate_with_signature, unregister_delegate, transfer_futurepass, proxy_extrinsic", "runtime/src/impls.rs: ProxyPalletProvider, ProxyType"]}
{"id": "C100", "title": "Delegates cannot manage a futurepass", "statement": "Whatever a delegate who is not the holder has a futurepass do, signed or through the EVM, wrapped in batches at any depth, changes no holder and no delegate list of any futurepass; and somebody who is not a delegate cannot have it do anything.", "quantifier": "all calls and nestings in all reachable states", "why_tests_cant": "The nesting of calls is unbounded.", "anchors": ["pallet/futurepass/src/lib.rs: register_delegate_with_signature, unregister_delegate, transfer_futurepass, proxy_extrinsic", "runtime/src/impls.rs: ProxyPalletProvider, ProxyType", "evm-precompiles/futurepass/src/lib.rs: proxy_call, do_proxy, transfer_ownership, renounce_ownership", "runtime/src/precompiles.rs: FuturePassPrecompiles"]}
{"id": "C101", "title": "Futurepass deposits add up", "statement": "What a futurepass has reserved is at all times exactly the price of its delegate list; creating, registering, removing and giving up cost and return exactly the listed amounts; and no call changes the sum of all balances.", "quantifier": "all histories", "why_tests_cant": "Sums over unbounded histories.", "anchors": ["pallet/futurepass/src/lib.rs: register_delegate_with_signature, unregister_delegate, transfer_futurepass, proxy_extrinsic", "runtime/src/impls.rs: ProxyPalletProvider, ProxyType"]}
{"id": "C102", "title": "A delegate deposit returns to who paid it", "statement": "When a delegate is registered and then removed, the account that paid the deposit is as rich as before.", "quantifier": "all callers", "why_tests_cant": "Depends on who removes the delegate.", "anchors": ["pallet/futurepass/src/lib.rs: register_delegate_with_signature, unregister_delegate, transfer_futurepass, proxy_extrinsic", "runtime/src/impls.rs: ProxyPalletProvider, ProxyType"]}
{"id": "C103", "title": "Ownership calls act on the futurepass that is called", "statement": "Calling transferOwnership on the contract of a futurepass moves that futurepass and no other.", "quantifier": "all callers and addresses", "why_tests_cant": "Must hold for every pair of caller and address.", "anchors": ["evm-precompiles/futurepass/src/lib.rs: proxy_call, do_proxy, transfer_ownership, renounce_ownership", "runtime/src/precompiles.rs: FuturePassPrecompiles"]}
{"id": "C104", "title": "Contracts gain no power over their callers' futurepasses", "statement": "Calling a contract that is neither holder nor delegate leaves all holders as they are.", "quantifier": "all contracts and calls", "why_tests_cant": "Ranges over everything a contract may do.", "anchors": ["evm-precompiles/futurepass/src/lib.rs: proxy_call, do_proxy, transfer_ownership, renounce_ownership", "runtime/src/precompiles.rs: FuturePassPrecompiles", "evm-precompiles/utils/src/precompile_set.rs: PrecompileSetStartingWith"]}
{"id": "C105", "title": "The holder can always manage its futurepass", "statement": "A holder with the existential deposit can remove any delegate, directly or by having the futurepass do it.", "quantifier": "all reachable delegate lists", "why_tests_cant": "The lists reachable by transfers are particular.", "anchors": ["pallet/futurepass/src/lib.rs: register_delegate_with_signature, unregister_delegate, transfer_futurepass, proxy_extrinsic", "runtime/src/impls.rs: ProxyPalletProvider, ProxyType"]}
{"id": "C106", "title": "Calls through a futurepass never crash", "statement": "Every call, signed or from the EVM, returns success or an error; none crashes the node.", "quantifier": "all calls, call data lengths and states", "why_tests_cant": "Ranges over all call data.", "anchors": ["evm-precompiles/futurepass/src/lib.rs: proxy_call, do_proxy, transfer_ownership, renounce_ownership", "runtime/src/precompiles.rs: FuturePassPrecompiles", "runtime/src/impls.rs: ProxyPalletProvider::is_evm_proxy_call_allowed"]}
{"id": "C107", "title": "EVM payments move what they state", "statement": "A payment made in the EVM takes from the payer and gives to the payee exactly the stated amount, and nothing else changes; over a run every account ends with what it had, plus what it was sent, minus what it sent.", "quantifier": "all amounts, accounts and sequences of payments", "why_tests_cant": "Rounding errors add up over unbounded sequences.", "anchors": ["runtime/src/impls.rs: EvmCurrencyScaler, FutureverseEVMCurrencyAdapter", "pallet/common/src/utils.rs: scale_wei_to_correct_decimals"]}
{"id": "C108", "title": "EVM gas costs the gas used", "statement": "An EVM transaction costs its sender the fee for the gas it used, to within one drop; what it costs goes to the fee pot and the block author, nobody else is affected, and no XRP is created or destroyed.", "quantifier": "all transactions in all reachable states", "why_tests_cant": "Ranges over all prices, limits and amounts of gas.", "anchors": ["runtime/src/impls.rs: EvmCurrencyScaler, FutureverseEVMCurrencyAdapter", "pallet/common/src/utils.rs: scale_wei_to_correct_decimals", "pallet/tx-fee-pot/src/lib.rs: on_nonzero_unbalanced, era_payout", "pallet/assets-ext/src/imbalances.rs"]}
{"id": "C109", "title": "The XRP supply is the sum of XRP balances", "statement": "After every history of EVM transactions, ordinary transactions and exchange operations the recorded supply of XRP, and of every asset, is the sum of all balances, and paying fees never raises it.", "quantifier": "all histories", "why_tests_cant": "Imbalances must cancel on every path.", "anchors": ["pallet/tx-fee-pot/src/lib.rs: on_nonzero_unbalanced, era_payout", "pallet/assets-ext/src/imbalances.rs", "runtime/src/impls.rs: EvmCurrencyScaler, FutureverseEVMCurrencyAdapter", "pallet/common/src/utils.rs: scale_wei_to_correct_decimals"]}
{"id": "C110", "title": "The fee pot covers the fees it reports", "statement": "At all times the fee pot holds at least the fees counted in the current era plus those reported at the ends of past eras.", "quantifier": "all histories", "why_tests_cant": "The counter and the balance are updated separately.", "anchors": ["pallet/tx-fee-pot/src/lib.rs: on_nonzero_unbalanced, era_payout", "pallet/assets-ext/src/imbalances.rs"]}
{"id": "C111", "title": "Fees are refunded to who paid them", "statement": "An ordinary transaction costs whoever pays its fee exactly the fee after execution, the pot receives that, and nobody else's balance changes.", "quantifier": "all signers, payers and fees", "why_tests_cant": "Depends on who pays.", "anchors": ["pallet/fee-proxy/src/impls.rs: withdraw_fee, correct_and_deposit_fee", "pallet/fee-proxy/src/runner.rs: get_fee_preferences_data, calculate_total_gas, call"]}
{"id": "C112", "title": "Fees in another asset cost at most the stated maximum", "statement": "A transaction that pays its fee in another asset and states the most it will pay takes at most that much of it from the payer.", "quantifier": "all transactions, pools and prices", "why_tests_cant": "Depends on pool prices at execution.", "anchors": ["pallet/fee-proxy/src/impls.rs: withdraw_fee, correct_and_deposit_fee", "pallet/fee-proxy/src/runner.rs: get_fee_preferences_data, calculate_total_gas, call"]}
{"id": "C113", "title": "Paying gas in another asset always provides enough XRP", "statement": "After the exchange made for an EVM transaction that pays in another asset, the sender can pay the fee for the whole gas limit, whatever it held before.", "quantifier": "all transactions, pools and prices", "why_tests_cant": "Must hold for every pool state and rounding.", "anchors": ["pallet/fee-proxy/src/impls.rs: withdraw_fee, correct_and_deposit_fee", "pallet/fee-proxy/src/runner.rs: get_fee_preferences_data, calculate_total_gas, call"]}
{"id": "C114", "title": "Paying fees never crashes the node", "statement": "No EVM or ordinary transaction, whatever prices and limits it names, crashes the node.", "quantifier": "all transactions", "why_tests_cant": "Needs extreme values.", "anchors": ["pallet/fee-proxy/src/impls.rs: withdraw_fee, correct_and_deposit_fee", "pallet/fee-proxy/src/runner.rs: get_fee_preferences_data, calculate_total_gas, call", "runtime/src/impls.rs: EvmCurrencyScaler, FutureverseEVMCurrencyAdapter", "pallet/common/src/utils.rs: scale_wei_to_correct_decimals"]}
{"id": "C115", "title": "Exchange operations leave bystanders alone", "statement": "No exchange operation lowers any balance of an account that did not sign it and is not a pool.", "quantifier": "all operations, accounts and states", "why_tests_cant": "Ranges over all operations and accounts.", "anchors": ["pallet/dex/src/lib.rs: all calls"]}
{"id": "C116", "title": "Blocked calls do not run, however they are wrapped", "statement": "A pallet or call the operators have blocked never runs on behalf of an ordinary user, whether the transaction is a signed extrinsic, an Ethereum transaction, an XRPL message or a doughnut, and whatever batches, proxies, fee wrappers or precompiles it is nested in; and no ordinary user changes the block lists.", "quantifier": "all call trees, entry points and block lists", "why_tests_cant": "Ranges over all nestings of calls.", "anchors": ["pallet/maintenance-mode/src/lib.rs: call_paused, validate_evm_call, CheckMaintenance, maintenance calls", "runtime/src/lib.rs: CallFilter"]}
{"id": "C117", "title": "A blocked account cannot act", "statement": "While an account is blocked, nothing runs in its name.", "quantifier": "all accounts, transactions and entry points", "why_tests_cant": "There are many ways to act.", "anchors": ["pallet/maintenance-mode/src/lib.rs: call_paused, validate_evm_call, CheckMaintenance, maintenance calls", "runtime/src/lib.rs: CallFilter"]}
{"id": "C118", "title": "A blocked EVM address is not entered", "statement": "While an EVM address is blocked no transaction enters code at that address.", "quantifier": "all transactions and contract calls", "why_tests_cant": "Ranges over all call graphs.", "anchors": ["pallet/maintenance-mode/src/lib.rs: call_paused, validate_evm_call, CheckMaintenance, maintenance calls", "runtime/src/lib.rs: CallFilter", "pallet/fee-proxy/src/runner.rs: call"]}
{"id": "C119", "title": "Calls switched off in the runtime never run for users", "statement": "The calls the runtime disables (creating raw assets, adding raw proxies, submitting challenges, paying out stakers, bonding with restaking) never run on behalf of an ordinary user, whatever the entry point and nesting.", "quantifier": "all call trees and entry points", "why_tests_cant": "Ranges over all nestings of calls.", "anchors": ["runtime/src/lib.rs: CallFilter"]}
{"id": "C120", "title": "XRPL messages are authentic", "statement": "An XRPL message is accepted only with a good signature by its key, for this chain, this very call, a block not after the stated one and the account's current nonce, which is used up; what runs, runs as the key's account or a futurepass it may act for.", "quantifier": "all messages, calls and states", "why_tests_cant": "Ranges over all messages and histories.", "anchors": ["pallet/xrpl/src/lib.rs: check_self_contained, validate_params, apply_self_contained, transact", "pallet/xrpl/src/types.rs"]}
{"id": "C121", "title": "No transaction counts twice", "statement": "After a transaction of an account with some nonce has been accepted, no transaction of that account with that nonce is ever accepted again, through any of the entry points.", "quantifier": "all histories", "why_tests_cant": "Replay across entry points and histories.", "anchors": ["pallet/xrpl/src/lib.rs: check_self_contained, validate_params, apply_self_contained, transact", "pallet/xrpl/src/types.rs", "pallet/doughnut/src/lib.rs: check_self_contained, validate_params, apply_self_contained, transact, revoke_doughnut, revoke_holder", "runtime/src/impls.rs: DoughnutCallValidator"]}
{"id": "C122", "title": "A transaction costs its fee and tip, to who answers for it", "statement": "An accepted extrinsic, XRPL message or doughnut takes exactly fee plus tip from one account: the sender, or the payer the doughnut names, or a futurepass that account may act for; a failed call changes nothing else.", "quantifier": "all transactions and states", "why_tests_cant": "Depends on nesting, futurepasses and the doughnut.", "anchors": ["pallet/xrpl/src/lib.rs: check_self_contained, validate_params, apply_self_contained, transact", "pallet/xrpl/src/types.rs", "pallet/doughnut/src/lib.rs: check_self_contained, validate_params, apply_self_contained, transact, revoke_doughnut, revoke_holder", "runtime/src/impls.rs: DoughnutCallValidator"]}
{"id": "C123", "title": "No XRPL message crashes the node", "statement": "Whatever bytes an XRPL message contains, checking it never crashes the node.", "quantifier": "all messages", "why_tests_cant": "Needs malformed input.", "anchors": ["pallet/xrpl/src/lib.rs: check_self_contained, validate_params, apply_self_contained, transact", "pallet/xrpl/src/types.rs"]}
{"id": "C124", "title": "Doughnuts are authentic", "statement": "A doughnut transaction is accepted only within the doughnut's time window, with the issuer's signature on the doughnut and the holder's on the call, for this chain and the holder's current nonce, which is used up; it runs something only if the holder is whitelisted.", "quantifier": "all doughnuts, calls and states", "why_tests_cant": "Ranges over all inputs and histories.", "anchors": ["pallet/doughnut/src/lib.rs: check_self_contained, validate_params, apply_self_contained, transact, revoke_doughnut, revoke_holder", "runtime/src/impls.rs: DoughnutCallValidator"]}
{"id": "C125", "title": "A revoked doughnut has no effect", "statement": "Once its issuer has revoked a doughnut, or its holder, nothing happens under it any more, and only the issuer can revoke or reinstate.", "quantifier": "all doughnuts, histories and calls", "why_tests_cant": "Ranges over all encodings and histories.", "anchors": ["pallet/doughnut/src/lib.rs: check_self_contained, validate_params, apply_self_contained, transact, revoke_doughnut, revoke_holder", "runtime/src/impls.rs: DoughnutCallValidator"]}
{"id": "C126", "title": "Only what a doughnut permits runs under it", "statement": "Under a doughnut at most one call runs: one its permissions accept, as the issuer or a futurepass the issuer may act for.", "quantifier": "all calls and permissions", "why_tests_cant": "Ranges over all wrappings.", "anchors": ["pallet/doughnut/src/lib.rs: check_self_contained, validate_params, apply_self_contained, transact, revoke_doughnut, revoke_holder", "runtime/src/impls.rs: DoughnutCallValidator"]}
{"id": "C127", "title": "Bridged ERC-721 tokens are backed", "statement": "Every token in a collection that stands for an ERC-721 contract, every token in a record of a blocked deposit and every token in an undelivered withdrawal message is held by the bridge contract, and a token is in one of these places at most once.", "quantifier": "all histories of deposits, withdrawals, reclaims, deliveries and NFT operations", "why_tests_cant": "An invariant over histories in which several users and the contract interleave.", "anchors": ["pallet/nft-peg/src/lib.rs: do_deposit, do_withdrawal, do_reclaim_blocked_nfts"]}
{"id": "C128", "title": "A bridge withdrawal takes only the caller's tokens", "statement": "A withdrawal that succeeds removes exactly the named tokens, each owned by the caller and not locked, and sends Ethereum exactly these ids with the addresses of their contracts; everything else is as before.", "quantifier": "all callers, lists of collections and serial numbers, all reachable states", "why_tests_cant": "Ranges over all lists, with repetitions, in all states.", "anchors": ["pallet/nft-peg/src/lib.rs: do_deposit, do_withdrawal, do_reclaim_blocked_nfts"]}
{"id": "C129", "title": "An XLS-20 deposit gives the receiver the token", "statement": "A token sent to the door account for a receiver ends up with this receiver: in the collection of its issuer and taxon, with its sequence number as serial number, and recorded with its XLS-20 id.", "quantifier": "all histories and all token ids", "why_tests_cant": "Depends on flags, on the state of collections and on migrations.", "anchors": ["pallet/xls20/src/lib.rs: deposit_xls20_token, fulfill_xls20_mint, re_request_xls20_mint, set_collection_mappings", "pallet/xls20/src/types.rs: Xls20Token", "pallet/xrpl-bridge/src/lib.rs: withdraw_nft, do_nft_withdrawal"]}
{"id": "C130", "title": "An XLS-20 withdrawal releases exactly the caller's token", "statement": "A withdrawal to the XRP ledger succeeds only for the owner of an unlocked token with a recorded XLS-20 id; it burns this token and nothing else, and offers exactly this XLS-20 id to the named account.", "quantifier": "all callers, tokens and reachable states", "why_tests_cant": "Ranges over all states.", "anchors": ["pallet/xls20/src/lib.rs: deposit_xls20_token, fulfill_xls20_mint, re_request_xls20_mint, set_collection_mappings", "pallet/xls20/src/types.rs: Xls20Token", "pallet/xrpl-bridge/src/lib.rs: withdraw_nft, do_nft_withdrawal"]}
{"id": "C131", "title": "XLS-20 tokens on the chain are backed", "statement": "Every XLS-20 token that a token on the chain stands for, or that is on offer, is held by the door account; no two tokens stand for the same one, and a token on offer is neither on the chain nor on offer twice.", "quantifier": "all histories of deposits, withdrawals, relayer mints, accepted offers and NFT operations", "why_tests_cant": "An invariant over histories in which users, relayer and XRP ledger interleave.", "anchors": ["pallet/xls20/src/lib.rs: deposit_xls20_token, fulfill_xls20_mint, re_request_xls20_mint, set_collection_mappings", "pallet/xls20/src/types.rs: Xls20Token", "pallet/xrpl-bridge/src/lib.rs: withdraw_nft, do_nft_withdrawal"]}
{"id": "C132", "title": "The XLS-20 id of a token is fixed", "statement": "An XLS-20 id is recorded for a token only by depositing that XLS-20 token or by the relayer for an existing token without one, and never changes afterwards.", "quantifier": "all histories", "why_tests_cant": "An invariant over histories.", "anchors": ["pallet/xls20/src/lib.rs: deposit_xls20_token, fulfill_xls20_mint, re_request_xls20_mint, set_collection_mappings", "pallet/xls20/src/types.rs: Xls20Token", "pallet/xrpl-bridge/src/lib.rs: withdraw_nft, do_nft_withdrawal"]}
{"id": "C133", "title": "XLS-20 ids are decoded correctly", "statement": "The id of a token with given flags, issuer, taxon and sequence number is decoded to these, and tokens of different issuers or taxons never share a collection.", "quantifier": "all ids and histories", "why_tests_cant": "Ranges over 256-bit ids.", "anchors": ["pallet/xls20/src/lib.rs: deposit_xls20_token, fulfill_xls20_mint, re_request_xls20_mint, set_collection_mappings", "pallet/xls20/src/types.rs: Xls20Token", "pallet/xrpl-bridge/src/lib.rs: withdraw_nft, do_nft_withdrawal"]}
{"id": "C134", "title": "Nobody acts as another account", "statement": "Whatever a user's transaction makes run, whether a call, EVM code or a precompile, runs under the sender, a futurepass that accepts the sender (directly or through further futurepasses) or a contract reached by the transaction's EVM code; naming another account as the source of an EVM call runs nothing.", "quantifier": "all transactions through all entry points, all nestings of calls, all states", "why_tests_cant": "Ranges over all nestings of batches, proxies, fee preferences and EVM calls.", "anchors": ["pallet/xrpl/src/lib.rs: check_self_contained, validate_params, apply_self_contained, transact", "pallet/xrpl/src/types.rs", "pallet/doughnut/src/lib.rs: check_self_contained, validate_params, apply_self_contained, transact, revoke_doughnut, revoke_holder", "runtime/src/impls.rs: DoughnutCallValidator", "runtime/src/impls.rs: FutureverseEnsureAddressSame"]}
{"id": "C135", "title": "The outcome of a storage migration does not depend on the schedule", "statement": "A multi-block migration carries out its steps in order, each exactly once and each starting from the key where the one before ended, and then completes once, whatever the block weights, delays, limits, pauses and upgrades to runtimes with the same migration; calls that need the migrated storage are refused until then.", "quantifier": "all migrations, storages and histories", "why_tests_cant": "Ranges over all schedules.", "anchors": ["pallet/migration/src/lib.rs: migrate, on_runtime_upgrade, ensure_migrated", "primitives/src/migration.rs: MigrationStep"]}
{"id": "C136", "title": "Storage migrations finish", "statement": "A migration of n steps is completed after at most n blocks that leave room for a step, whatever happens in between.", "quantifier": "all migrations and histories", "why_tests_cant": "A liveness property over all schedules.", "anchors": ["pallet/migration/src/lib.rs: migrate, on_runtime_upgrade, ensure_migrated", "primitives/src/migration.rs: MigrationStep"]}
{"id": "C137", "title": "A storage migration stays within the weight of the block", "statement": "The weight a migration uses in a block is at most what remains in the block and at most the maximum set for migrations.", "quantifier": "all migrations, weights and states", "why_tests_cant": "Ranges over all weights.", "anchors": ["pallet/migration/src/lib.rs: migrate, on_runtime_upgrade, ensure_migrated", "primitives/src/migration.rs: MigrationStep"]}
{"id": "C138", "title": "Every storage migration starts at the beginning", "statement": "A migration starts with the first item of the storage, whatever migrations and upgrades came before, so that a completed migration has dealt with every item.", "quantifier": "all histories of upgrades and blocks", "why_tests_cant": "Needs histories with several upgrades.", "anchors": ["pallet/migration/src/lib.rs: migrate, on_runtime_upgrade, ensure_migrated", "primitives/src/migration.rs: MigrationStep"]}
{"id": "C139", "title": "NFI data belongs to existing tokens", "statement": "Data recorded for a token of this chain always belongs to a token that exists, in a collection with NFI enabled, and is stored once per token; burning the token removes its data and no other.", "quantifier": "all histories of NFI, NFT and SFT operations", "why_tests_cant": "An invariant over histories in which relayer, owners and root interleave.", "anchors": ["pallet/nfi/src/lib.rs: enable_nfi, manual_data_request, submit_nfi_data, set_fee_details, send_data_request, pay_network_fee_and_data_fee", "pallet/nft/src/impls.rs: do_mint, do_burn", "pallet/sft/src/impls.rs: do_create_token"]}
{"id": "C140", "title": "The NFI fee is exact", "statement": "Minting n tokens in a collection with NFI, creating one SFT or asking for data by hand costs n times (once) the fee, split between the network pot and the receiver with nothing lost or created, and asks for the data of exactly these tokens; nothing else is charged or asks for data.", "quantifier": "all states, fees, quantities and callers", "why_tests_cant": "Ranges over all amounts and states.", "anchors": ["pallet/nfi/src/lib.rs: enable_nfi, manual_data_request, submit_nfi_data, set_fee_details, send_data_request, pay_network_fee_and_data_fee", "pallet/nft/src/impls.rs: do_mint, do_burn", "pallet/sft/src/impls.rs: do_create_token"]}
{"id": "C141", "title": "NFI data and settings change only by those entitled", "statement": "Only a collection's owner enables NFI for it, only the relayer submits data, and data of a token is requested only by the token's or collection's owner, for tokens that exist.", "quantifier": "all callers, tokens and reachable states", "why_tests_cant": "Ranges over all callers and states.", "anchors": ["pallet/nfi/src/lib.rs: enable_nfi, manual_data_request, submit_nfi_data, set_fee_details, send_data_request, pay_network_fee_and_data_fee", "pallet/nft/src/impls.rs: do_mint, do_burn", "pallet/sft/src/impls.rs: do_create_token"]}
{"id": "C142", "title": "The NFI storage upgrade keeps every record and makes no others", "statement": "The runtime upgrade that moves NFI records to their new keys ends, keeps every record under its new key, makes no other records and has no effect when run again.", "quantifier": "all sets of records, chain ids and hash functions", "why_tests_cant": "The loop writes to the map it walks through; the outcome depends on the order of hashes.", "anchors": ["runtime/src/migrations/nfi.rs"]}
{"id": "C143", "title": "Receiver callbacks never cost an uninvolved account its tokens", "statement": "Whatever contracts do during a transaction, also while a token contract waits for a receiver's answer, a non-fungible token leaves an account only if that account acts, listed it, or allowed it; and what was proved of the pallets' reachable states holds after the transaction.", "quantifier": "all call trees of contracts, answers of receivers and reachable states", "why_tests_cant": "Ranges over everything receivers may do in the middle of a transfer.", "anchors": ["evm-precompiles/erc721/src/lib.rs: do_safe_transfer", "evm-precompiles/erc1155/src/lib.rs: do_safe_transfer_acceptance_check, do_batch_safe_transfer_acceptance_check, do_safe_transfer", "evm-precompiles/utils/src/precompile_set.rs: PrecompileSetStartingWith"]}
{"id": "C144", "title": "No receiver contract crashes the node", "statement": "Whatever a receiving contract returns when a token contract calls it, the transfer succeeds or reverts; the node does not crash.", "quantifier": "all answers of receivers and all call trees", "why_tests_cant": "Ranges over all answers.", "anchors": ["evm-precompiles/erc721/src/lib.rs: do_safe_transfer", "evm-precompiles/erc1155/src/lib.rs: do_safe_transfer_acceptance_check, do_batch_safe_transfer_acceptance_check, do_safe_transfer", "evm-precompiles/utils/src/precompile_set.rs: PrecompileSetStartingWith"]}
{"id": "C145", "title": "Receivers are told who sends what", "statement": "A contract that is sent a token is called by the token contract, with the operator, the previous owner and the tokens, as ERC-721 and ERC-1155 demand.", "quantifier": "all operators, owners, tokens and receivers", "why_tests_cant": "Must hold for all combinations of operator and owner.", "anchors": ["evm-precompiles/erc721/src/lib.rs: do_safe_transfer", "evm-precompiles/erc1155/src/lib.rs: do_safe_transfer_acceptance_check, do_batch_safe_transfer_acceptance_check, do_safe_transfer", "evm-precompiles/utils/src/precompile_set.rs: PrecompileSetStartingWith"]}
{"id": "C146", "title": "ERC-1155 tokens reach contracts with a standard receiver", "statement": "Single and batch transfers to a contract that implements the ERC-1155 receiver interface succeed whenever the caller may send the tokens.", "quantifier": "all batches, callers and receivers", "why_tests_cant": "Ranges over all batches.", "anchors": ["evm-precompiles/erc721/src/lib.rs: do_safe_transfer", "evm-precompiles/erc1155/src/lib.rs: do_safe_transfer_acceptance_check, do_batch_safe_transfer_acceptance_check, do_safe_transfer", "evm-precompiles/utils/src/precompile_set.rs: PrecompileSetStartingWith"]}
{"id": "C147", "title": "Receiver callbacks never cost an uninvolved account its semi-fungible tokens", "statement": "Whatever contracts do during a transaction, no piece of a semi-fungible token leaves an account that has no operators and makes no call itself, not even pieces it received in the same transaction.", "quantifier": "all call trees of contracts, answers of receivers and reachable states", "why_tests_cant": "Ranges over everything receivers may do in the middle of a transfer.", "anchors": ["evm-precompiles/erc721/src/lib.rs: do_safe_transfer", "evm-precompiles/erc1155/src/lib.rs: do_safe_transfer_acceptance_check, do_batch_safe_transfer_acceptance_check, do_safe_transfer", "evm-precompiles/utils/src/precompile_set.rs: PrecompileSetStartingWith"]}
{"id": "C148", "title": "Nobody calls into a waiting token contract", "statement": "While the contract of a collection waits for the answer of a receiver, nobody can change approvals or move tokens through the contract of this collection.", "quantifier": "all call trees of contracts", "why_tests_cant": "Ranges over all nested calls.", "anchors": ["evm-precompiles/erc721/src/lib.rs: do_safe_transfer", "evm-precompiles/erc1155/src/lib.rs: do_safe_transfer_acceptance_check, do_batch_safe_transfer_acceptance_check, do_safe_transfer", "evm-precompiles/utils/src/precompile_set.rs: PrecompileSetStartingWith", "runtime/src/impls.rs: ErcIdConversion"]}
{"id": "C149", "title": "Built-in contracts and addresses correspond one to one", "statement": "Every address runs at most one built-in contract; the address the chain announces for a collection or asset runs its contract, and no other address does; different collections and assets have different addresses.", "quantifier": "all addresses, ids and sets of existing collections and assets", "why_tests_cant": "Ranges over 2^160 addresses.", "anchors": ["runtime/src/precompiles.rs: FutureversePrecompiles", "evm-precompiles/utils/src/precompile_set.rs: PrecompileAt, PrecompileSetStartingWith, PrecompilesInRangeInclusive", "runtime/src/impls.rs: ErcIdConversion", "evm-precompiles/utils/src/constants.rs"]}
{"id": "C150", "title": "Built-in contracts are protected against re-entry and never stay locked", "statement": "Whatever contracts do in a transaction, while a built-in contract is running nobody can call into it again (a futurepass: more than once), and after the call it answers again.", "quantifier": "all call trees and changes of the existing collections", "why_tests_cant": "Ranges over all nested calls.", "anchors": ["runtime/src/precompiles.rs: FutureversePrecompiles", "evm-precompiles/utils/src/precompile_set.rs: PrecompileAt, PrecompileSetStartingWith, PrecompilesInRangeInclusive", "runtime/src/impls.rs: ErcIdConversion", "evm-precompiles/utils/src/constants.rs", "evm-precompiles/futurepass/src/lib.rs: do_proxy (Create, Create2)"]}
{"id": "C151", "title": "Built-in contracts cannot be borrowed", "statement": "Other than the Ethereum standard functions, no built-in contract runs in the name of a contract that borrows its code (DELEGATECALL, CALLCODE).", "quantifier": "all call trees", "why_tests_cant": "Ranges over all nested calls.", "anchors": ["runtime/src/precompiles.rs: FutureversePrecompiles", "evm-precompiles/utils/src/precompile_set.rs: PrecompileAt, PrecompileSetStartingWith, PrecompilesInRangeInclusive", "runtime/src/impls.rs: ErcIdConversion", "evm-precompiles/utils/src/constants.rs"]}
{"id": "C152", "title": "Trades through the exchange contract keep the trader's limits", "statement": "A token trade made through the exchange contract happens not after its deadline, takes exactly (at most) the stated amount of the path's first token from the caller, gives the recipient at least (exactly) the stated amount of the last, answers these amounts, and moves nobody else's tokens.", "quantifier": "all states, callers, amounts, paths, recipients and deadlines", "why_tests_cant": "Ranges over all amounts and states.", "anchors": ["evm-precompiles/dex/src/lib.rs: execute, add_liquidity, remove_liquidity, swap_*, get_amounts_out, get_amounts_in", "pallet/dex/src/lib.rs: do_swap_with_exact_supply, do_swap_with_exact_target, do_add_liquidity, do_remove_liquidity"]}
{"id": "C153", "title": "Liquidity calls of the exchange contract keep the caller's limits", "statement": "Deposits and withdrawals through the exchange contract happen not after their deadline and respect the stated maximums and minimums; withdrawals answer what the recipient receives.", "quantifier": "all reachable states, callers, amounts and deadlines", "why_tests_cant": "Ranges over all amounts and reachable states.", "anchors": ["evm-precompiles/dex/src/lib.rs: execute, add_liquidity, remove_liquidity, swap_*, get_amounts_out, get_amounts_in", "pallet/dex/src/lib.rs: do_swap_with_exact_supply, do_swap_with_exact_target, do_add_liquidity, do_remove_liquidity"]}
{"id": "C154", "title": "XRP sent to the exchange contract is what the trade spends", "statement": "The functions of the exchange contract that are paid in XRP spend the XRP sent with the call, no more and no other token, and those that deliver XRP deliver XRP.", "quantifier": "all states, values, paths and callers", "why_tests_cant": "Ranges over all values and paths.", "anchors": ["evm-precompiles/dex/src/lib.rs: execute, add_liquidity, remove_liquidity, swap_*, get_amounts_out, get_amounts_in", "pallet/dex/src/lib.rs: do_swap_with_exact_supply, do_swap_with_exact_target, do_add_liquidity, do_remove_liquidity", "runtime/src/impls.rs: EvmCurrencyScaler::transfer"]}
{"id": "C155", "title": "No XRP stays at the exchange contract", "statement": "XRP sent with a call of the exchange contract ends up in a pool or with its sender, not with the contract.", "quantifier": "all histories of calls and exchange operations", "why_tests_cant": "Ranges over all histories after the call.", "anchors": ["evm-precompiles/dex/src/lib.rs: execute, add_liquidity, remove_liquidity, swap_*, get_amounts_out, get_amounts_in", "pallet/dex/src/lib.rs: do_swap_with_exact_supply, do_swap_with_exact_target, do_add_liquidity, do_remove_liquidity"]}
{"id": "C156", "title": "The exchange contract refuses malformed calls", "statement": "A call is refused without effect if it carries XRP although the function takes none, is static although the function changes something, has an amount or a deadline out of range, a deadline that has passed, or an address that is no asset's.", "quantifier": "all states, calls and arguments", "why_tests_cant": "Ranges over 256-bit arguments.", "anchors": ["evm-precompiles/dex/src/lib.rs: execute, add_liquidity, remove_liquidity, swap_*, get_amounts_out, get_amounts_in", "pallet/dex/src/lib.rs: do_swap_with_exact_supply, do_swap_with_exact_target, do_add_liquidity, do_remove_liquidity"]}
{"id": "C157", "title": "Quotes of the exchange contract are what trades get", "statement": "Queries change nothing and answer every caller alike; a trade in the same state executes at exactly the quoted amounts.", "quantifier": "all states, amounts and paths", "why_tests_cant": "Ranges over all states and amounts.", "anchors": ["evm-precompiles/dex/src/lib.rs: execute, add_liquidity, remove_liquidity, swap_*, get_amounts_out, get_amounts_in", "pallet/dex/src/lib.rs: do_swap_with_exact_supply, do_swap_with_exact_target, do_add_liquidity, do_remove_liquidity"]}
{"id": "C158", "title": "Deposits report what they took", "statement": "addLiquidity answers the amounts taken from the caller, in the order of its arguments.", "quantifier": "all reachable states, callers, amounts and token orders", "why_tests_cant": "Ranges over all reachable states.", "anchors": ["evm-precompiles/dex/src/lib.rs: execute, add_liquidity, remove_liquidity, swap_*, get_amounts_out, get_amounts_in", "pallet/dex/src/lib.rs: do_swap_with_exact_supply, do_swap_with_exact_target, do_add_liquidity, do_remove_liquidity"]}
{"id": "C159", "title": "Answers of built-in contracts are ABI encodings", "statement": "What a built-in contract answers or logs is, byte for byte, the Solidity ABI encoding of the values it wrote; writing never aborts the runtime.", "quantifier": "all types (numbers, addresses, booleans, byte strings, lists, tuples, nested to any depth) and all their values", "why_tests_cant": "Ranges over all nested types and values.", "anchors": ["evm-precompiles/utils/src/data/mod.rs: EvmDataReader, EvmDataWriter, EvmData, read_args!"]}
{"id": "C160", "title": "Encoded arguments are read as the caller meant", "statement": "Call data encoded by the ABI is read as exactly the values the caller passed, whatever the selector and whatever bytes follow; different arguments have different call data.", "quantifier": "all types, values, selectors and trailing bytes", "why_tests_cant": "Ranges over all nested types and values.", "anchors": ["evm-precompiles/utils/src/data/mod.rs: EvmDataReader, EvmDataWriter, EvmData, read_args!"]}
{"id": "C161", "title": "Arbitrary call data is read safely", "statement": "For any bytes whatsoever, arguments are accepted exactly if the bytes, pointers being followed, stand for values in range at places within the call data, and then these are the values handed over; otherwise the call reverts, and the runtime never aborts.", "quantifier": "all byte strings and all types", "why_tests_cant": "Ranges over all byte strings, including hostile ones.", "anchors": ["evm-precompiles/utils/src/data/mod.rs: EvmDataReader, EvmDataWriter, EvmData, read_args!"]}
{"id": "C162", "title": "Only proper encodings are accepted", "statement": "Call data that a Solidity contract would refuse as badly encoded is refused.", "quantifier": "all byte strings", "why_tests_cant": "Ranges over all byte strings.", "anchors": ["evm-precompiles/utils/src/data/mod.rs: EvmDataReader, EvmDataWriter, EvmData, read_args!"]}
{"id": "C163", "title": "Decoding is proportional to the call data", "statement": "Decoding the arguments of a call produces no more data than a fixed multiple of what the call carries.", "quantifier": "all byte strings and function signatures", "why_tests_cant": "Ranges over all byte strings, including ones with overlapping parts.", "anchors": ["evm-precompiles/utils/src/data/mod.rs: EvmDataReader, EvmDataWriter, EvmData, read_args!", "evm-precompiles/peg/src/lib.rs: erc721_withdraw"]}
{"id": "C164", "title": "Gossip passes on only authentic bridge votes, once", "statement": "A vote for a bridge event that a node receives from its peers reaches the node's signature collection only if it carries a valid signature of its digest by a validator that is active at that moment and names a block in the live window of 90 blocks; and until the event is proved, at most one vote per validator and event gets through.", "quantifier": "every sequence of messages from any peers, finalised requests, validator changes and worker steps, every interleaving", "why_tests_cant": "Tests send a few messages; repetitions, outsiders and interleavings with completions cover an unbounded set of schedules", "anchors": ["ethy-gadget/src/gossip.rs: GossipValidator::validate, mark_complete", "ethy-gadget/src/worker.rs: handle_witness, run"]}
{"id": "C165", "title": "A validator's vote that reaches a node in time is counted", "statement": "If an active validator signs a requested event and its message reaches a node within the live window, the vote is accepted, kept until the request is seen if necessary, and counted. Nobody but the validator can prevent this.", "quantifier": "every state and history, every adversarial choice of earlier messages made of public signatures", "why_tests_cant": "Tests never send the same signature under another event id or block number; the claim is about all later histories", "anchors": ["ethy-gadget/src/gossip.rs: GossipValidator::validate (known_votes)", "ethy-gadget/src/witness_record.rs: note_event_witness, process_unverified_witnesses", "ethy-gadget/src/worker.rs: try_make_proof"]}
{"id": "C166", "title": "Votes for completed bridge events are no longer spread", "statement": "Once a node has made the proof of an event it drops stored votes for the event and sends none to its peers; votes for events without a proof keep being spread while they are recent.", "quantifier": "every order of completions, any number of events", "why_tests_cant": "The memory of completed events is a cache of 500 entries; tests complete a handful", "anchors": ["ethy-gadget/src/gossip.rs: mark_complete, message_expired, message_allowed"]}
{"id": "C167", "title": "The memory gossip keeps of votes is bounded", "statement": "What a node remembers of received votes is bounded by the number of validators and the number of requested events that are not yet proved, whatever its peers send.", "quantifier": "every sequence of messages of any length", "why_tests_cant": "A growth claim over unboundedly many messages", "anchors": ["ethy-gadget/src/gossip.rs: GossipValidator::validate (known_votes)"]}
{"id": "C168", "title": "Every finalised block is searched for bridge requests", "statement": "A node looks at the signing requests of every finalised block once, in order, whichever finality notifications are skipped, and whenever it is stopped and started again.", "quantifier": "every sequence of finalised blocks, skipped notifications, unreadable headers and restarts at any point", "why_tests_cant": "Crash points and skipped notifications combine without bound; tests notify blocks one by one", "anchors": ["ethy-gadget/src/worker.rs: EthyWorker::new, handle_finality_notification"]}
{"id": "C169", "title": "A worker that is far behind catches up", "statement": "A finality notification for a block any number of blocks ahead of the last one handled is processed, with bounded stack use.", "quantifier": "every distance between the last handled and the notified block, every stack size", "why_tests_cant": "The recursion depth equals the distance; tests skip a few blocks", "anchors": ["ethy-gadget/src/worker.rs: handle_finality_notification"]}
{"id": "C170", "title": "A transaction accepted as an account's was signed by its owner", "statement": "If the owner of an account lets their wallet sign transactions only (of this chain in any of the three accepted ways, or of Ethereum), then every transaction the chain accepts as coming from the account is one of these, with the same call, parameters, version, chain and era; and every signed one is accepted. The only alternative is two different explicit strings with the same hash.", "quantifier": "every set of signed transactions, every transaction, signature and account, any hash functions and any unforgeable signature scheme", "why_tests_cant": "Three different digests are tried for each signature, so any two of the six pairs of formats might be confused for some of infinitely many messages; tests check single messages", "anchors": ["primitives/src/signature.rs: EthereumSignature::verify, verify_signature, ethereum_signed_message", "runtime/src/lib.rs: SignedExtra, construct_runtime (pallet indices)"]}
{"id": "C171", "title": "Signing a text authorises no transaction", "statement": "An account whose owner only signed texts in their wallet, none of which are the bytes of a transaction, has no transaction accepted.", "quantifier": "every set of texts, every transaction", "why_tests_cant": "The claim ranges over all texts and transactions; tests check that a text verifies, not that it is not something else", "anchors": ["primitives/src/signature.rs: EthereumSignature::verify", "pallet/futurepass/src/lib.rs: generate_add_delegate_eth_signed_message"]}
{"id": "C172", "title": "Transactions are for one chain and version", "statement": "A signature of transactions for one chain, or one version of the runtime, is not accepted by another, short of a hash collision.", "quantifier": "every set of signed transactions, every chain and version", "why_tests_cant": "Replay is about all transactions and chains", "anchors": ["runtime/src/lib.rs: SignedExtra (CheckSpecVersion, CheckTxVersion, CheckGenesis, CheckEra)", "primitives/src/signature.rs: EthereumSignature::verify"]}
{"id": "C173", "title": "A delegate's consent is for one futurepass on one chain", "statement": "A delegate is registered by signature only with a futurepass, type and deadline the delegate consented to, for this chain, short of a hash collision.", "quantifier": "every set of consents given, every futurepass, delegate, type, deadline and chain", "why_tests_cant": "Replay between chains and confusion of packed fields concern all messages", "anchors": ["pallet/futurepass/src/lib.rs: register_delegate_with_signature, generate_add_delegate_eth_signed_message"]}
{"id": "C174", "title": "The marketplace contract acts for its caller, as asked", "statement": "A call of the built-in marketplace contract succeeds exactly if the call of the marketplace pallet it stands for succeeds for the caller, with exactly the same effect: collections and assets are those at the given addresses, a zero buyer, duration or marketplace means none, and no argument is changed. The number of a new sale, offer or marketplace is returned.", "quantifier": "all chain states, all callers, functions and arguments, static and value-bearing calls", "why_tests_cant": "The mapping has to be right for every argument including the boundary values (zero ids, ids out of range, shares above one); unit tests use typical ids.", "anchors": ["evm-precompiles/marketplace/src/lib.rs", "pallet/marketplace/src/impls.rs"]}
{"id": "C175", "title": "An offer made through the marketplace contract can be accepted", "statement": "An offer made through the contract can be accepted by the owner of the token, as long as the token can be handed over and the fees can be combined.", "quantifier": "all chain states, all offers made through the contract and all later histories", "why_tests_cant": "Whether an offer is dead for ever is a statement about every later history.", "anchors": ["evm-precompiles/marketplace/src/lib.rs make_simple_offer, accept_offer", "pallet/marketplace/src/impls.rs do_accept_offer, calculate_bundle_royalties", "pallet/marketplace/src/lib.rs NextMarketplaceId"]}
{"id": "C176", "title": "What the marketplace contract reports about listings and offers is right and complete", "statement": "Asking the contract changes nothing. Whoever buys a listing pays the reported price in the reported asset and receives exactly what was reported; accepting an offer moves the reported amount and token. Listings reported alike give a buyer the same.", "quantifier": "all reachable chain states, all listings and offers", "why_tests_cant": "Completeness of a report compares all pairs of states with the same report.", "anchors": ["evm-precompiles/marketplace/src/lib.rs get_listing_from_id, get_offer_from_id, split_listing_tokens"]}
{"id": "C177", "title": "A bridge notary vouches only for what Ethereum shows", "statement": "A validator votes in favour of a challenged event only if the Ethereum node it asks shows a successful transaction to the claimed sender contract, with a log of the bridge contract that carries exactly this event number, sender, receiver and message, buried under enough blocks. One Ethereum transaction supports at most one claim. As long as dishonest notaries are fewer than the share needed for a verdict, an event whose claim was challenged is handed to its destination only if some honest notary was shown that claim.", "quantifier": "all answers of Ethereum nodes, all claims and event numbers, all histories of submissions, challenges, votes (arbitrary ones by dishonest notaries), validator changes and blocks", "why_tests_cant": "The claim is about everything an Ethereum node could answer and every interleaving of votes, challenges and resubmissions.", "anchors": ["pallet/ethy/src/impls.rs offchain_try_notarize_event, do_event_notarization_ocw, handle_event_notarization"]}
{"id": "C178", "title": "A genuine event survives a challenge", "statement": "A claim read from an event the bridge contract really emitted, challenged by anybody, is confirmed by the honest notaries and delivered; its relayer is not punished.", "quantifier": "all events of the bridge contract, all messages and fees, all providers and moments of asking", "why_tests_cant": "Tests feed the notary receipts they construct in the notary's own format; that the format is the one of the contract, for every message, is not tested.", "anchors": ["pallet/ethy/src/impls.rs decode_event_data, offchain_try_notarize_event, handle_invalid_claim", "pallet/ethy/src/lib.rs SUBMIT_BRIDGE_EVENT_SELECTOR"]}
{"id": "C179", "title": "Every challenged claim is examined by every notary", "statement": "Each active notary of an unpaused bridge votes once on every challenged claim. Nothing is voted while the bridge is paused, without an active key, or with too few notaries.", "quantifier": "all sets of open challenges, all histories, including notaries that are offline", "why_tests_cant": "Head-of-line blocking shows only in histories with several challenges in which one never gets its verdict.", "anchors": ["pallet/ethy/src/impls.rs do_event_notarization_ocw, find_active_ethy_key", "pallet/ethy/src/lib.rs offchain_worker, CLAIMS_PER_BLOCK"]}
{"id": "C180", "title": "Honest notaries give the same, right answer to a requested Ethereum call", "statement": "An answer reported by a notary is the 32 bytes the contract returned at the reported block, with the time of that block; the block is the requested one if it is recent enough and the latest one otherwise. Notaries asking the same chain report the same answer.", "quantifier": "all answers of Ethereum nodes, all requests, all differences in latest block and clock between notaries", "why_tests_cant": "Agreement is a relation between two runs at different moments.", "anchors": ["pallet/ethy/src/impls.rs offchain_try_eth_call"]}
{"id": "C181", "title": "A validator signature binds the whole message", "statement": "What validators sign for Ethereum determines sender, destination, message, validator set and number: two requests with the same digest are the same request, unless the hash function has a collision. In any history the requests have different numbers, so no signature can be reused for another message.", "quantifier": "all requests with parts in range; all histories of messages, pauses, validator changes and delayed requests, up to 2^64 messages", "why_tests_cant": "Injectivity of a byte encoding over all messages and lengths, and freshness of numbers over all histories.", "anchors": ["pallet/ethy/src/types.rs EthereumEventInfo, EthySigningRequest", "ethy-gadget/src/types.rs data_to_digest", "pallet/ethy/src/impls.rs send_event, do_request_event_proof"]}
{"id": "C182", "title": "Ethereum can be told only what the chain decided", "statement": "Whatever signed packages with different numbers are presented on Ethereum, each repeats what one operation of the chain had to say (sender, destination, message), and no operation is repeated. So the withdrawals shown in the name of the ERC-20 peg or the NFT peg are withdrawals made on the chain, each at most once; and of a bridged token no more can be paid out on Ethereum than there was at first plus what the peg's contracts announced as deposits.", "quantifier": "all histories mixing withdrawals, delayed payments, NFT withdrawals, pings, validator changes, pauses and events from Ethereum, including hostile ones; all sets of packages", "why_tests_cant": "End-to-end bound over byte encodings, three pallets and arbitrary interleavings with pauses; the adversary chooses which packages to present.", "anchors": ["pallet/ethy/src/impls.rs send_event", "pallet/erc20-peg/src/lib.rs process_withdrawal", "pallet/nft-peg/src/lib.rs do_withdrawal", "pallet/echo/src/lib.rs ping, on_event"]}
{"id": "C183", "title": "Announced validators are the next validators", "statement": "A package in the name of the bridge is the announcement of a change of validators that began on the chain: it is for the bridge contract, names the next validators' addresses in order and the next set id, and nothing else can be read in it. Only addresses of validators' keys are announced.", "quantifier": "all histories, all keys validators may register, all readings of the message", "why_tests_cant": "Tests use valid keys; a session key may be any bytes.", "anchors": ["pallet/ethy/src/impls.rs handle_authorities_change", "primitives/src/ethy.rs EthyEcdsaToEthereum"]}
{"id": "C184", "title": "Whatever the limits allow can be said to Ethereum", "statement": "Every change to a set of validators within the limit of the runtime is announced to Ethereum, and every withdrawal of NFTs within the limits of the peg whose tokens the caller may withdraw is accepted.", "quantifier": "all sizes of validator sets, all withdrawals", "why_tests_cant": "The limits are set in different pallets; tests use small sets.", "anchors": ["pallet/ethy/src/impls.rs send_event, handle_authorities_change", "runtime/src/lib.rs MaxEthData, MaxAuthorities, MaxCollectionsPerWithdraw, MaxSerialsPerWithdraw"]}
{"id": "C185", "title": "Events from Ethereum reach only whom they are for, are read as meant, and never stop the chain", "statement": "A deposit encoded by Solidity is read with exactly its token, amount, lists and receiver. An event changes a peg only if it is for that peg and from its contract, and nothing but an answer of the echo pallet is sent because of it. No accepted event, whatever its data, aborts a block.", "quantifier": "all event data up to the limit, all senders and receivers, all reachable states", "why_tests_cant": "Quantifies over arbitrary bytes and nested dynamic arrays of any shape.", "anchors": ["runtime/src/impls.rs EthereumEventRouter", "pallet/common/src/lib.rs EthereumEventSubscriber", "pallet/erc20-peg/src/lib.rs on_event", "pallet/nft-peg/src/lib.rs on_event, decode_deposit_event", "pallet/echo/src/lib.rs on_event"]}
{"id": "C186", "title": "The contract of an NFT collection is an ERC-721 token", "statement": "A successful call of the contract address of a collection answers, changes and logs what ERC-721 says: who may transfer, approve, burn or mint, what that does to owners, balances, approvals, operators, supply and the owner of the contract, and which Transfer, Approval, ApprovalForAll and OwnershipTransferred events it leaves. Nothing of any other collection changes. Token ids beyond 32 bits are never taken for others.", "quantifier": "all reachable states of the NFT pallet, all collections, callers and calls with any 256-bit arguments", "why_tests_cant": "Tests call each function on a fresh collection; the claim relates every call to the standard in every state.", "anchors": ["evm-precompiles/erc721/src/lib.rs execute, transfer_from, approve, burn, mint, owned_tokens", "pallet/token-approvals/src/lib.rs", "pallet/nft/src/lib.rs, impls.rs"]}
{"id": "C187", "title": "The logs of an NFT collection tell its state", "statement": "Whoever knows the contract of a collection and then hears its logs knows owners, approvals, operators, supply, the owner of the contract and the rules of minting after any history.", "quantifier": "all histories of calls of contracts (by any callers, failing or not), deliveries by the callback of safe transfers and extrinsics", "why_tests_cant": "An indexer must reconstruct the state after any history, not after one test.", "anchors": ["evm-precompiles/erc721/src/lib.rs", "pallet/nft/src/impls.rs do_transfer, do_mint"]}
{"id": "C188", "title": "ERC-721 calls that the standard allows succeed, and those it forbids fail", "statement": "An owner, approved account or operator can move an unlocked token of a transferable collection with room to any other account; an owner can approve anybody. Transfers to the zero address, questions about tokens that do not exist and balances of the zero address fail; approvals by an operator are logged in the name of the owner, and an operator may approve any account but the owner.", "quantifier": "all reachable states, callers and tokens", "why_tests_cant": "Success in every state where the preconditions hold, and failure in all others.", "anchors": ["evm-precompiles/erc721/src/lib.rs transfer_from, approve, get_approved, balance_of", "pallet/token-approvals/src/lib.rs do_erc721_approval"]}
{"id": "C189", "title": "The contract of an SFT collection is an ERC-1155 token", "statement": "A successful call of the contract address of a collection answers, changes and logs what ERC-1155 says: balances of single tokens and batches, transfers, burns and mints of batches in which a token may occur more than once, operators, maximum supplies, owner. Nothing of any other collection changes, ids beyond 32 bits and amounts beyond 128 bits are refused. A batch that the balances cover succeeds. Balances add up to the supply. Transfers of nothing and to oneself are transfers.", "quantifier": "all reachable states of the SFT pallet, all collections, callers, batches of any shape with any 256-bit arguments", "why_tests_cant": "Batches with repeated ids and arbitrary states; sums over all accounts.", "anchors": ["evm-precompiles/erc1155/src/lib.rs", "pallet/sft/src/impls.rs do_transfer, do_burn, do_mint, do_create_token"]}
{"id": "C190", "title": "The logs of an SFT collection tell its state", "statement": "Whoever knows the contract of a collection and then hears its TransferSingle, TransferBatch, ApprovalForAll and other logs knows balances, supplies, maximum supplies, operators, owner and rules of minting after any history.", "quantifier": "all histories of calls of contracts (by any callers, failing or not) and extrinsics", "why_tests_cant": "An indexer must reconstruct the state after any history, not after one test.", "anchors": ["evm-precompiles/erc1155/src/lib.rs create_token, set_max_supply, mint", "pallet/sft/src/impls.rs"]}
{"id": "C191", "title": "Static calls of token contracts change nothing, and token contracts keep no money", "statement": "A static call (which the EVM guarantees has no effect) of the contract of an NFT or SFT collection changes nothing and leaves no log; no function of them takes money sent with the call.", "quantifier": "all states, callers, functions and arguments", "why_tests_cant": "A caller relies on every function, including those added later; the list of functions that write is kept by hand.", "anchors": ["evm-precompiles/erc721/src/lib.rs execute", "evm-precompiles/erc1155/src/lib.rs execute", "evm-precompiles/utils/src/modifier.rs check_function_modifier"]}
{"id": "C192", "title": "No call of an NFT contract aborts the block", "statement": "Whatever is sent to the contract of a collection, the call succeeds or reverts; it never panics, which would make the block invalid.", "quantifier": "all states, callers, functions and arguments of any length", "why_tests_cant": "Quantifies over list lengths beyond the limits of the pallets.", "anchors": ["evm-precompiles/erc721/src/lib.rs re_request_xls20_mint", "runtime/src/lib.rs MaxTokensPerXls20Mint"]}
{"id": "C193", "title": "Collections made by contracts are what was asked for", "statement": "initializeCollection of the NFT and SFT contracts makes a new collection with the owner, maximum supply and royalties that were passed, without tokens, and changes no other; royalties of more than a hundred per cent are refused.", "quantifier": "all reachable states, owners, limits and royalty lists", "why_tests_cant": "All royalty lists and all numbers that do not fit.", "anchors": ["evm-precompiles/nft/src/lib.rs initialize_collection", "evm-precompiles/sft/src/lib.rs initialize_collection", "pallet/nft/src/impls.rs do_create_collection"]}
{"id": "C194", "title": "NFT contracts report the interfaces they support", "statement": "supportsInterface says yes for exactly ERC-165, ERC-721, metadata, burnable, ownable and TRN-721, and no for every other id, 0xffffffff included.", "quantifier": "all 256-bit arguments, all collections and callers", "why_tests_cant": "Over all arguments, including ones with bytes after the id.", "anchors": ["evm-precompiles/erc721/src/lib.rs supports_interface"]}
{"id": "C195", "title": "The XRPL door accounts are in the hands of the chain's current signers", "statement": "Outside of a handover, the signer lists of both door accounts on XRPL are exactly the accounts of the signers the chain knows and asks, with a quorum of all but one, so that whatever any all but one of them sign is carried out. The chain asks XRPL for every change of its signers, and a change that was not made is asked for again.", "quantifier": "all histories of the XRPL bridge, sessions, eras (also forced), pauses, changes of the allowed signers and relayed transactions, in any order, with any number of validators", "why_tests_cant": "Whether the two ledgers agree depends on the whole history of handovers, relays and root calls; tests look at one handover on one side.", "anchors": ["pallet/ethy/src/impls.rs handle_authorities_change, do_finalise_authorities_change, update_xrpl_notary_keys", "pallet/ethy/src/lib.rs set_xrpl_door_signers, finalise_authorities_change", "pallet/xrpl-bridge/src/lib.rs submit_signer_list_set_request", "runtime/src/lib.rs xrpl_signers"]}
{"id": "C196", "title": "A signed withdrawal to XRPL stays payable", "statement": "A transaction of a door account that the chain's signers were asked to sign can be carried out on XRPL at any later time with their signatures, until it has been.", "quantifier": "all histories and all delays between signing and relaying", "why_tests_cant": "The delay between signing and relaying is unbounded and spans handovers.", "anchors": ["pallet/ethy/src/impls.rs do_request_event_proof, handle_authorities_change", "pallet/xrpl-bridge/src/lib.rs submit_withdraw_request"]}
{"id": "C197", "title": "Nothing happens at an XRPL door account that the chain did not ask for", "statement": "As long as fewer signers are bad than have to sign, every transaction carried out at a door account was handed over by the bridge with exactly this content, each at most once; and more than half of the signers have signed it.", "quantifier": "all histories, all sets of bad signers below the quorum of each list, arbitrary transactions and signatures offered to XRPL by anybody", "why_tests_cant": "An attacker chooses transactions, signatures and their order.", "anchors": ["pallet/xrpl-bridge/src/lib.rs submit_signer_list_set_request", "pallet/ethy/src/impls.rs sign_xrpl_transaction, handle_authorities_change"]}
{"id": "C198", "title": "The contract of an asset is an ERC-20 token", "statement": "The contract of every asset behaves as EIP-20 says: totalSupply, balanceOf and allowance report the state and add up, transfer and transferFrom move exactly the amount, use up the allowance and are logged, approve sets and logs the allowance, and the calls the standard allows succeed.", "quantifier": "all assets, histories (contract calls, mints, burns, other transfers, locks, freezes), callers, accounts and 256-bit amounts", "why_tests_cant": "Conformance quantifies over all states, amounts and earlier histories; tests call each function a few times with minimum balance one and nothing locked.", "anchors": ["evm-precompiles/erc20/src/lib.rs execute, transfer, transfer_from, approve, balance_of, allowance, total_supply", "pallet/token-approvals/src/lib.rs erc20_approval, erc20_update_approval", "pallet/assets-ext/src/lib.rs transfer, reducible_balance, total_issuance, create"]}
{"id": "C199", "title": "The logs of an asset tell its state", "statement": "Somebody who only reads the Transfer and Approval logs of an asset's contract knows what every account has, and how much others may take of it at most.", "quantifier": "all histories of calls and of everything else that changes balances, all assets and accounts", "why_tests_cant": "Indexers follow whole histories; tests check one log after one call.", "anchors": ["evm-precompiles/erc20/src/lib.rs SELECTOR_LOG_TRANSFER, SELECTOR_LOG_APPROVAL, transfer, transfer_from, approve", "pallet/assets-ext/src/lib.rs mint, burn_from, transfer"]}
{"id": "C200", "title": "An affordable quote can be traded", "statement": "If the exchange quotes amounts for a path, and the trader holds the quoted input, sets limits the quote meets and a deadline that has not passed, then the trade in the same state succeeds, for selling and for buying.", "quantifier": "all states, paths, amounts, traders, recipients, limits and deadlines", "why_tests_cant": "Success quantifies over all reserves, donations to pools and intermediate amounts of the path, and over the rounding of all of them; tests trade a few round numbers.", "anchors": ["pallet/dex/src/lib.rs get_amounts_out, get_amounts_in, _swap, do_swap_with_exact_supply, do_swap_with_exact_target, mint_fee"]}
{"id": "C201", "title": "The pool admits a transaction paying gas in another asset exactly if it can pay", "statement": "A transaction that asks to pay for gas in another asset is admitted to the transaction pool exactly if its sender can pay the fee for its whole gas limit in that asset, and deciding this never crashes.", "quantifier": "all states, transactions, gas limits, fee caps and payment assets", "why_tests_cant": "Admission and execution are different code; their agreement quantifies over all pools, fees and 256-bit fields of the transaction.", "anchors": ["runtime/src/lib.rs transaction_asset_check, validate_self_contained_inner", "pallet/fee-proxy/src/runner.rs get_fee_preferences_data, call", "pallet/dex/src/lib.rs get_amounts_in"]}
{"id": "C202", "title": "Liquidity can be withdrawn at any time", "statement": "Whoever holds liquidity tokens of a pair that are worth at least one unit of each of its assets can withdraw at any time, whether trading of the pair is enabled or not and however large its pool is, with any limits up to what the tokens are worth.", "quantifier": "all reachable states, pairs, holders, amounts, limits and recipients", "why_tests_cant": "Success quantifies over all reserves and issuances, including those that make other checks overflow, and over every history of enabling and disabling.", "anchors": ["pallet/dex/src/lib.rs remove_liquidity, do_remove_liquidity"]}
{"id": "C203", "title": "Withdrawing through the bridge's contract acts for its caller, as asked", "statement": "A contract call that withdraws an ERC-20 asset takes exactly the amount from the caller, touches no other balance, makes one request telling the right contract on Ethereum to pay this amount of the right token to the beneficiary, and returns and logs the number of this request. One that withdraws NFTs takes exactly the tokens named, all of which belong to the caller and are unlocked, and asks Ethereum for them group by group. Static calls, calls with value, and withdrawals to which a delay applies are refused.", "quantifier": "all states, callers, addresses, amounts, lists of tokens and beneficiaries; for NFTs all reachable states", "why_tests_cant": "The effect has to be right for every asset and token list in every state, and the number returned must be the one the request gets whatever else is going on.", "anchors": ["evm-precompiles/peg/src/lib.rs erc20_withdraw, erc721_withdraw", "pallet/erc20-peg/src/lib.rs do_withdrawal", "pallet/nft-peg/src/lib.rs do_withdrawal"]}
{"id": "C204", "title": "The logs of the bridge's contract show what Ethereum pays", "statement": "For every log of the bridge's contract a request with its number has been sent or waits, and every package the notaries can ever sign under that number tells Ethereum to pay exactly what the log says to the beneficiary of the log. No withdrawal is logged twice. The address in a log is that of the asset's contract.", "quantifier": "all histories with fewer than 2^64 requests, all logs, all packages that fit a signed digest", "why_tests_cant": "Numbers are shared with everything else that is sent to Ethereum and requests may wait through pauses and handovers; the link must survive all of it.", "anchors": ["evm-precompiles/peg/src/lib.rs erc20_withdraw, erc721_withdraw", "pallet/ethy/src/impls.rs send_event, do_request_event_proof"]}
{"id": "C205", "title": "A static call of the marketplace, an asset, the bridge or a futurepass changes nothing", "statement": "Contracts may use the built-in contracts in static calls, in which the EVM promises that nothing changes: a static call to the marketplace, an asset's contract, the bridge's contract, the futurepass registrar or a futurepass leaves all state as it is and leaves no log.", "quantifier": "all states (for futurepasses all reachable ones), callers, functions and arguments", "why_tests_cant": "The EVM leaves it to each built-in contract to refuse; one function missing from a list is enough, and only for some inputs.", "anchors": ["evm-precompiles/marketplace/src/lib.rs execute", "evm-precompiles/erc20/src/lib.rs execute", "evm-precompiles/peg/src/lib.rs execute", "evm-precompiles/futurepass/src/lib.rs execute, do_proxy", "evm-precompiles/futurepass-registrar/src/lib.rs execute", "evm-precompiles/utils/src/modifier.rs check_function_modifier"]}
{"id": "C206", "title": "A heavier or longer native transaction never costs less, and only root sets prices", "statement": "The fee of a native transaction is the set share of its weight (to within half a unit), the set price per byte times its length, and its tip: one that is longer, heavier or tips more never costs less, raising a multiplier never makes any transaction cheaper, and only root can change a price, each call just the one it names.", "quantifier": "all multipliers root can set, all transactions and all fee adjustments", "why_tests_cant": "Lengths, weights and multipliers range over the full widths of their types; a product that wraps shows only at their ends.", "anchors": ["pallet/fee-control/src/lib.rs set_evm_base_fee, set_weight_multiplier, set_length_multiplier, weight_to_fee, length_to_fee", "pallet/common/src/lib.rs FeeConfig", "runtime/src/lib.rs FeeControlWeightToFee, FeeControlLengthToFee"]}
{"id": "C207", "title": "A proof fetched from a node is one the other chain accepts", "statement": "Relayers fetch proofs from nodes. The proof for an event names the validators of the block that asked for it, with a signature or a blank for each: at least the threshold of them are signatures of the validator at that position for the message the chain asked for. The proof of an XRPL transaction names different signers, all XRPL signers at that block, at least as many as needed, each with their signature of that transaction.", "quantifier": "all histories of blocks, validator sets, requests and votes, all events", "why_tests_cant": "Votes arrive in any order and before or after requests, blocks and changes of sets; positions match by luck in most short runs.", "anchors": ["ethy-gadget/rpc/src/lib.rs build_event_proof_response, build_xrpl_tx_proof_response", "ethy-gadget/src/worker.rs try_make_proof, handle_finality_notification", "primitives/src/ethy.rs EventProof::expanded_signatures, ValidatorSet", "runtime/src/lib.rs xrpl_signers"]}
{"id": "C208", "title": "A proof once made can be fetched at any time, and the answer never changes", "statement": "As soon as a node has made the proof of an event, asking it for that event and chain gives the proof, and gives the same proof forever; asking for an event not yet proved, or for the other chain, gives nothing; and subscribers are sent each proof when it is made.", "quantifier": "all histories, events and chains", "why_tests_cant": "A second proof of an event, a clash of storage keys, or the loss of old state can come at any later time.", "anchors": ["ethy-gadget/rpc/src/lib.rs get_event_proof, get_xrpl_tx_proof, subscribe_event_proofs", "ethy-gadget/src/types.rs make_proof_key", "ethy-gadget/src/worker.rs try_make_proof"]}
{"id": "C209", "title": "The settings of a vortex distribution are as set, and final once it is triggered", "statement": "Setting the period of a distribution sets exactly that, and a period never ends before it begins; setting prices adds the named assets to those its vortex can be redeemed for; nothing else changes the settings, and after the trigger nothing does.", "quantifier": "all histories, distributions, periods and price lists", "why_tests_cant": "The settings are read again by every later redemption, after any history of further calls.", "anchors": ["pallet/vortex-distribution/src/lib.rs set_vtx_dist_eras, set_asset_prices, do_asset_price_setter, redeem_tokens_from_vault"]}
{"id": "C210", "title": "The logs of built-in contracts cost what logs cost any contract", "statement": "A call of a built-in contract (tokens, collections, exchange, marketplace, futurepasses, bridge) that succeeds is charged, for the logs it emits, at least what the EVM charges any other contract for the same logs: 375 gas for each log and each topic and 8 for each byte, for every number of tokens, swaps or bytes in the call.", "quantifier": "All functions of built-in contracts that change state, with arrays and strings of every length.", "why_tests_cant": "A test looks at the gas of one call with one or two entries; the claim compares two sums for every function and every length.", "anchors": ["evm-precompiles/utils/src/costs.rs: log_costs", "evm-precompiles/utils/src/handle.rs: record_log_costs_manual", "evm-precompiles/erc20/src/lib.rs", "evm-precompiles/erc721/src/lib.rs", "evm-precompiles/erc1155/src/lib.rs", "evm-precompiles/dex/src/lib.rs", "evm-precompiles/marketplace/src/lib.rs", "evm-precompiles/peg/src/lib.rs"]}
{"id": "C211", "title": "What built-in contracts do is paid for in gas", "statement": "However a call of a built-in contract comes out, the weight of the work it has the chain do is at most what the gas it consumed pays for, at the chain's rate of weight for gas; a call with too little gas has nothing done. So no sequence of calls has the chain do more work than their gas limits pay for.", "quantifier": "All functions of built-in contracts that change state, all weights, declared and actual, all outcomes and amounts of gas, and repeated calls.", "why_tests_cant": "A test measures the gas of calls that succeed; work done by calls that fail does not show in the state, and the claim is over all weights and repetitions.", "anchors": ["evm-precompiles/utils/src/substrate.rs: RuntimeHelper::try_dispatch", "evm-precompiles/erc1155/src/lib.rs: create_token", "evm-precompiles/dex/src/lib.rs", "evm-precompiles/marketplace/src/lib.rs", "runtime/src/lib.rs: WeightPerGas, GasWeightMapping"]}
{"id": "C212", "title": "No XRPL deposit stops the chain", "statement": "Whatever deposits relayers have reported, the next block can be made: the number of deposits due in a block and of those settled for an XRPL ledger stay within their limits, and processing the deposits due never panics. A deposit that cannot be recorded fails alone.", "quantifier": "All histories of submissions, challenges, withdrawals, blocks, pruning and settings, all limits and all weights left for idle work.", "why_tests_cant": "The limits are a million; a test sets them to ten and never fills a ledger over several blocks.", "anchors": ["pallet/xrpl-bridge/src/lib.rs: process_xrp_tx, submit_transaction, add_to_relay, clear_storages", "runtime/src/lib.rs: XRPTransactionLimit, XRPTransactionLimitPerLedger"]}
{"id": "C213", "title": "Exactly the proper XRPL deposits are accepted, and exactly old records dropped", "statement": "A reported XRPL deposit is accepted if and only if the reporter is a relayer, its currency is XRP, an NFT or mapped to an asset, its ledger is within the submission window, it is not on record, and the block a challenge period later has room; it then only joins the pending deposits, last. The records of a ledger can be dropped by hand if and only if the ledger is older than the window and has records; only those are dropped.", "quantifier": "All states, reporters, ledger indices of 64 bits, hashes and deposits.", "why_tests_cant": "An equivalence over all states and inputs; tests try one refusal for each reason.", "anchors": ["pallet/xrpl-bridge/src/lib.rs: submit_transaction, add_to_relay, prune_settled_ledger_index"]}
{"id": "C214", "title": "A token's URI is its collection's base URI and its serial number", "statement": "The URI that the NFT and SFT contracts show for a token is the base URI of its collection followed by the serial number in decimal, without leading zeros; tokens of a collection have different URIs; numbers above 32 bits are refused. Only the owner of an NFT collection of this chain that is not for XRPL sets its base URI, and this changes the URIs of that collection only. A call for a token that does not exist fails, as ERC-721 asks.", "quantifier": "All histories, collections, serial numbers of 256 bits and base URIs.", "why_tests_cant": "A test asks for the URI of a few tokens under one base URI.", "anchors": ["primitives/src/nft.rs: MetadataScheme::construct_token_uri", "pallet/nft/src/impls.rs: token_uri", "pallet/nft/src/lib.rs: set_base_uri", "pallet/sft/src/impls.rs: token_uri, do_set_base_uri", "evm-precompiles/erc721/src/lib.rs: token_uri", "evm-precompiles/erc1155/src/lib.rs: uri"]}
{"id": "C215", "title": "The URI of a token on XRPL is the one shown here, forever", "statement": "Every token of a collection of this chain that is enabled for XRPL has been announced to relayers with the URI this chain shows for it, no other URI has ever been announced, and from then on the URIs of that collection never change. Neither do those of bridged collections.", "quantifier": "All histories of creating collections, setting base URIs and owners, enabling XRPL, minting, burning, requesting again and deposits from Ethereum and XRPL.", "why_tests_cant": "Quantifies over all orders of the operations that set URIs and those that announce them.", "anchors": ["pallet/xls20/src/lib.rs: request_xls20_mint, send_xls20_requests, re_request_xls20_mint", "pallet/nft/src/lib.rs: mint, set_base_uri, create_collection", "pallet/nft/src/impls.rs: enable_xls20_compatibility, do_create_collection"]}
{"id": "C216", "title": "The URI of a bridged token says which token it is", "statement": "The URI of a token that came from Ethereum names the contract's address and the token's number there, and no two such tokens have the same URI; likewise the URI of a token from XRPL names its issuer, taxon and number.", "quantifier": "All histories, all addresses, issuers, taxons and numbers.", "why_tests_cant": "Injectivity over all addresses and numbers at every point of every history.", "anchors": ["pallet/nft-peg/src/lib.rs: do_deposit", "pallet/xls20/src/lib.rs: deposit_xls20_token", "primitives/src/nft.rs: construct_token_uri"]}
{"id": "C217", "title": "Imbalances keep supply and balances together", "statement": "However runtime code takes balance from accounts, gives it to them, and splits, merges, offsets and drops the imbalances this yields, the supply of an asset and the sum of its balances differ by exactly what is held in imbalances; once all are dropped they are equal.", "quantifier": "All programs over any number of assets, accounts and imbalances.", "why_tests_cant": "Quantifies over all sequences of operations on any number of imbalances; tests do one deposit or withdrawal.", "anchors": ["pallet/assets-ext/src/imbalances.rs: split, merge, subsume, offset, drop, zero", "pallet/assets-ext/src/impls.rs: withdraw, deposit_into_existing, deposit_creating"]}
{"id": "C218", "title": "A signed XRPL message authorises exactly the call, nonce, last block and tip its memo spells", "statement": "The memo of an XRPL transaction is accepted exactly if it is the hash of the genesis block, the nonce, the last block, the tip and the hash of the call, between colons, in hexadecimal and decimal within their widths, and what is executed has these values; what a wallet writes is read back as it meant it. Of several memos the first whose type is \"extrinsic\" counts, and without one nothing is executed.", "quantifier": "All byte strings, all lists of memos, all values of the five fields.", "why_tests_cant": "A grammar over unbounded texts; tests parse a few samples.", "anchors": ["pallet/xrpl/src/types.rs: XRPLTransaction::get_extrinsic_data, ExtrinsicMemoData", "pallet/xrpl/src/lib.rs: validate_params"]}
{"id": "C219", "title": "Amounts given to the exchange's RPC are read as what they are", "statement": "An amount in a request to the exchange's RPC is a whole number, or \"0x\" and its hexadecimal digits; it is read as that number, anything else is answered with an error, and the amounts that the node answers with can be given to it again.", "quantifier": "All JSON values.", "why_tests_cant": "Quantifies over all texts and numbers a client may send, including malformed ones.", "anchors": ["pallet/dex/src/types.rs: WrappedBalance, WrappedBalanceHelper, Serialize, Deserialize", "pallet/dex/rpc/src/lib.rs: quote, get_amounts_out, get_amounts_in"]}
{"id": "C220", "title": "Answers of Ethereum nodes are read as what they say", "statement": "The data an Ethereum node answers with is read as exactly the bytes whose hexadecimal digits it gives, anything else fails the check, which is then tried again or aborted; a node that reports an error is not taken for one that reports an empty result; and the block asked for is the one meant.", "quantifier": "All answers, all block numbers of 64 bits.", "why_tests_cant": "Quantifies over every answer an outside server can give, including malformed ones.", "anchors": ["pallet/ethy/src/types.rs: Bytes, BytesVisitor, decode_hex, serialize", "pallet/ethy/src/ethereum_http_cli.rs: eth_call, query_eth_client"]}
{"id": "C221", "title": "XRPL transactions only carry tickets that relayers or root allotted", "statement": "Every ticket that an outgoing XRPL transaction or a waiting withdrawal carries lies in a range that a relayer, or root, had allotted to that door account. Only relayers allot the next range, not an empty one and not one that begins before the current ticket or range. Transactions are refused exactly when the current range is used up and no other one follows, or a number would not fit in 32 bits.", "quantifier": "All histories of withdrawals, NFT transactions, changes of signers and relayers, blocks and allotments.", "why_tests_cant": "Quantifies over all interleavings of allotments with the transactions that use them.", "anchors": ["pallet/xrpl-bridge/src/lib.rs: set_ticket_sequence_next_allocation, set_ticket_sequence_current_allocation, get_door_ticket_sequence, submit_signer_list_set_request, generate_nft_accept_offer"]}
{"id": "C222", "title": "Resetting the records of settled XRPL transactions does not make deposits count twice", "statement": "Root's reset of the highest settled ledger, the submission window and the settled transactions credits nothing and leaves waiting deposits as they are; what root names and what was known cannot be submitted again, nor anything before the new window; and no XRPL transaction is credited twice afterwards, however the window is changed.", "quantifier": "All histories of submissions, blocks, pruning, withdrawals and resets with any values.", "why_tests_cant": "Quantifies over all histories around a reset; a test resets a fresh chain.", "anchors": ["pallet/xrpl-bridge/src/lib.rs: reset_settled_xrpl_tx_data, submit_transaction, process_xrp_tx, clear_storages, prune_settled_ledger_index"]}
{"id": "C223", "title": "Only the named roles change an asset, and the native supply is untouched", "statement": "Creating an asset reserves the deposit of the caller and gives it a number not in use and never given again, even after its destruction; its supply grows only when its issuer mints and falls only when its admin burns, each by what one account gains or loses; an account loses some only by sending it, by the admin's burning or by a destruction the owner began; only the owner changes roles or begins a destruction; and the total of the native token, free and reserved, never changes.", "quantifier": "All states and all histories of creating, minting, burning, sending, managing and destroying assets, by any callers with any arguments.", "why_tests_cant": "Quantifies over callers, arguments and histories; a test tries a few callers.", "anchors": ["pallet/assets-ext/src/lib.rs: create_asset, mint, burn_from, transfer, create, create_with_metadata, next_asset_uuid", "runtime/src/lib.rs: CallFilter"]}
{"id": "C224", "title": "Assets have at most 18 decimals, fixed at creation", "statement": "No asset created by users ever has more than 18 decimals, and the decimals of an asset never change while somebody holds it.", "quantifier": "All histories of calls that the runtime lets through.", "why_tests_cant": "A history of calls in two pallets is needed: the limit is checked in one and the metadata is set in another.", "anchors": ["pallet/assets-ext/src/lib.rs: create_asset, MAX_DECIMALS", "runtime/src/lib.rs: CallFilter"]}
{"id": "C225", "title": "What was reserved for an asset is given back when it is destroyed", "statement": "When an asset is destroyed, the deposit that its creator had reserved for making it, and what its owner had reserved for its metadata, are free again.", "quantifier": "All histories of creating, managing and destroying assets.", "why_tests_cant": "Quantifies over all histories from a creation to the destruction, with changes of owner and of the deposit in between.", "anchors": ["pallet/assets-ext/src/lib.rs: create_asset, create, set_asset_deposit"]}
{"id": "C226", "title": "XLS-20 records are left alone while storage is migrated", "statement": "From the start of a storage migration to its end, the recorded XLS-20 ids do not change, the mapping of collections changes only by root's own call, no withdrawal of a token to the XRP ledger is offered, requests for XLS-20 mints made by hand and the relayer's answers fail, and a deposit changes nothing on the chain.", "quantifier": "All histories of XLS-20, NFT and XRPL operations during a migration, by any callers with any arguments.", "why_tests_cant": "An invariant over all histories between two blocks that are many blocks apart.", "anchors": ["pallet/xls20/src/lib.rs: re_request_xls20_mint, fulfill_xls20_mint, deposit_xls20_token, get_xls20_token_id", "pallet/migration/src/lib.rs: ensure_migrated"]}
{"id": "C227", "title": "The notaries of the Ethereum bridge are the validators of the era", "statement": "Some minutes after an era began at the latest, the keys that the bridge accepts as its notaries are those of the validators with which the era began; until then the bridge is paused.", "quantifier": "All histories of blocks, sessions and eras, with any validators elected, elections that fail and eras that are forced.", "why_tests_cant": "Eras take a day, and what matters is the order of hooks of four pallets over several eras; a test sets the last session by hand.", "anchors": ["pallet/ethy/src/impls.rs: on_new_session, on_before_session_ending, handle_authorities_change, do_finalise_authorities_change", "pallet/ethy/src/lib.rs: on_initialize, finalise_authorities_change", "runtime/src/impls.rs: is_active_session_final"]}
{"id": "C228", "title": "Ethereum is told each set of notaries once, with its number, before it takes effect", "statement": "A set of notaries takes effect only after a message with exactly its keys and its number was requested for Ethereum, no number is told with two sets, and the sets that take effect are numbered one after the other.", "quantifier": "All histories of blocks, sessions and eras, with any number of validators.", "why_tests_cant": "Quantifies over histories and sizes of the set; tests use a few validators.", "anchors": ["pallet/ethy/src/impls.rs: handle_authorities_change, do_finalise_authorities_change, send_event", "runtime/src/lib.rs: MaxEthData"]}
{"id": "C229", "title": "A change of notaries pauses the bridge only for some minutes", "statement": "The bridge is paused for a change of notaries only from the delay before the planned end of the last session of an era until the new notaries take effect, at most the delay after the new era began.", "quantifier": "All histories of blocks, sessions and eras, with eras that are forced and calls that the scheduler refuses.", "why_tests_cant": "Whether a pause ends depends on everything that may happen until then.", "anchors": ["pallet/ethy/src/impls.rs: handle_authorities_change, do_finalise_authorities_change, on_before_session_ending", "pallet/ethy/src/lib.rs: on_initialize"]}
{"id": "C230", "title": "Contracts refuse numbers that are too large instead of cutting them", "statement": "A call of a built-in contract of tokens, the marketplace, the exchange or the bridge that succeeds had only numbers that the chain can hold as they are: token numbers, counts, blocks and marketplaces below 2^32, offers below 2^64, amounts and listings below 2^128, shares of at most a hundred per cent, and lists that belong together of one length.", "quantifier": "All calls with all arguments below 2^256, in all states.", "why_tests_cant": "Each argument of some sixty functions has its own check; a test per function tries one argument.", "anchors": ["evm-precompiles/erc721/src/lib.rs", "evm-precompiles/erc1155/src/lib.rs", "evm-precompiles/marketplace/src/lib.rs", "evm-precompiles/dex/src/lib.rs: saturated_convert_balance, saturated_convert_blocknumber", "evm-precompiles/peg/src/lib.rs", "evm-precompiles/nft/src/lib.rs: initialize_collection", "evm-precompiles/erc20/src/lib.rs: approve"]}
{"id": "C231", "title": "What root sets takes effect and stays until root changes it", "statement": "After any history, whether deposits and withdrawals of a bridge are open and delayed, which contracts, relayers, fees, delays and accounts count is what root said last; nothing else changes it, and calls that contradict it are refused.", "quantifier": "All histories of calls, failing ones included, in all states.", "why_tests_cant": "Every call of a pallet could overwrite a setting by mistake, in any order.", "anchors": ["pallet/erc20-peg/src/lib.rs: activate_deposits, activate_withdrawals, set_erc20_peg_address, set_erc20_meta, set_payment_delay", "pallet/xls20/src/lib.rs: set_relayer, set_xls20_fee", "pallet/nfi/src/lib.rs: set_relayer, set_fee_to, set_fee_details", "pallet/marketplace/src/lib.rs: set_fee_to", "pallet/xrpl-bridge/src/lib.rs: add_relayer, set_payment_delay, set_door_tx_fee"]}
{"id": "C232", "title": "The list of a collection's open listings is exact", "statement": "After any history of listings, purchases, bids, cancellations, accepted offers and expiries, the index of open listings of a collection contains a listing if and only if the listing is open and its tokens belong to that collection.", "quantifier": "every history of marketplace calls and blocks, every collection, every listing", "why_tests_cant": "A test looks at the index after one or two calls. A listing can end in six ways, in a call or in the block hook, alone or with others, and each has to clear its entry.", "anchors": ["pallet/marketplace/src/impls.rs: do_sell, do_auction, remove_listing, close_listings_at, do_accept_offer", "pallet/marketplace/src/lib.rs: OpenCollectionListings"]}
{"id": "C233", "title": "Whoever follows the marketplace's events knows its state", "statement": "Somebody who knows the marketplace's state at one point and reads its events from there on knows at every later point which listings are open, what is sold in each, for what price, by whom and through which marketplace, the highest bid of each auction, which offers are open, the registered marketplaces and the receiver of the network's fee. Every event is true: one that reports a sale names the tokens, parties and price of a sale that took place, and a listing that ends in the block hook is reported exactly once, as sold, expired or not settled according to what happened.", "quantifier": "every history of marketplace calls and blocks from every reachable state", "why_tests_cant": "A test checks that one call deposits one event. That the events together determine the state, for every order of calls and blocks, is a statement about all histories.", "anchors": ["pallet/marketplace/src/impls.rs: deposit_event calls, process_auction_closure, close_listings_at, do_accept_offer", "pallet/marketplace/src/lib.rs: Event"]}
{"id": "C234", "title": "Whoever follows the NFT pallet's events knows who owns every token", "statement": "Somebody who knows all collections and tokens at one point and reads the pallet's events from there on knows at every later point who has each token, how many tokens each collection has, and the owner, royalties, limit, origin, XRPL compatibility, utility flags and public minting rules of every collection.", "quantifier": "all starting states, all histories of calls of the pallet, its contracts and the bridges, all tokens and collections", "why_tests_cant": "Indexers, wallets and marketplaces rebuild ownership from events; one silent path in any history makes them wrong from then on, and tests look at the events of single calls.", "anchors": ["pallet/nft/src/lib.rs Event, mint, burn", "pallet/nft/src/impls.rs do_transfer, do_create_collection, do_burn, mint_bridged_token", "pallet/nft-peg/src/lib.rs do_withdrawal", "pallet/xrpl-bridge/src/lib.rs do_nft_withdrawal"]}
{"id": "C235", "title": "Whoever follows the SFT pallet's events knows who has how much of every token", "statement": "Somebody who knows all collections and tokens at one point and reads the pallet's events from there on knows at every later point how much of each token everybody has (on sale or not), the supply and limit of each token, and the owner, royalties, utility flags and public minting rules of every collection.", "quantifier": "all starting states, all histories of calls of the pallet, its contracts and the marketplace, all tokens, collections and accounts", "why_tests_cant": "Indexers and wallets rebuild balances from events; a batch that names a token twice, or one silent path in any history, makes them wrong from then on, and tests look at the events of single calls.", "anchors": ["pallet/sft/src/lib.rs Event", "pallet/sft/src/impls.rs do_create_collection, do_create_token, do_mint, do_transfer, do_burn, unzip_serial_numbers"]}
{"id": "C236", "title": "Whoever follows the exchange's events knows which pairs trade, who gets the fees, and how many liquidity tokens there are", "statement": "Somebody who knows the state of the exchange at one point and reads its events from there on knows at every later point which pairs exist and can be traded and who gets the protocol's fees. While no fee receiver is set they also know the exact supply of every pair's liquidity token; with one they never take it to be larger than it is.", "quantifier": "all starting states, all histories of swaps, deposits, withdrawals, settings and token movements, all pairs", "why_tests_cant": "Indexers rebuild pools from events; whether some history lets the picture drift cannot be seen from the events of single calls.", "anchors": ["pallet/dex/src/lib.rs Event, do_add_liquidity, do_remove_liquidity, mint_fee, create_lp_token, reenable_trading_pair, disable_trading_pair"]}
{"id": "C237", "title": "Whoever follows the exchange's events knows the reserves of every pair", "statement": "Somebody who knows the reserves at one point and adds up the deposits, withdrawals and swaps in the exchange's events from there on knows at every later point the reserves of every pair.", "quantifier": "all starting states, all histories of swaps, deposits, withdrawals, settings and token movements, all pairs", "why_tests_cant": "Whether two different histories can leave the same events and different reserves is a question about pairs of histories, which no test of single calls asks.", "anchors": ["pallet/dex/src/lib.rs Event::Swap, do_swap_with_exact_supply, do_swap_with_exact_target, _swap, do_remove_liquidity"]}
{"id": "C238", "title": "Who follows the futurepass events knows holders and delegates", "statement": "Whatever calls are made, directly, in batches, through other futurepasses or through the EVM, whoever has followed the events of the futurepass pallet from the start knows which futurepass each account holds, who the delegates of every futurepass are, and which of them is the owner.", "quantifier": "all histories of calls, EVM calls and blocks, with accounts whose keys are not those of futurepass addresses; all accounts and all futurepasses", "why_tests_cant": "a test compares one event with the call that made it; that nothing changes unannounced is a statement about all routes and all histories", "anchors": ["pallet/futurepass/src/lib.rs: Event, create_futurepass, register_delegate_with_signature, unregister_delegate, transfer_futurepass", "runtime/src/impls.rs: ProxyPalletProvider"]}
{"id": "C239", "title": "What root sets for the bridges and for migrations takes effect and stays", "statement": "After any history, failing calls included: the NFT bridge's contract is the one root named last, and withdrawals ask it for the tokens; the challenge period is the one root set last, and submitted events are due when it is over; a relayer of the Ethereum bridge was named by root and stays until root names another or they are slashed; while root's last word is to pause, nothing is given out for signing; a block takes up at most as many delayed requests as root said; migrations run only if root's last word is that they do, only in blocks whose number is a multiple of the delay set last, and make at most as many steps a block as the limit set last. Delays below two and limits of zero are refused and change nothing.", "quantifier": "all histories of operations from any state", "why_tests_cant": "tests set a value and read it back; that nothing else changes it is a statement about all histories", "anchors": ["pallet/nft-peg/src/lib.rs: set_contract_address", "pallet/ethy/src/lib.rs: set_challenge_period, set_relayer, set_bridge_paused, set_delayed_event_proofs_per_block", "pallet/migration/src/lib.rs: enable_migration, set_block_delay, set_block_limit"]}
{"id": "C240", "title": "Whoever reads the crowdsale's events knows every sale, except that it failed", "statement": "After any history in which nobody signs for a sale's vault address and no asset's administrator burns what a vault holds: a sale exists if and only if its creation was announced; and reading only the events (creation, opening, participation, closing, payment, end) gives the sale's admin, vault, payment asset, collection, price, voucher asset and duration, the funds raised, the number of participants, what each account contributed and was not paid for yet, and the stage of the sale with the vouchers paid so far. The announced total at the end of the payments is the sum of the announced payments. Not true of a sale that could not be queued for payment: it is failed and no event says so.", "quantifier": "all histories of operations and blocks from the empty pallet, all sales, all accounts", "why_tests_cant": "a test compares single events with single calls; that nothing changes without an event is a statement about all histories", "anchors": ["pallet/crowdsale/src/lib.rs: Event, initialize, enable, participate, on_initialize, automatic_distribution, claim_voucher", "pallet/crowdsale/src/impls.rs: close_sale, do_automatic_distribution, transfer_crowdsale_rewards"]}
{"id": "C241", "title": "A started vortex distribution is paid out by the validators", "statement": "Once a distribution has been started and as long as it is not disabled, the validators' off-chain workers submit the payout calls that complete it, without anybody else having to act: all distributions being paid get done within (accounts + 2 for each of them) times (interval + 1) blocks. The workers submit calls only for distributions being paid, and not before the interval since the last payout call is over. True if nobody else submits payout calls. False otherwise: a payout call is unsigned, free and accepted for any distribution, and puts off the workers even if it pays nothing, so one such call a block keeps them from ever paying.", "quantifier": "all reachable states with any number of distributions being paid, all rows of blocks and calls in them, all orders in which the workers read the distributions", "why_tests_cant": "tests call the payout by hand; that the workers finish needs all schedules of blocks, and that they can be starved needs histories of every length", "anchors": ["pallet/vortex-distribution/src/lib.rs: offchain_worker, vtx_dist_offchain_worker, validate_unsigned, pay_unsigned, NextUnsignedAt"]}
{"id": "C242", "title": "A closed crowdsale is paid out by the nodes' workers", "statement": "Once a sale has closed and waits to be paid, the off-chain workers submit the payout calls that complete it, without anybody else having to act: within (contributors + 1 for it and every sale before it in the queue) times (interval + 1) blocks all its contributors have been handled and the sale is over, whatever else the blocks contain, including payout calls of other people. The workers submit a call only if a sale is waiting and the interval is over, and that call succeeds.", "quantifier": "all reachable states, all sales being paid, all rows of blocks and calls in them", "why_tests_cant": "tests call the payout by hand; that every waiting sale gets its turn needs all schedules of blocks and calls", "anchors": ["pallet/crowdsale/src/lib.rs: offchain_worker, validate_unsigned, distribute_crowdsale_rewards, NextUnsignedAt"]}
{"id": "C243", "title": "There is code at the address of every token", "statement": "Contracts that look whether there is code at an address before they use it accept every token of the chain. At the address of every collection and asset there is code from its creation on. It is never removed or replaced, nobody can deploy a contract there, and a call of an asset that has been destroyed fails instead of appearing to succeed.", "quantifier": "Every history of token creations, forced creations and destructions by root, and deployments and self-destructions of contracts, from the genesis block; every token.", "why_tests_cant": "It must hold for every way in which a token can come into being and for ever after. Tests look at single tokens that they have created, not at those of the genesis block or of root.", "anchors": ["runtime/src/impls.rs OnNewAssetSubscription::on_asset_create", "pallet/assets-ext/src/lib.rs create", "pallet/nft/src/impls.rs do_create_collection", "pallet/sft/src/impls.rs do_create_collection", "client/src/chain_spec.rs testnet_genesis"]}
{"id": "C244", "title": "Whoever follows the ERC-20 bridge's events knows what it paid, what it sent, and what still waits", "statement": "The events of the ERC-20 bridge tell the whole story. Every message to Ethereum is announced with its asset, amount and beneficiary, in order. What an account gets through the bridge is what the events of deposits say. Every deposit that arrives from Ethereum is reported exactly once, as paid, delayed or refused. Delayed payments are announced under consecutive numbers with the block they are due, failed ones are announced, and a reader can tell which payments still wait.", "quantifier": "Every history of deposits, withdrawals, blocks, idle phases, claims and settings in which root leaves the token mappings alone; every asset, account and payment.", "why_tests_cant": "It must hold for every history and every interleaving of delayed and immediate payments. Tests compare single events after single calls.", "anchors": ["pallet/erc20-peg/src/lib.rs Event, do_withdrawal, process_withdrawal, process_delayed_payment, delay_payment, do_deposit, process_deposit, on_event"]}
{"id": "C245", "title": "Readers of the XRPL bridge's events know what it credited and paid", "statement": "Whoever follows the events of the XRPL bridge knows what it does: the payments handed to the signers are those of the withdrawal requests, in the same order, with the asset, the amount (of XRP at most 2^64 - 1 drops) and the destination; delayed withdrawals are announced under consecutive numbers, and every withdrawal that waits was announced with sender, asset, amount and destination and waits for the announced block; the deposits credited are those reported as processed, none twice; each report, good or bad, comes after the announcement of that deposit. Every announced deposit is reported as processed or failed when the challenge period ends, and every announced withdrawal that is given up is reported.", "quantifier": "all histories of submissions, challenges, withdrawals, blocks with any idle capacity, NFT requests, signer changes and settings, in which no asset changes its decimals", "why_tests_cant": "The events are deposited in four places, some inside loops that stop anywhere depending on the weight left, and the claim is about their whole sequence; a test looks at the last event.", "anchors": ["pallet/xrpl-bridge/src/lib.rs: Event, process_xrp_tx, process_delayed_payments, add_to_withdraw, delay_payment, submit_withdraw_request, submit_challenge, add_to_relay"]}
{"id": "C246", "title": "Readers of the vortex distribution's events know its books", "statement": "Whoever follows the events of the vortex distribution knows at every moment the administrator, the stage and the eras of every distribution, the reward registered for every account, the prices and the priced assets, and the amount that a start will mint; what a payout call pays to an account is what its payout events say; and a distribution announced as done was being paid out and is done. The events also name the replaced administrator, tell of redemptions, and tell of every registered account that was not paid when the distribution ended.", "quantifier": "all histories of all calls by any callers, with any blocks and outside transfers, from any state", "why_tests_cant": "The picture a reader has depends on every event since the start; the tests of this pallet look at single events of single calls, and none of them calls set_admin.", "anchors": ["pallet/vortex-distribution/src/lib.rs: Event, set_admin, create_vtx_dist, disable_vtx_dist, start_vtx_dist, pay_unsigned, do_vtx_distribution, set_vtx_dist_eras, register_rewards, set_asset_prices, trigger_vtx_distribution, redeem_tokens_from_vault"]}
{"id": "C247", "title": "Readers of the Ethereum bridge's events know every claim, bond and relayer", "statement": "Whoever follows the events of the incoming side of the Ethereum bridge from its start knows at every moment the challenge period, the relayer, every relayer's bond, which claims wait, in which stage and with which challenger, and which claims were handed to their destinations, with their contents and in order; no claim is due at a block that was not announced for it; a claim announced as invalid gives its challenger the challenge bond back and the bond of the relayer in office, and one announced as verified gives the relayer the challenge bond. Every verdict of the notaries and every event id that can no longer be claimed is announced.", "quantifier": "all histories of submissions, challenges, votes, bonds, relayer changes, settings, changes of notaries and blocks, from the pallet's first block", "why_tests_cant": "Events are deposited in loops over claims that fall due and in the branches of a verdict; what a reader knows depends on all of them in order, and tests look at one event after one call.", "anchors": ["pallet/ethy/src/lib.rs: Event, on_initialize, set_relayer, deposit_relayer_bond, withdraw_relayer_bond, submit_challenge, set_challenge_period, remove_missing_event_id", "pallet/ethy/src/impls.rs: do_submit_event, handle_event_notarization, handle_invalid_claim, handle_valid_claim"]}
{"id": "C248", "title": "Readers of the NFI pallet's events know its data and what was asked for", "statement": "Whoever follows the events of the NFI pallet (and those of the chain id) knows at every moment the relayer, the fee and who shares in it, the data recorded for every token of any chain, the collections with NFI, and every request made, in order; a request is announced as one for existing data exactly if there is data; and a fee is announced in the name of the account that asks, in the asset and at the price known to the reader for each request announced with it. Data is announced as removed only for a token that had data.", "quantifier": "all histories of NFI calls, operations of the NFT and SFT pallets, and changes of the chain id, from any state", "why_tests_cant": "The off-chain service that makes NFI data works from these events alone; its picture depends on all of them, including those made inside mints and burns of two other pallets, which no single test combines.", "anchors": ["pallet/nfi/src/lib.rs: Event, set_relayer, set_fee_to, set_fee_details, enable_nfi_for_trn_collection, manual_data_request, submit_nfi_data, pay_mint_fee, send_data_request, request, on_burn", "pallet/evm-chain-id/src/lib.rs: set_chain_id"]}
{"id": "C249", "title": "Readers of the XLS-20 pallet's events know its records and its requests", "statement": "Whoever follows the events of the XLS-20 pallet knows at every moment the relayer, the fee and all requests made to the relayer; a request that comes from a mint names exactly the tokens that came into being; a payment is announced exactly if there is a fee and a relayer, and then the named account has paid the announced sum to the relayer; a collection announced as compatible is so and has no tokens. The reader also knows the XLS-20 id of every token and the collection of every XRPL issuer and taxon, and an account named as collection owner in an event is the owner of the collection.", "quantifier": "all histories of XLS-20 calls, deposits and withdrawals of XRPL tokens, and operations of the NFT pallet, from any state (for the tokens of a request: from any reachable state)", "why_tests_cant": "The relayer works from these events alone; the records are written by five calls of three pallets, and a test that looks at the last event of one call does not compare the picture built from all events with the storage.", "anchors": ["pallet/xls20/src/lib.rs: Event, set_relayer, set_xls20_fee, enable_xls20_compatibility, re_request_xls20_mint, fulfill_xls20_mint, set_collection_mappings, pay_xls20_fee, send_xls20_requests, deposit_xls20_token", "pallet/nft/src/lib.rs: mint"]}
{"id": "C250", "title": "Readers of the NFT bridge's events know what came in, what is blocked and what went out", "statement": "Whoever follows the events of the NFT bridge knows at every moment the contract and every record of blocked tokens that can still be reclaimed; an announced record is stored under its number for the receiver; a deposit is announced as done exactly if all of it was processed; every announced withdrawal is one message to the contract with the announced receiver and tokens, and nothing is sent without an announcement. A token announced as minted belongs to the announced owner; every token of a decoded deposit is announced as minted or as blocked; and the reader knows which records have been reclaimed.", "quantifier": "all histories of deposits, withdrawals, reclaims, deliveries, settings and NFT operations, from any state (for owners of minted tokens and for messages: from any reachable state)", "why_tests_cant": "Whether the picture built from the events agrees with the storage depends on all events of a history; the tests of the pallet look for single events after single calls.", "anchors": ["pallet/nft-peg/src/lib.rs: Event, set_contract_address, withdraw, reclaim_blocked_nfts, do_deposit, do_withdrawal, do_reclaim_blocked_nfts, on_event"]}
{"id": "C251", "title": "Pings and pongs over the bridge carry their numbers and are answered once", "statement": "Pings sent from the chain have consecutive numbers, none used twice, whatever arrives in between; the messages handed to the bridge are exactly those announced, in order, with the announced source, destination, number and id, and decode to these at the receiver; a ping from Ethereum is answered at once by one pong with its number to the address it names, unless the bridge refuses. This holds for every number a message can carry, and a pong is announced only for a ping that was sent and not yet answered.", "quantifier": "all histories of ping calls and of messages from any Ethereum contract with any data, and all answers of the bridge", "why_tests_cant": "The tests send one ping each way through a mock bridge that answers at once; numbers over histories, arbitrary data of arbitrary senders and refusals of the bridge are outside of them.", "anchors": ["pallet/echo/src/lib.rs: Event, ping, verify_source, on_event"]}
{"id": "C252", "title": "A refused call is told what is wrong with it, and where", "statement": "When a built-in contract does not accept the arguments of a call, its message says either that there is no selector, or that there are too few words for the arguments, or it names an argument, and within it the item of an array or the component of a tuple, and says what is wrong there; what it says is true of the bytes of the call, it is a fault (data with it mean no arguments at all), and everything that comes before that place is in order. A call is refused only for such a fault, and arguments that are accepted are what the data mean.", "quantifier": "for all lists of argument types, arrays and tuples nested to any depth, all names of arguments, and all call data up to 2^32 - 1 bytes", "why_tests_cant": "the types nest without bound, pointers in the data may lead anywhere, and the first of many faults has to be found in the order of the types, not of the bytes", "anchors": ["evm-precompiles/utils/src/revert.rs: Revert, Backtrace, InjectBacktrace", "evm-precompiles/utils/src/data/mod.rs: EvmData, read_pointer, read_args"]}
{"id": "C253", "title": "The text of a revert can be read back", "statement": "What a contract receives from a built-in contract that reverts is Error(string) in Solidity's encoding, and decoding it gives the text back, for every text. The text of a fault of arguments tells the fault: different places, and different complaints about the same place, have different texts; and components of structures are named by their fields. Arguments are named as in Solidity (camelCase, as the documentation says), and no other text looks like a complaint about an argument.", "quantifier": "for all reverts with places of any depth, names that are identifiers, indices below 2^32 and texts up to 2^32 - 1 bytes", "why_tests_cant": "that no two of infinitely many places and reasons have the same text is not seen from examples", "anchors": ["evm-precompiles/utils/src/revert.rs: Display for Backtrace, RevertReason, Revert; From<Revert> for PrecompileFailure; map_in_tuple_to_field", "evm-precompiles/utils/src/lib.rs: encoded_revert", "evm-precompiles/utils/src/data/mod.rs: read_args"]}
{"id": "C254", "title": "Whoever follows the events of holds knows what is held", "statement": "Adding what the events say was placed and taking off what they say was released or spent gives, for every asset, account and pallet, exactly the amount that is on hold. The events of a call that holds, releases, spends or splits tell all money that it moves, for every asset and account. What a reader believes to be held can be released, whatever else has happened.", "quantifier": "all histories of holds, releases, spends, split transfers, transfers and mints, and their events; for the last sentence also burns by the issuer of an asset", "why_tests_cant": "The reader's book must agree after every history; unit tests compare a few events with expected values.", "anchors": ["pallet/assets-ext/src/lib.rs: place_hold, release_hold, spend_hold, split_transfer, Event"]}
{"id": "C255", "title": "Whoever follows the events of new assets knows all assets, the price of the next and what all have cost", "statement": "The asset numbers announced are, in order, those that the chain gives out, without gaps or repetitions. Every asset that exists was announced. Right after the announcement all roles belong to the account it names. Whoever knows the first price and follows the events knows the price of the next asset and what all accounts together have paid. The initial balance announced is what the creator has of the new asset, and the creator announced is the account that made the asset and paid for it.", "quantifier": "all histories of creating, minting, burning, sending, managing and destroying assets and of setting the price, and their events", "why_tests_cant": "The reader's picture must agree after every history; unit tests compare single events with the arguments of a call.", "anchors": ["pallet/assets-ext/src/lib.rs: create_asset, create, set_asset_deposit, Event::CreateAsset, Event::AssetDepositSet"]}
{"id": "C256", "title": "Whoever follows the events of the maintenance and doughnut pallets knows what is blocked and can foretell refusals", "statement": "After any history of transactions of any kind, nested in any way, the events of the maintenance pallet and the doughnut pallet tell exactly whether maintenance mode is on, which accounts, addresses, calls and pallets are blocked, which holders are trusted and which doughnuts and holders are revoked. Their reader foretells which Ethereum transactions are let in and which calls the lists stop, and that signed transactions are refused while the mode is on or when their sender is blocked, unless for a protected pallet. No event tells that a protected pallet was blocked.", "quantifier": "all histories of signed, Ethereum, XRPL and doughnut transactions with nested calls, and their events", "why_tests_cant": "Tests compare one event with one call; that no path through nested calls changes a table without an event needs all calls.", "anchors": ["pallet/maintenance-mode/src/lib.rs: Event, block_call, block_pallet, block_account, block_evm_target, enable_maintenance_mode", "pallet/doughnut/src/lib.rs: Event, revoke_doughnut, revoke_holder, update_whitelisted_holders"]}
{"id": "C257", "title": "The events of calls made by XRPL messages, doughnuts and with fee preferences tell what ran, for whom, and how it was paid", "statement": "An included XRPL message tells its event exactly if its call ran; the event names the key that signed, the account of the key as which the call ran, and the call whose hash was signed. An included doughnut transaction tells its event exactly if the doughnut passed all checks, with the true result of the call. Without such an event, or with a failed result, only the fee and the nonce change. Each event of fee preferences belongs to a call that asked for it. The XRPL address told belongs to the key that signed, and a transaction told to have named a token for its fee pays with it.", "quantifier": "all states and all XRPL messages, doughnuts and nested calls", "why_tests_cant": "Tests send honest messages, whose fields agree with each other; who may be named by a crafted one, and what nested calls tell, needs all messages.", "anchors": ["pallet/xrpl/src/lib.rs: transact, Event::XRPLExtrinsicExecuted", "pallet/xrpl/src/types.rs: XRPLTransaction", "pallet/doughnut/src/lib.rs: transact, Event::DoughnutCallExecuted", "pallet/fee-proxy/src/lib.rs: call_with_fee_preferences", "pallet/fee-proxy/src/impls.rs: withdraw_fee"]}
{"id": "C258", "title": "Readers of the migration pallet's events know its settings, when storage is being migrated, and how much was done", "statement": "After any history, whoever heard all events of the migration pallet knows whether migrations are enabled, the block delay and the limit of steps. While by the events no migration is going on, no call is refused because of one; while one is going on, every call that needs the migrated storage is refused. The event of the end of a migration is told only when all its steps were made, each once, and it gives their number and the number of items migrated.", "quantifier": "all migrations, all histories of blocks, settings, calls and runtime upgrades", "why_tests_cant": "Tests run one mock migration from start to end; which histories end a migration without an event needs all of them.", "anchors": ["pallet/migration/src/lib.rs: Event, migrate, complete_migration, on_runtime_upgrade, enable_migration, set_block_delay, set_block_limit, ensure_migrated", "primitives/src/migration.rs: MigrationStep"]}
{"id": "C259", "title": "Readers of fee control's events can foretell every fee", "statement": "After any calls by anyone, the last word of the events on the base fee of the EVM, on the share of the weight and on the price of a byte, or the value the chain starts with, is the one in force; with it the fee of every native transaction can be computed before it is sent. As long as root is silent nothing is told and no fee changes.", "quantifier": "all histories of calls, all transactions", "why_tests_cant": "Tests set each value once and look at it; that events and fees never part needs all histories.", "anchors": ["pallet/fee-control/src/lib.rs: Event, set_evm_base_fee, set_weight_multiplier, set_length_multiplier, weight_to_fee, length_to_fee"]}
{"id": "C260", "title": "Readers of the bridge's events know what validators were asked to sign and what waits", "statement": "After any history, the events of the bridge tell exactly the messages validators were asked to sign, in order and with all their parts, whether root paused the bridge, and the numbers of the messages that wait. A change of validators that is announced has a message, sent or waiting, under the number told. Readers also know what the waiting messages say, and whether the bridge is open.", "quantifier": "all histories of pings, withdrawals, reclaims, pauses, validator changes, retries and received events", "why_tests_cant": "Tests compare the events of single calls; that the reader's list of waiting messages stays right needs all interleavings of pauses, changes and retries.", "anchors": ["pallet/ethy/src/impls.rs: do_request_event_proof, send_event, handle_authorities_change, do_finalise_authorities_change", "pallet/ethy/src/lib.rs: Event::{EventSend, ProofDelayed, AuthoritySetChange, BridgeManualPause}, on_idle, set_bridge_paused"]}
{"id": "C261", "title": "Whoever follows the events of a currency knows all balances, and balances are set as asked", "statement": "Whatever programs do with imbalances, whoever knows the balances at first and follows the events of deposits and withdrawals knows every balance; when no imbalance is left, these balances add up to the supply. A balance that is set is what was asked for, or, if the asset does not exist or 128 bits do not suffice, what it was; the imbalance is the difference. Every event tells of a change.", "quantifier": "all programs over the currency interface, all assets, accounts and amounts", "why_tests_cant": "Tests set one account's balance down, up and to what it is; events and imbalances stay together only if every path of every program keeps them together.", "anchors": ["pallet/assets-ext/src/impls.rs: withdraw, deposit_into_existing, deposit_creating, make_free_balance_be", "pallet/assets-ext/src/lib.rs: Event::{InternalWithdraw, InternalDeposit}", "pallet/assets-ext/src/imbalances.rs"]}
{"id": "C262", "title": "Readers of the bridge's events know who may sign for XRPL and which signer lists XRPL was asked for", "statement": "After any history, the events tell exactly which keys root allows to sign for XRPL. An announced change of signers was asked for: the same list for both door accounts, of whom all but one have to sign. The lists XRPL was asked for are those announced: when a failure is announced, nothing was asked for. Readers also know who signs now.", "quantifier": "all histories of sessions, eras, changes of allowed keys, operations of the XRPL bridge and of XRPL", "why_tests_cant": "Tests announce one change with one set of keys; what is announced over all histories of eras and failures cannot be tried out.", "anchors": ["pallet/ethy/src/impls.rs: handle_authorities_change, do_finalise_authorities_change, update_xrpl_notary_keys", "pallet/ethy/src/lib.rs: set_xrpl_door_signers, Event::{XrplDoorSignersSet, XrplAuthoritySetChange, XrplAuthoritySetChangeRequestFailed}", "pallet/xrpl-bridge/src/lib.rs: submit_signer_list_set_request"]}
{"id": "C263", "title": "Renaming or moving a stored value in a migration says what it did and loses nothing", "statement": "The helpers with which migrations rename a stored value, move it to another pallet or clear it answer whether there was such a value. If they answer true, the value is under its new name only (or gone, for clearing) and nothing else changes; if they answer false, nothing changes. A value of another size is answered with false.", "quantifier": "all stores, names of pallets and items, types and values", "why_tests_cant": "Tests rename and move one value; whether every value survives depends on all sizes, all names, equal ones included, and on what else is stored below them.", "anchors": ["runtime/src/migrations/mod.rs: Value::unsafe_storage_rename, Value::unsafe_storage_move, Value::unsafe_clear, Value::unsafe_storage_get, Value::unsafe_storage_put"]}
{"id": "C264", "title": "Renaming or moving a stored map in a migration takes all its entries", "statement": "The helpers with which migrations rename a stored map or move it to another pallet take all its entries along, also those that cannot be decoded, leave nothing under the old name and touch nothing else; if they answer false, nothing changes and there was nothing to take. Afterwards the map under the new name is the map as it was. The keys that are read are those of the entries that can be decoded.", "quantifier": "all stores, names, types of keys and values and sets of entries", "why_tests_cant": "The test for maps is commented out in the code; the claim is about any number of entries, decodable or not, under both names.", "anchors": ["runtime/src/migrations/mod.rs: Map::unsafe_storage_rename, Map::unsafe_storage_move, Map::unsafe_exists, Map::unsafe_keys_get, Map::unsafe_storage_get, Map::unsafe_storage_take"]}
{"id": "C265", "title": "The selectors computed from a Solidity interface are those of its functions", "statement": "From the text of a Solidity interface, the reader that computes selectors finds exactly the declared functions, in order, each with the signature Solidity gives it (enums as uint8, structs as the tuple of their fields, arrays kept) and with the selector that was written in the comment above it, wherever lines are broken and comments put.", "quantifier": "all interfaces with any number of enums, structs, functions and arguments, nested types, layouts and comments", "why_tests_cant": "The test reads one file; interfaces can nest types to any depth and be written in many ways.", "anchors": ["evm-precompiles/utils/src/solidity.rs: get_selectors, get_selectors_from_reader, try_lookup_custom_type, SolidityFunction::signature, SolidityStruct::signature"]}
{"id": "C266", "title": "Whoever stakes more is considered first in elections", "statement": "The list of voters from which elections are held has everyone in it once, and voters with more stake come before voters with less, so that if there is not room for all, those with the least stake are left out.", "quantifier": "all lists of voters, stakes, orders of registration and amounts of room", "why_tests_cant": "The order depends on all stakes and thresholds; no finite set of voters shows that nobody with more stake is ever left out for somebody with less.", "anchors": ["runtime/src/bag_thresholds.rs: THRESHOLDS", "runtime/src/lib.rs: BagThresholds, MaxElectingVoters, pallet_bags_list::Config, pallet_staking::Config"]}
{"id": "C267", "title": "A validator signs with the key the chain expects of them", "statement": "From its start on, through all changes of validators and of the keys in its keystore, a node that holds a key of the present validators votes exactly once, with such a key and under the number of the present validators, on each bridge request of each finalised block, and the signature is over what the other chain checks. It never votes with a key of an earlier or later set of validators, keys that the present validators do not have make no difference, and a node without a key of theirs never votes. Every validator whose key is on some node votes.", "quantifier": "all sequences of finalised blocks, validator sets, announcements of changes, contents of the keystore at each block and requests", "why_tests_cant": "tests start one node with one key and a fixed set of validators; rotation of keys over changes of sets, several keys on a node, and states that cannot be read need all histories", "anchors": ["ethy-gadget/src/keystore.rs: authority_id, sign_prehashed", "ethy-gadget/src/worker.rs: handle_finality_notification, handle_finality_notification_active, handle_finality_notification_passive", "ethy-gadget/src/types.rs: data_to_digest"]}
{"id": "C268", "title": "A node does for the bridges what its flags say", "statement": "Whatever was run on a machine before, a validator that is started with an address for Ethereum asks that address and no other until it is stopped; it votes on bridge requests if the protocol of the votes is on, and never if it is off; a node that is not started as a validator asks nobody and never votes, whatever keys are on its disk. A node that is started without an address asks nobody, the address given for the XRP Ledger is used, and after removal of the chain nothing of it is left.", "quantifier": "all histories of starting, stopping, importing blocks and removing the chain, all flags, keys and requests", "why_tests_cant": "tests use one run of a node with a fresh disk; what stays on the disk from earlier runs needs all histories", "anchors": ["client/src/service.rs: new_full, frontier_database_dir", "client/src/cli.rs: RunCmd", "client/src/command.rs: run", "pallet/ethy/src/lib.rs: offchain_worker", "pallet/ethy/src/ethereum_http_cli.rs: query_eth_client"]}
{"id": "C269", "title": "A proof is made as soon as there are enough signatures", "statement": "A node that follows the bridge makes the proof of an event at the moment at which it knows the request and holds genuine signatures of as many present validators as the chain needs, in whatever order the request and the votes came and whatever false votes came between; no known request is left waiting with enough signatures.", "quantifier": "all histories of requests, votes (genuine, false, repeated) and changes of validators with positive thresholds; all validator sets; both chains", "why_tests_cant": "a bridge transfer stuck with enough signatures shows only for particular orders of request and votes; tests try one or two orders", "anchors": ["ethy-gadget/src/worker.rs: try_make_proof, handle_witness, handle_finality_notification_active, handle_finality_notification_passive", "ethy-gadget/src/witness_record.rs: has_consensus, process_unverified_witnesses, note_event_witness, set_validators"]}
