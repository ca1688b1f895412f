# Formal model of trn-seed: design

The model is written in Lean 4 (4.33.0, with Mathlib for finite sums, order and arithmetic
tactics). It lives in `lean/Verif/`. The source it models is the pinned checkout in `/repo`;
every definition cites file and lines.

## Trusted base

* Lean's kernel.
* The axioms a theorem depends on. Only `propext`, `Classical.choice` and `Quot.sound` are
  allowed; no axiom is declared in this project. No `sorry`, `admit`, `native_decide` or
  `bv_decide` is used.
* The reading of the Rust code: the code is not executed here. The tie between a model
  definition and the code is the citation in its comment.
* Substrate/FRAME itself, modelled by its contract: a dispatchable that returns an error
  changes no storage (storage layers); hooks are not transactional; a storage map is a
  function from keys; a signed origin is the account id of the caller. Account ids, asset ids
  and so on are `Nat`. Hashes and signatures are abstract (equality of inputs or a boolean
  "verifies").
* `pallet-assets`, `pallet-balances`, `pallet-proxy` and `pallet-session` are dependencies whose
  source is not in `/repo`. They are modelled by a small ledger (`Verif/Ledger.lean`): balances,
  issuance, transfer/mint/burn that fail on insufficient balance or on u128 overflow of the
  issuance. Existential deposits, account freezing and reference counting are not modelled,
  except where a comment says so.

## Conventions

* u32/u64/u128/U256 values are `Nat` with explicit bound checks where the code has checked
  arithmetic, explicit `min` where it saturates, explicit error where it panics.
* `Except Err α` is a dispatch result. `Err` names the Rust error.
* One directory (namespace) per pallet: `Model` (definitions with citations), `Lemmas`
  (helpers), `Props` (the property theorems with a small specification and non-vacuity
  examples). `Verif/Base*.lean` holds the shared vocabulary.
* `TotalIs f n` ("the finitely supported function `f` sums to `n`") is the specification
  vocabulary for sums over all accounts.
* Where the English property is false of the code, the negation is proved with a concrete
  reachable witness (theorem suffix `_refuted`) and the true part is proved under the extra
  hypothesis (theorem suffix `_partial`); both are listed in `MANIFEST.json`.

## Plan per property

| Property | Modelled | How proved |
|---|---|---|
| C01 | `Dex`: `getAmountOut`, `getAmountIn`, `swap` loop with K check | invariant along the path loop; product inequality from the K check |
| C02, C03 | `Dex`: `swapWithExactSupply/Target`, `amountsOut/In` | induction over the path; ledger frame lemmas |
| C04 | `Dex`: quote functions | division inequalities over `Nat` |
| C05, C06 | `Dex`: `addLiquidity`, `removeLiquidity` | cross-multiplied inequalities |
| C07, C08, C09 | `Dex` state machine `step` over op lists | induction over histories, `TotalIs` |
| C10 | `Dex` | case analysis of each entry point |
| C11 | `Dex.mintFee` | arithmetic law (partial) and a refuting history |
| C61 | `Dex` | inversion of the liquidity operations |
| C12–C16, C62–C65, C67 | `Ethy`: claims, schedules, challenges, notarizations, pruning, bonds | inductive invariants over histories; refuting histories where false |
| C68, C69 | `EthCall`: oracle requests and votes | tally invariant; refuting history |
| C17, C18, C66 | `EthyProof`: proof-id allocation, pending queue, idle drain, handover | partition invariant; measure for draining |
| C19–C21, C70–C72 | `Witness`: record with completed list and compaction, proof making of the worker | invariants over op lists |
| C22–C26 | `Nft`: collection record with per-owner serial lists | invariants over op lists; refuting history for repeated serials |
| C27 | `Nft.nextAssetUuid`, `nextUuid`: bit-packing of ids | arithmetic on shifts, invariant |
| C54, C73–C75 | `Nft`: approvals of the ERC-721 contract, public mint fee, switches, owner calls | history invariants, case analysis of all operations |
| C28, C29, C76–C78 | `Sft`: balance lists per token, ERC-1155 operators, public mint | invariants over op lists; exact effect of batches by induction on the batch |
| C30–C33, C80–C82, C84, C85 | `Market`: listings, bids, offers, closing, on top of `Nft`, `Sft` and `Holds` | invariants (locks, money held, schedule) by induction over histories; exact effects; refuting histories |
| C83 | `Sft` | case analysis over all calls |
| C34, C35, C79 | `Holds`: sorted hold lists and the holding account | invariants with `TotalIs`; refuting history for issuer burns |
| C36–C38, C86 | `Erc20Peg`: deposits, withdrawals, delays, ready blocks, idle processing, claims | ghost records of deposits and sent messages; schedule invariants; draining measure; refuting history for a zero delay |
| C39–C43, C88, C89 | `Xrpl`: submissions, challenges, crediting, pruning, withdrawals, amount conversion, tickets, delayed withdrawals | history invariants (hash book-keeping, schedule, tickets); measure for progress; digit arithmetic; exact effects; refuting histories |
| C44–C47, C90–C93 | `Vortex`: distributions, order book in key order, resumable payout loop, redemption | history invariants, sums over all distributions, loop induction, termination measure, rounding law; refuting histories |
| C48–C51, C94–C97 | `Crowdsale` | whole pallet with the multi-currency ledger and the minting side of the NFT pallet as environment; sums of floored shares against what the vault keeps; invariant per sale and stage; schedule invariant and its negation for zero duration; refuting histories |
| C52, C53, C98–C106 | `Futurepass` | the pallet, both precompiles' management calls, the proxy filters of the runtime and DELEGATECALL through contracts; the lists and deposits of `pallet-proxy`, batches and native transfers by their contract; invariant over all histories linking holders, owner-level entries and deposits; decision logic for who may manage, by induction over nested calls; refuting histories. Not modelled: announcements and delays, pure proxies, root calls, dust removal, saturation of deposits at 2^128, gas and the nesting limit |
| C55, C87 | `Erc20`: the ERC-20 interface with allowances, on top of the ledger | sums over histories |
| C56, C107–C115 | `EvmMoney`: wei/drop scaling, EVM transfers and fees, fee imbalances, the fee pot, fee preferences on top of `Dex`, ordinary transaction fees; the EVM interpreter by the list of payments and gas it uses | arithmetic; invariant over histories (supply = balances + outstanding imbalance) with the exchange's own invariant carried through nested swaps; exact effects; refuting histories |
| C57, C59, C116–C126, C134 | `Entry`: signed extrinsics, Ethereum transactions, XRPL messages and doughnuts up to the point where a call runs; the call filter, maintenance mode and block lists; nested calls (batch, sudo, proxy, fee proxy, EVM calls and precompiles); nonces and inclusion fees. What a pallet does with its call is a log entry; signatures, hashes, fees and permission checks are arbitrary functions. Not modelled: weights, mortality, multisig, scheduled and recovered calls, the transaction pool's own checks | induction over nested calls; invariants over histories (block lists, futurepass links, nonces); inversion of the checks; refuting histories |
| C58, C129–C133 | `Xls20`: the XLS-20 pallet and NFT withdrawals of the XRPL bridge on top of `Nft`, with the custody of the door account and the open sell offers; token ids as 256-bit numbers | invariant over histories of pallet and XRP ledger; exact effects; arithmetic on token ids; refuting histories |
| C135–C138 | `Migration`: the multi-block migration pallet for an arbitrary implementation of `MigrationStep` on an arbitrary storage type; blocks, root settings, guarded calls of other pallets and runtime upgrades. Not modelled: events, database weights of early returns | a separate specification of carrying out the steps in one go; induction over the loop and over histories; refuting histories |
| C60, C127, C128 | `NftPeg`: the ERC-721 bridge pallet on top of `Nft`, with the custody of the Ethereum contract and the undelivered messages. ABI decoding by the values it yields | invariant over histories of pallet and contract; exact effects; refuting histories |
| C139–C141 | `Nfi`: the NFI pallet on top of `Nft` and `Sft` (one shared ledger), with their hooks for minting, creating and burning, and the EVM chain id set by root. There is one kind of data (`NFISubType` has one variant); the data itself is a number | invariant over histories; exact effects; refuting histories |
| C142 | `NfiUpgrade`: `runtime/src/migrations/nfi.rs` on raw storage keys (the part after the map's prefix), for an arbitrary 8-byte hash; the loop over `next_key` while it writes to the same map. Storage before the upgrade holds old keys only | the keys the loop can meet form a finite set closed under its writes; induction over the remaining ones; a refuting hash |
| C143–C148 | `Callback`: the ERC-721, ERC-1155 and marketplace precompiles called by arbitrary contracts, on top of `Market`: a transaction is the tree of calls its contracts make, with the answers of receivers; receiver callbacks in the middle of a transfer, the nesting check per address, panics. Not modelled: gas, call depth, contracts created during the transaction | induction over call trees with the invariants of `Market`; refuting transactions |
| C149–C151 | `Precompile`: the addresses of the built-in contracts, how a call finds one, the recursion levels and the DELEGATECALL rule; a transaction is a tree of calls, with events for entering and leaving | arithmetic on addresses against a table of addresses; induction over call trees; refuting transactions |
| C152–C158 | `DexEvm`: the exchange precompile on top of `Dex`: the value moved by the EVM, function modifiers, range checks, token addresses, all fifteen functions and what they answer. Not modelled: gas, logs, byte encoding | inversion of calls into exchange operations, with the exchange's theorems; induction over later histories; refuting calls |
| C159–C163 | `Abi`: the argument reader and answer writer of the precompiles, byte for byte, for every type built from their `EvmData` instances; `usize` of 32 bits (wasm). Not modelled: revert messages | the ABI of Solidity as a separate specification (head/tail layout, and the meaning of arbitrary call data); induction over types and lists; a refuting family of calls |
| C164–C169 | `Gossip`: the gossip validator of the Ethy gadget, its queue and the worker's record (on `Witness`); `Gossip.Finality`: the worker's passage through finalised blocks, with restarts and a stack. Not modelled: the gossip engine's suppression of identical bytes, time | invariants over all operations; a suppression invariant preserved by every later history; induction over block numbers; refutations for every later history, every stack size, every number of messages |
| C170–C173 | `Sign`: the three ways a signature is verified, the bytes of a transaction that are signed, a futurepass delegate's consent. Hashes and key recovery are parameters; unforgeability is a hypothesis. Not modelled: SCALE encoding of call arguments (a byte string), signature malleability | case analysis of string formats; collisions are exhibited as an alternative |
| C174–C176 | `MarketEvm`: the marketplace contract on top of `Market`: arguments to pallet calls, modifiers, reports. Spec: `Means` (a relation from contract calls to pallet calls), `Later` (any later history). Not modelled: gas, logs, byte encoding (see `Abi`) | an equivalence by case analysis; a frame argument over all operations for offers that are dead for ever; a success theorem for accepting; refuting pairs of states |
| C177–C180 | `Notary`: the off-chain worker of a validator (impls.rs 149-181, 232-541; lib.rs 672-710): which challenge it looks at, its questions to an Ethereum node and its vote; reading a claim from event data; requested Ethereum calls. The Ethereum node is an arbitrary record of functions; event data are bytes in the Solidity encoding of `Abi`; votes go to the chain modelled in `Ethy`. Not modelled: HTTP and JSON, signing and sending of votes, off-chain storage, that hashes and topics are keccak values (the topic constant is of an older event signature, lib.rs 94-98) | Inversion of the decision function; positions of fields in the encoding give injectivity and the mismatch of formats; invariant over bridge histories with honest and arbitrary votes; concrete histories for the refutations, the blocked queue for all continuations |
| C181–C185 | `Outbound`: messages between the pallets and Ethereum, byte for byte: requests and their digests (ethy types.rs 147-210), `send_event`, delayed requests, handover messages, the messages of ERC-20 peg, NFT peg and echo pallet, the event router and the decoding of deposits; the pegs themselves are the models `Erc20Peg` and `NftPeg`. `keccak` is an arbitrary function. Not modelled: XRPL requests (`EthyProof`, `Xrpl`), the contracts on Ethereum (a package is what a contract that checks digest and number accepts), `ethabi` beyond its documented encoding, that an error inside an event leaves earlier writes of the same event | Injectivity of the encoding (from `Abi`); invariant tying requests, sent or waiting, to a record of what was said, as multisets; embedding of the peg's histories for the money bound; exact lengths for the capacity statements |
| C186–C194 | `Evm721`, `Evm1155`: the contracts of NFT and SFT collections (evm-precompiles/erc721, erc1155, nft, sft): check of static calls and value, arguments of 256 bits, every function that reads or changes owners, balances, approvals, supplies, owner, minting and maximum supplies, the logs, and the panics; the pallets are the models `Nft` and `Sft`. The standards are written down separately (`Spec.lean`) as what a call may do to an abstract token and what a listener makes of a log. Not modelled: names, URIs and metadata, gas, the callbacks (`Callback`; a delivery by a safe transfer is an event) | Refinement: every successful call is one of the standard on the abstraction of the state; induction over histories for the logs; case analysis of every path for panics |
| C195–C197 | `Door`: the notaries allowed to sign for XRPL, the handover of both door accounts (request, comparison with the current keys, pause, delayed requests, scheduled completion, `set_xrpl_door_signers`), joined with the whole XRPL bridge of `Xrpl`; XRPL itself (signer lists, quorum, tickets, multi-signing) as documented. Not modelled: block numbers within a session, proof ids, the delay until nodes learn new signers, other keys of the door accounts, whether a payment that is carried out succeeds. | Two invariants by induction over joint histories: one for arbitrary signatures with few bad signers, one for orderly handovers. Refutations: histories followed by any number of unchanged eras, for which an era is shown to be the identity. |
| C198–C199, C191 | `Evm20`: the whole `execute` of the ERC-20 precompile with value, static calls, answers and logs over assets with minimum balance, dust and locks as in `pallet-assets` and `pallet-balances` (dependencies, behaviour as documented there), the calls of `token-approvals` behind it, and mint, burn, create and transfer of `assets-ext`. Not modelled: name, symbol, decimals, gas, decoding (`Abi`). | A small EIP-20 specification; every successful call refines it; which calls succeed; totals by invariant over histories; logs by induction over histories; refutations by execution |
| C200–C201 | `Dex/Live`, `EvmMoney/Admit`: quotes and trades of `Dex` as before; `transaction_asset_check` of the runtime on top of `EvmMoney`. Not modelled: the checks pallet-ethereum makes of every transaction; `decode_input` is a parameter. | Every check of a hop follows from the inequality a quote meets, which does not depend on donations; induction over the path with the pairs still to come unchanged; admission and execution share the quote |
| C202 | `Dex/LiveProps`: withdrawals of `Dex` as before | The share is at most the pool's balance because liquidity tokens of one account are at most the issuance; each check follows |
| C203–C204 | `PegEvm`: the bridge's contract on top of the pegs and messages of `Outbound`, with its logs. Not modelled: gas; arguments are decoded (see `Abi`). | Contract calls are chain steps, so reachable worlds are reachable chains of `Outbound`; a log is tied to the act recorded under its number, which only packages with that act can carry; old numbers are below new ones |
| C205 | `Static`: static calls of futurepasses and the registrar on top of `Futurepass`; the other contracts as in `MarketEvm`, `Evm20`, `PegEvm`. Not modelled: value sent along by `proxyCall`; that calls inherit being static is taken from the EVM (a dependency). | Case analysis over functions; the futurepass case is refuted by a transfer of ownership |
| C206 | `Fees`: the fee-control pallet (setters, `weight_to_fee`, `length_to_fee`) and the fee of pallet-transaction-payment as configured (dependency, by its contract). Not modelled: the update of the fee adjustment between blocks (any number). | Arithmetic: rounding as one division; wrap-around by a reachable witness. |
| C207–C208 | `ProofRpc`: the node's RPC for proofs (`get_event_proof`, `get_xrpl_tx_proof`, subscription), the storage of proofs and the worker's change of sets, on top of `Witness`. Not modelled: SCALE encoding of stored proofs, conversion of keys and signatures (opaque), gossip before a node's first block. | Invariant over histories: signatures are by the validators at their indices in the set held, which is the set of the block that asked; at most one proof per event from the invariant of C19. Witnesses for the refutations. |
| C209 | `Vortex.Settings`: the settings of a distribution, on the model of C44–C47. | Exact effects by inversion of each call; the period by induction over histories; a concrete history for the refutation. |
| C210 | `Gas/Model`: for each function of a built-in contract that changes state, the log cost it records and the logs it emits, with the lengths of its arrays as parameters. Not modelled: the memory and call costs of the EVM. | Comparison with the EVM's price of logs, an equivalence with the list of calls that pay too little; growth of the difference for batches |
| C211 | `Gas/Model`: `try_dispatch`, payment before the work, work without payment; a call as charges and tasks of any declared and actual weight, repeated calls. Not modelled: proof sizes, the calls futurepasses pass on. | Induction over the tasks of a call; refutation by repeated failing approvals (any weight, any number) and by the creation of SFT tokens |
| C212 | `Xrpl/Blocks`, on the model of C39-C43: the lists of due and settled deposits with their limits; the `expect` in `process_xrp_tx` is an error of the block. | Invariant over histories; induction over the deposits due; refutation by a family of histories, one for each limit, that fills a ledger block by block |
| C213 | `Xrpl/Blocks`: `submit_transaction` and `prune_settled_ledger_index`. | Decision logic: equivalences |
| C214 | `Uri`: `construct_token_uri` with UTF-8 validity (RFC 3629) and decimal text, `token_uri` of both pallets, `set_base_uri`, the getters of the contracts. Not modelled: permissions to mint, supplies, fees (other modules). | Induction over digits with a left inverse (the number a text stands for); refutations by histories |
| C215 | `Uri`: the operations on collections, and what relayers are told (`Xls20MintRequest`) as a ghost list. Not modelled: the mapping of tokens to XRPL tokens (C64-C66), the queue of requests. | Invariant over histories |
| C216 | `Uri`: deposits of `nft-peg` and `xls20` with the texts they make. Addresses are twenty bytes; issuers are numbers. | Injectivity of hexadecimal and decimal text; invariant; refutation by a history |
| C217 | `Imbalance`: the type and its operations; `withdraw`, `deposit_into_existing`, `deposit_creating` of `AssetCurrency` over balances of pallet-assets. A program is a list of operations on the imbalances it holds. Not modelled: the native asset, frozen accounts, `make_free_balance_be` (a withdrawal or a deposit). | Invariant over programs; refutations by programs |
| C218 | `Text`: `get_extrinsic_data`, with `hex::decode`, `u32`/`u64` `from_str`, `split(':')` and UTF-8 as total functions on bytes. Not modelled: the XML-like envelope around memos, which the XRPL libraries read. | Equivalence with an inductive grammar |
| C219 | `Text`: `WrappedBalance` as JSON, numbers as serde_json gives them, slicing with its panics. Not modelled: the text of JSON itself. | Case analysis; refutations by requests |
| C220 | `Text`: `Bytes` as JSON, `eth_call` on an answer, how blocks are asked for. Not modelled: HTTP, other kinds of answers. | Induction on texts; refutations by answers |
| C221 | `Xrpl`: `set_ticket_sequence_next_allocation`, `set_ticket_sequence_current_allocation`, `get_door_ticket_sequence` and all that use it, with a history of operations. Not modelled: the event that asks relayers for more tickets. | Invariant over runs; refutation by a run |
| C222 | `Xrpl.Reset`: `reset_settled_xrpl_tx_data` on top of all operations of `Xrpl`. | Invariant of C39 extended by resets; refutation by a history |
| C223 | `Asset`: the calls of assets-ext on those of pallet-assets (roles, metadata, destruction), with the balances of `Evm20` and the native token free and reserved. Not modelled: freezing, approvals, `force_*` calls of root. | One relation `Change` that every step satisfies, inverted per claim; invariant of what is reserved; injectivity of numbers |
| C224 | `Asset`, as C223. | Induction over histories; refutation by a history |
| C225 | `Asset`, as C223. | Invariant: reserved = paid for creations + metadata of assets owned; refutation by a history |
| C226 | `Xls20.Guard`: the operations of `Xls20` while `migrating` is set. | Cases over all operations; induction over histories during the migration |
| C227 | `Era`: the hooks of the Ethereum bridge for sessions, its `on_initialize`, the runtime's test for the last session of an era, and as much of `pallet-session` and `pallet-staking` (dependencies) as decides which validators serve when. Not modelled: how validators are elected (any outcome), how long a session is (any length), XRPL. | One invariant of the phase of a handover for histories without forcing; witnesses with the runtime's constants and full sessions for the rest. |
| C228 | `Era`: as C227, with the messages requested for Ethereum and the sets that took effect. Not modelled: the signatures (see C01 ff.). | Invariant for histories without forcing; induction over all histories for the numbers; witnesses. |
| C229 | `Era`: as C227, with the flag that pauses the bridge. Not modelled: pauses by root (see `Ethy`). | From the invariant; witnesses. |
| C230 | `Wide` on top of `Evm721`, `Evm1155`, `MarketEvm`, `DexEvm`, `PegEvm`, `Evm20`. Not modelled: the decoding of arguments (`Abi`), names and paths. | A specification lists per function which arguments fit; cases over all functions; witnesses for what is cut. |
| C231 | `Erc20Peg/Settings`, `Nfi/Settings`, `Xls20/Settings`, `Market/Settings`, `Xrpl/Settings` on top of the models of these pallets. Not modelled: who counts as root. | A specification folds root's calls into settings, without the model; frame lemmas for every function, then induction over histories. |
| C232 | `Market/Model`, `Market/Story`: the index `OpenCollectionListings` as a field of the marketplace's state, written where `do_sell`, `do_auction` and `remove_listing` write it. Not modelled: an overflow of the listing counter. | Invariant over all operations, closings in a block by induction over the list |
| C233 | `Market/Log`, `Market/Story`, `Market/Events`: the events every operation deposits; a reader who folds them; what the storage says. Not modelled: the order relative to other pallets' events. | Refinement: each operation's events take the old picture to the new one; for all histories a simulation up to ended auctions; endings by the exact effects of closing; counterexample by evaluation |
| C234 | `Nft/Log`: the events of every call of the NFT pallet as a function of the state it finds, and histories with their logs. Specification in `Nft/Story`: what a reader makes of each event, and the picture the storage gives. Not modelled: names and metadata, `MintFeePaid`; the events of the pegs themselves, from which a withdrawal could be learnt. | induction over histories with the ownership invariants; a frame lemma per event; refuted by two pairs of histories with the same events and different owners |
| C235 | `Sft/Log`: the events of every call of the SFT pallet as a function of the state it finds, and histories with their logs. Specification in `Sft/Story`: what a reader makes of each event, and the picture the storage gives. Not modelled: names and metadata, `MintFeePaid`. | induction over histories with the invariant of token records; effects of batches |
| C236 | `Dex/Log`: the event of every operation of the exchange as a function of the state it finds, and histories with their logs. Specification in `Dex/Story`: what a reader makes of each event, and the picture the storage gives. Events of other pallets are left out. | induction over histories with the invariant of the exchange |
| C237 | As C236. | the sum of the events as a lower bound, exact where pools are paid by nobody; refuted by pairs of concrete histories with equal events |
| C238 | `Futurepass/Model` records the events. Specification in `Futurepass/Story`: what a reader makes of each event. The events of calls run as somebody else (`ProxyExecuted`) tell nothing more. | induction over histories, by elementary changes |
| C239 | The models of the bridges and of migrations; specification `said`, root's word, in each `Settings`. | the settings in force as a fold of root's calls, by induction over histories |
| C240 | Crowdsale/Story.lean: a reader's page per sale, folded over the events of the model; the storage as the same kind of page | Induction over histories: each operation's change of the sale record equals the reading of its events; refuted for failed sales by a history that fills the queue |
| C241 | Vortex/Worker.lean: the off-chain worker, `validate_unsigned`, a pool that keeps one call per tag, and blocks that empty the pool | A measure (payout calls still needed, blocks until the next may be sent) falls with every block; refuted by an invariant of the spammed chain: the workers' time never comes |
| C242 | Crowdsale/Worker.lean: the off-chain worker, `NextUnsignedAt` and the pool | A measure over the queue up to the sale falls with every block, whatever calls it contains |
| C243 | Precompile/Code.lean: `on_asset_create` and its three callers, the code map of pallet-evm, forced creation and destruction of assets, deployment and self-destruction of contracts | Invariant over histories: tokens that exist have code unless they are of the genesis block or forced; code of tokens survives every step. Refuted by an invariant for assets with small numbers |
| C244 | Erc20Peg/Story.lean: the events of deposits, withdrawals, delayed payments and failures, as functions of the state and the operation | A relation `Told` between a change of state and a list of events, closed under composition; shown for every function of the pallet and by induction over histories. Refuted by two histories with equal events |
| C245 | Xrpl/Story.lean: the events of deposits and withdrawals as functions of state and operation | relation between state change and events, closed under composition, over all histories; order by splitting the story; two witnesses for silence |
| C246 | Vortex/Story.lean: all events of the pallet as functions of the state before and after a call; the page a reader keeps | induction over histories: following the events is the view of the state; payout loop invariant for amounts; three refutations |
| C247 | Ethy/Story.lean: the events of claims, challenges, bonds and relayers as functions of state and operation; the page a reader keeps | invariant on claim records, loop induction and induction over histories: following the events is the view of the state; inversion of verdicts for the money; two refutations |
| C248 | Nfi/Story.lean: the events of the NFI pallet and of the chain id as functions of state and operation; the page a reader keeps | induction over histories: following the events is the view of the state; shape of the events of a call for kinds and fees; witness for empty removals |
| C249 | Xls20/Story.lean: the events of the XLS-20 pallet as functions of state and operation; the page a reader keeps | induction over histories: following the events is the view of the state, in full without deposits and for relayer, fee and requests with them; C24 for the tokens of a request; witnesses for deposits and for the named owner |
| C250 | NftPeg/Story.lean: the events of the NFT bridge as functions of state and operation; the page a reader keeps | induction over histories and over the groups of a deposit: stored records are on the page; invariant of C60 for owners of minted tokens; C128 and C60 for messages; witnesses for large ids, lost tokens and reclaimed records |
| C251 | Echo/Model.lean: calls, messages as bytes, events; the bridge's answers are inputs | induction over histories for numbers and messages; round trip of three ABI words; shape of the events of a message; witnesses for large numbers and unasked pongs |
| C252 | Blame/Model.lean: the reader of Abi with reasons and places of its failures | mutual induction over types: what is read means the data, and each failure satisfies a specification of faults; faults exclude any meaning |
| C253 | Blame/Model.lean: texts of places and reasons, encoding of reverts, names of arguments | unique reading of texts by induction over paths; round trip by C159 and C160; witnesses for names of arguments and made-up texts |
| C254 | Holds/Story.lean: the events of holds and a reader that adds and takes off | induction over histories with the invariant of C34; balances by cases of the call; the burning issuer as witness |
| C255 | Asset/Story.lean: the events of assets-ext about new assets and readers of numbers, prices and costs | induction over histories by three kinds of calls; numbers by C27; two histories with equal events as witness |
| C256 | Entry/Story.lean: the events of the maintenance and doughnut pallets, read off the calls that ran, and a reader of them | invariant over histories, by induction over nested calls |
| C257 | Entry/Wrapped.lean: events of XRPL messages, doughnuts and fee preferences, mirrored from the entry points | inversion of the entry points; induction over nested calls; a family of messages by one key with arbitrary addresses and a batch as witnesses |
| C258 | Migration/Story.lean: the events of the migration pallet, for any migration | a reader as a fold, by induction over histories; the end via C135; two histories with equal events, and the demonstration migration, as witnesses |
| C259 | Fees/Story.lean: the events of fee control | the last word of the events as an invariant, by induction over histories |
| C260 | Outbound/Story.lean: the events of messages to Ethereum | what the reader keeps as an invariant, by induction over histories; two pairs of histories with equal events refute the last sentence |
| C261 | Imbalance/Story.lean: the events of AssetCurrency and make_free_balance_be | what the reader keeps equals the balances, by induction over programs; supply from the books of C217; setting by cases |
| C262 | Door/Story.lean: the events about the signers of the door accounts | each operation adds the requests its events tell of, by induction over histories; two histories refute the rest |
| C263 | `Value` of runtime/src/migrations/mod.rs over a store of bytes, with the functions of frame_support it calls (`take`, `move_prefix`, `move_storage_from_pallet`, `clear_storage_prefix`); types are any codec that reads from the front; the hash of names is any function to sixteen bytes | case analysis for renaming; `movePrefix_spec` by induction on the keys gives every key's value after a move; refuted for longer values and for moves within a pallet |
| C264 | `Map` of the same file, over the same store; hashers are any function from hashed keys to keys | membership in the entries read; `movePrefix_spec`; refuted for maps without decodable entries and for names that had entries |
| C265 | the state machine of evm-precompiles/utils/src/solidity.rs over lines and words; letters of words and the hash of signatures are left out; words are taken to be separated as the reader expects (a brace stands alone, no tabs inside lines) | a small grammar of interfaces and Solidity's signatures of types as specification; induction on items, fields and arguments with an invariant on the table of custom types; refuted for five legal ways of writing |
| C266 | the 200 thresholds of runtime/src/bag_thresholds.rs as they are; the bag of a stake and the order of the list by the documentation of pallet-bags-list | the steps between thresholds checked by the kernel; for every stake a threshold close above it by induction on the thresholds; sublist arguments for the order; refuted below the first threshold and within bags |
| C267 | keystore.rs `authority_id`, `sign_prehashed`; the changes of validators of the pallet; of worker.rs what the node learns of the validators at each block and the votes it makes; signatures are pairs of key and digest | induction over the blocks: the validators the node goes by are those of the chain; the choice of the key by the characterisation of `find?`; refuted for several keys on a node and for an answer that is missed |
| C268 | what service.rs `new_full`, the flags of cli.rs and `purge-chain` do to the disk of a node, and whom the offchain worker and the bridge gadget then ask and sign for | induction over histories of runs: the stored address is the last given since the chain was removed; flags of the present run decide the rest; refuted for runs without an address, the XRP address and the Ethereum index |
| C269 | the record of signatures and the attempts to make a proof of `Verif.Witness` (witness_record.rs, worker.rs) | invariant over steps without a change of validators: no known request has enough signatures; for single steps after any history, stored votes are recorded when the request comes and the last vote or the request makes the proof; by induction over histories no delivered vote is lost, so that delivery of the request and enough votes in any order makes the proof; refuted across a change that lowers the threshold |

## Wrong programs tried

`seeded/LOG.jsonl` has one line per edit of the model. It is not a clean sweep, and these are its limits.

* 90 of 2348 lines have an empty `failed`: no theorem noticed the edit when it was run.
* 77 of those come from two automatic sweeps, which dropped every check and every update of some
  models. They were left out of the log at first and added at its end from the saved outputs.
* For some of these 77 a property was strengthened later, and the edit is then logged again in other
  words. The others were not run again. Many drop a bound of a Rust type or a full list, but not all:
  among them are setters whose dropped update no theorem noticed (delays and switches of the ERC-20
  peg, keys of notaries, the owner and maximum of a collection in the crowdsale model).
* A line with a non-empty `failed` says that some declaration no longer compiled. In 1653 lines no
  property theorem is among them, only lemmas or examples; in 19 lines only examples are. A failing
  lemma may only mean that its proof follows the shape of the code.
* Some edits were built against one module rather than the whole model, so `failed` can be incomplete.
* Edits that did not compile in the model itself were discarded and are not logged.

## Not modelled

EVM bytecode execution (the argument encoding of the precompiles is modelled in `Abi` only; the
other models take decoded arguments), weights and fees other than those named above,
networking other than the gossip validator of bridge votes, off-chain HTTP calls, XRPL binary serialization, session/staking
internals, past storage migrations that the runtime no longer runs.
