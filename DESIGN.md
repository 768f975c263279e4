# Formal model of `evm_minter` in Lean 4

`/repo` is read as text; nothing in it is built or run. The model lives in `/verif/lean/Verif/`, namespace `EvmMinter`.

## Layout

* `Verif/Base/*`   – finite maps (sorted association lists), checked 256-bit arithmetic, bytes and words, Keccak-256 (for examples).
* `Verif/Model/*`  – the model, function by function, each definition citing the file and lines it models.
* `Verif/Spec/*`   – what the property statements talk about: executions, independent decoders, vocabulary, examples.
* `Verif/Lemmas/*` – helper lemmas and invariants.
* `Verif/Props/*`  – the property theorems, named `Cnn_…`, with concrete examples beside them (`Example.Cnn_…`).
* `properties.jsonl` – the properties in English. `MANIFEST.json` – status and theorems of each (made by `tools/gen_manifest.py`).
* `seeded/LOG.jsonl` – wrong programs tried against the theorems (made by `tools/mutate.py` and `tools/log_mut.py`).

## Modelling conventions

* A Rust panic is an explicit error value (`Res α = Except String α`), never a default value.
* `CheckedAmountOf<Unit>` (a u256) is a `Nat`; every operation of the code that can overflow is a checked operation that
  returns `none` or panics outside `[0, 2^256)`. Conversions between units are the identity, as in the code. C37 proves that
  these operations are the ones of `checked_amount/mod.rs` on 256-bit machine words.
* `BTreeMap`/`BTreeSet` are sorted association lists (`FMap`): iteration order and batch operations are the ones of the program.
* Hashes and addresses are numbers, principals are byte strings, strings are `String` or lists of characters.
  Theorems about encodings carry explicit range hypotheses (`Spec/Typed.lean`).
* Keccak-256 is a parameter (`class Keccak`): the theorems hold for every hash function. Where it matters that there are no
  collisions this is a hypothesis (C43). `Base/Keccak256.lean` is the actual function, used in examples only.
* In layers 1 to 5 the signer is arbitrary: any signature may come back. `Spec.Keyed` (`Spec/Sign.lean`, C67) restricts layer 4 to
  what `Model/Sign.lean` records, with the management canister answering and the public key cached. The curve is a parameter
  (`class Secp256k1`: decoding of points, recovery of keys); `Base/Secp256k1.lean` is the actual curve, used in examples only.
  Whether `s` is low is not checked by the minter (the management canister returns low `s`); `debug_assert`s are left out.

## Layers of executions

1. **Accepted logs.** `replay log = .ok s` (`Model/State.lean`): all sequences of events that `apply_state_transition` accepts
   without a panic, whoever produced them. The strongest quantifier, used wherever a property holds at all there.
2. **`Run log s`** (`Spec/Live.lean`): logs whose events are ones the code can emit in the current state (`Emits`, each case
   with the lines that emit it), with rescheduling, changes of the last scraped block, and upgrades by replay in between.
   Used for what the code computes (amounts, fees, nonces).
   Assumed by `Emits`: fee estimates, receipts and ledger indices are in the range of their types; a burn index is not used
   twice (proved in layer 4 as C49); receipts belong to the transaction hash asked for.
3. **`Scraping w₀ w h`** (`Spec/Scrape.lean`): the scraping task with the answers it got, the rest of the minter in between.
   `Spec/Chain.lean` adds providers that answer truthfully about a given chain.
4. **`Reachable w`** (`Spec/World.lean`): the memory of the minter, all suspended tasks, and the ledgers. A step runs one
   message from one `await` to the next; calls and answers are delivered in any order; ledgers accept, refuse or reject; the
   first part of a message or a callback may panic, and a callback may be made to trap whatever it does (`kill`, `killExt`),
   after which the destructors of its guards run. Upgrades replay the log.

5. **`Joint minter helper good w v`** (`Spec/Evm.lean`): a world of layer 4 and the EVM chain side by side: balances, calls of the
   helper contract, transactions of the minter's address. The assumptions on chain and providers are listed at the top of that
   file. The relation `EvmChain.Agrees` between chain and log, assumed by C55 and C56, is proved there (`joint_agrees`).
6. **`Forked minter helper good depth w f`** (`Spec/Fork.lean`): as layer 5, but the chain has a final part and up to `depth` newer
   blocks that may be replaced at any time. Providers answer from the newest block as it is when they answer, and the answer may arrive
   after a reorganization. C73 shows that layer 6 refines layer 5 with the final part as the chain, if the margin of the network is at
   least `depth` or the minter only ever asks for the tag `Finalized` (`Careful`). So C64 to C66 hold of the final part. Assumed: the tag
   `Finalized`, and the finalized transaction count, are about final blocks.
7. **`Banked w B`** (`Spec/Icrc.lean`, C75): a world of layer 4 whose ledgers have balances and allowances and follow ICRC-1 and ICRC-2,
   with the accounts that the code really passes to them (`Model/LedgerArgs.lean`). Users transfer, approve and use allowances. The rules
   are listed at the top of that file. Layer 4 takes every executed call for the mint, burn or transfer it is meant to be; that is
   proved here (`C75_meaning`). Assumed: the ledgers' minting account is the minter's default account, they refuse to burn 0 as
   DFINITY's ledger does, and they start without tokens.

What layers 5 and 6 assume of the answers that a task receives (`Tells`), and C61 of logs (`Honest`), is derived in C79 from the
questions that the code asks (`Model/Requests.lean`), the reduction of the providers' reports (`Model/Rpc.lean`) and the meaning of
the JSON-RPC methods on the chain (`Spec/Node.lean`). Assumed there: every successful answer in a report is true of the chain.

Layer 4 refines layer 2 (`run_of_reachable`, `Lemmas/Refine.lean`): the log and state of every reachable world are a `Run`,
unless an upgrade has lowered the next nonce. So every theorem about `Run` holds of all executions of layer 4, and the
assumptions of `Emits` are proved there from those listed next (C53 to C57 use this).

Layer 4 also refines layer 3 (`scraping_of_history`, `Lemmas/WorldScrape.lean`): an execution with what its scraper saw
(`History`, `Spec/History.lean`) is an execution of the scraper. So C07, C09, C29, C45 and C47 hold there (`Props/Followed.lean`),
and C61 puts the scraper and the mints together: from logs on the chain to blocks of the ledgers.

C55 and C56 compare the ledgers with the chain itself, not with what the minter believes of it. The chain is a list of
deposits at the helper contract and a list of mined transactions from the minter's address (`Spec/Solvency.lean`), and
`EvmChain.Agrees` lists what is assumed: account nonces differ, gas and price stay within the transaction's limits, transactions
from the address carry a recorded signature, hashes of recorded signed transactions do not collide, and the recorded deposits
and receipts are on the chain (the providers were right, see C39 and C52). That nothing is sent before its signature is recorded
is proved (C57). Tokens are assumed to move as `transfer` says, no more. C64 to C66 prove the same of the balances on the chain in
joint executions (layer 5).

C74 is about endless executions of layer 4 (`Spec.Endless`, `Spec/Fair.lean`). Its fairness assumptions are `Spec.Steady`: from some time on
calls of the minting and reimbursing tasks return, no callback is cut off, timers that were set fire. When `mint` sets a timer is
modelled in `Model/Timers.lean`; elsewhere a task may start at any time. C76 adds the scraper (`Spec.Watching`, `Spec/Watch.lean`): its timer
fires again and again, its calls return, and what providers return is true of a chain of logs. The answers received are named (`α`), because
they cannot be told from their effects. `Spec.Deep` says that a block is deep enough from some time on and that log queries do not fail any
more; without it blocks need not be scraped, as failed queries are just tried again. C77 is the same for withdrawals (`Spec.Serving`,
`Spec/Serve.lean`): the timer that sends withdrawals fires again and again, its calls return and succeed, and there are no upgrades. Of the chain
`Spec.Mines` asks that it mines, in the order of the nonces, what it is offered again and again; that a replacement pays enough is not
looked into. It speaks of nonces, not of versions: when nodes refuse a replacement (C88), it asks that they mine an older version. The ledgers are as in C60 (`World.Sound`); `C77_amounts` derives what is asked of them from layer 7. C82 puts C77
and C74 together: each withdrawal ends with the payment or with the refund, and not with both.

C50 is about what the decoder makes of stored bytes. C84 is about the bytes themselves: `Spec/CborItem.lean` states the part of RFC 8949 that is
used, `Spec/EventItem.lean` the format of events and memos as data items, both without the encoders of the model. Changes of encoder and
decoder together keep C50 and break C84.

C85 is about single messages of layer 4 again, but whatever their stage or end, killed ones included, where C30 to C32 say what follows from an
answer. It bounds what a message takes, also of messages whose callers get no answer.

C87 is about all versions of one transaction together, where C17 compares a replacement with the one before. The first bound needs no assumption on
the fees; a first priority fee of zero can stay zero, so the logarithmic bound is of use only for a positive one.

C58 is about single calls in an arbitrary memory, reachable or not. C59 is about what is owed at some time of an execution and
what became of it at a later time (`Leads`). C60 assumes of the ledgers that no more was burned than minted (proved in layer 7, see `C75_finalized`), and of the chain what
`Spec.Mined` says. C71 follows a round of `process_retrieve_tokens_requests` callback by callback, for all answers; `C71_round` then says
that a good round exists. Together with C60 this is the way of a withdrawal from the queue to its finalization.

In layers 1 to 6 estimates of fees are arbitrary 256-bit numbers. `Spec.Priced` (`Spec/Priced.lean`, C72) restricts layer 4 to estimates made
by `lazy_refresh_gas_fee_estimate`: a message finds the cached estimate if it is less than 30 seconds old, and otherwise waits for a fee
history. The timer that only refreshes the cache may ask although the cache is recent (more executions than in the code).

Assumptions of layer 4 on the environment:
* a ledger that answers with an error or rejects the call has not executed it; an executed transaction is one new block, and
  the answer carries its index (the number of earlier blocks, less than `2^64`);
* a `transfer_from` without `fee` and `created_at_time` is not refused with `BadFee`, `TooOld`, `CreatedInFuture` or
  `Duplicate`, and `BadBurn` is an answer to burns only;
* only the minter mints on its ledgers;
* the canister is upgraded only when no call is outstanding (it is stopped first). Without this C02 would be false: the
  quarantine guard is lost with the old memory;
* the destructors that run after a trap do not trap for lack of resources (that their code does not panic is proved, C28).

## Which code is modelled

| source | model | not modelled |
|---|---|---|
| `state.rs`, `state/audit.rs`, `state/event.rs`, `lifecycle.rs` | `Types`, `State`, `Upgrade` | debug output; caches (see below) |
| `state/transactions/mod.rs` | `Transactions`, `Withdraw`, `CallData`, `Search` | equality helpers for tests |
| `tx.rs` | `Tx`, `Rlp`, `GasFee`, `Withdraw`, `Sign` | arithmetic of the curve (parameter `Secp256k1`) |
| `map.rs` | `MultiKeyMap` | iterator adaptors |
| `checked_amount/mod.rs`, `numeric/*` | `CheckedAmount`, `Ranges`, `Base/Checked`, `Texts` | serde beyond the texts of C83 |
| `deposit.rs`, `deposit_logs/*` | `Parser`, `Scrape`, `Tasks`, `Timers` | log lines |
| `withdraw.rs`, `ledger_client.rs`, `guard/mod.rs`, `memo.rs` | `Tasks`, `LedgerArgs`, `Withdraw`, `EventCbor` | the ledger's own code (see assumptions; layer 7 has the rules of the standard) |
| `main.rs` | `Tasks`, `Registration`, `Upgrade`, `Events`, `GasFee`, `Info`, `Sign`, `Swap` | `icrc28_trusted_origins`, `get_canister_status` |
| `erc20.rs`, `evm_config.rs`, `eth_types/mod.rs`, `address.rs`, `rpc_declrations.rs` | `Registration`, `Types`, `Parser`, `Address`, `Texts` | JSON (de)serialisation of structures (single values: C83) |
| `cbor/*`, `storage.rs` | `Cbor`, `EventCbor`, `Storage`, `KeyStore` | memory layout of the stable log and of the stable map |
| `rpc_client/mod.rs`, `rpc_client/providers.rs`, `evm_rpc_client` | `Rpc`, `Providers`, `Requests` | candid encoding of requests, cycles of the canister itself |
| `evm_helper_contract/src/Deposit.sol` | `DepositHelper`, `Spec/Helper` | gas; reentrant calls are separate calls; the mappings and the event that no function uses |
| `endpoints.rs` | types in `Events`, `Tasks`, `Registration` | candid encoding |
| `management.rs` | `Sign` | `Display` |
| `lsm_client.rs` | `Lsm` | SHA-256 and the wasm files (parameters) |
| `logs.rs` | `Logs` (no endpoint calls this code) | the buffers of `ic_canister_log`, which are arguments |

Behaviour of libraries, taken from their documentation: `minicbor` (whether optional fields with a custom codec count as nil
is a parameter `nil : Bool` of the model, the theorems hold for both), `rlp`, `ethnum`, `hex`, `thousands`, `ic_stable_structures::Log` as a
list of byte strings, `evm_rpc_types`, and the matching rule of `eth_getLogs`.

`Props/Vectors.lean` computes with the model what the unit tests of the repository expect (addresses, deposit logs, ranges, answers of
providers, balances after real Sepolia transactions, prices of resubmissions). These are tests of the model, no property rests on them.

Simplifications are stated at the definitions. The main ones of `Model/Tasks.lean`: awaits between which nothing changes are
merged (public key before the call that needs it, `join_all`); the cache of the fee estimate is an argument of the code that
reads it; timers are left out, a task may start at any time (but see C74); texts of errors are left out.

## How the proofs go

* Layer 1: invariants by induction over the log (`TxInv`, `TxHist`, `TxCore`, `Deposits`, `Account`, …). `Frame`, `Proj` say which
  parts of the state an event touches.
* Layer 2: `Sound`, `Live` derive arithmetic facts about recorded transactions from `Emits`.
* Layer 4: `Track` relates memory and log (`Tracks`), `Shift` and `Thread` follow one message through the interleaving,
  `Locks` proves mutual exclusion, `MintInv`/`ReimbInv`/`Burns` count blocks, `Truth` ties events to blocks, `Story` gives the
  course of a withdrawal call, `Refine` shows that the log is one of layer 2, `WorldScrape` that scraping is as in layer 3, `Finalize` that the balances suffice to record receipts.
* Encodings: independent decoders (`RlpDecode`, `ReadEvents`) or the model of the library decoder, proved to read back.

## Findings: where the code does not do what one would expect

Each has a witness that is proved, and where possible a `_partial` theorem for the rest.

* C04: a deposit smaller than the deposit fee makes `mint` trap; it blocks minting for good if it comes first, and spoils the
  record of the deposit before it otherwise (that one is quarantined although minted).
* C10: with at least one ERC-20 token registered the topic filter no longer matches native deposits (zero address).
* C45: while no token is registered the filter matches deposits of all tokens, and recording one of an unknown token panics,
  so scraping is stuck.
* C12–C14, C18: an upgrade may lower the next nonce (`C13_violated_when_nonce_lowered`).
* C15: for a burned amount of `2^256 - 1` the fee saturates (`C15_fails_at_maximum`).
* C20: a trap in the callback after a reimbursement was refused quarantines a reimbursement that was never paid (`C20_example_lost`).
* C30, C32: a trap injected into the callback after the burn leaves a burn without a request.
* C31: `withdraw_native_token` checks the minimum before subtracting the fee, so that it may trap after having taken the fee
  (`C31_trap_after_fee`); the refund uses `transfer_from` without an approval and is refused (`C31_fee_lost`).
* C35: decoding call data panics on an address word with non-zero padding (`C35_violated_decode_panics`). It is never applied to such data: the minter decodes its own
  transactions only (`C35_recorded`).
* C37: `wei_from_milli_ether` multiplies by `10^18` instead of `10^15` (`C37_milli_ether_wrong`).
* C40: the start of a page is cut to 32 bits (`C40_start_wraps`).
* C42: with a zero fee estimate recording a created transaction panics (`C42_zero_fee_panics`).
* C52: `has_http_outcall_error_matching` is true if any provider reports the error. Where only two providers are asked, one of
  them can make the minter skip a block (`C52_two_providers`). C39: the latest block, both transaction counts and the fee
  history are asked of a single provider, so that its answer is believed. A block without base fee makes the minter panic.
* C54: `record_add_erc20_token` does not refuse the native ledger as the ledger of a token. Deposits of that token then mint
  native tokens (`C54_counterexample`). Only the ledger suite manager can add tokens.
* C60: `withdraw_erc20` accepts an amount of 0 and leaves it to the ledger to refuse the burn. If the ledger does not, and the
  token was never deposited, recording the receipt panics in every round, and no withdrawal is finalized any more
  (`C60_zero_counterexample`). If the finalized transaction count is ahead of the receipts, the callback traps as well
  (`C60_missing`); that is harmless, as the next round tries again.
* C75: `refund_withdrawal_fee` (ledger_client.rs:298-311) calls `icrc2_transfer_from` with the minter's default account as spender and
  its fee account as source. The minter never calls `icrc2_approve`, so a ledger of the standard refuses every refund of a positive
  amount (`C75_no_refund`): the fee of a failed withdrawal is always lost (`C75_fee_kept`, compare C31 and C32). `icrc1_transfer` with
  `from_subaccount` would have worked. Nothing else spends from the fee account either, so the collected fees cannot be used
  (`C75_stuck`). The ledgers assumed here refuse to burn 0, so the zero-amount finding of C60 concerns other ledgers only.
* C80: `withdrawal_status` compares subaccounts literally (transactions/mod.rs:226-228). All requests are recorded without subaccount,
  so a search for the sender with the subaccount of 32 zero bytes, the same account by ICRC-1, never finds anything (`C80_zeros`).
* C86: `processed_transaction_status` looks at `created_tx` before `sent_tx` (transactions/mod.rs:856-865), and a resubmission puts the
  replacement into `created_tx`. So a withdrawal reported as `TxSent` is reported as `TxCreated` again, without the hash of the
  transaction that may still be mined, until the replacement is signed (`C86_goes_back`). A withdrawal whose reimbursement is in quarantine is reported as
  `PendingReimbursement` for ever, although the minter does not try again (`C86_quarantined`).
* C88: `resubmit_transaction_price` (tx.rs:694-725) raises the priority fee by 10%, but the maximum fee only to what the estimate needs. go-ethereum refuses
  a replacement unless both are 10% higher, so a replacement whose maximum fee is unchanged is refused (`C88_refused`, `C88_rejected`), and the
  next one is computed from the refused one. A token withdrawal offers from the beginning all that was burned for its fee, so its maximum fee never
  changes, and every replacement is refused (`C88_tokens`): nodes keep the first version (`C88_held`). The old version stays valid and is recognised when mined. The rule of the nodes (`NodeAccepts`) is no part of the repository.
* C89: `create_resubmit_transactions` returns at the first transaction that cannot pay for its replacement (transactions/mod.rs:621-634), so that no later one is
  replaced, also if its withdrawal can pay (`C89_waits`). Nothing is recorded, so this goes on as long as the estimate is that high (`C89_held_up`). As
  nonces are used in order, the later ones could not be mined before it anyway: one withdrawal with too small an amount delays all others.
* C81: `serialize_logs` with a limit below 14 bytes, in which not even an empty log fits, returns the whole log instead of a short text
  (`C81_too_little_room`); harmless, as nothing calls it.
* C70: `lsm_client.rs:22-29` includes the wasm of the index canister as `LEDGER_BYTECODE` and that of the ledger as `INDEX_BYTECODE`,
  so that `new_native_ls` reports each hash as that of the other canister (`C70_hashes_swapped`). The tests compare with the same
  constants.
* C68: `swap_canister_id` is never set, so `check_new_deposits` traps for every caller (`C68_never`).
* C73: `init` and upgrades accept `block_height = Latest` on networks for which the scraper keeps no distance from the newest block
  (deposit.rs:317). The comment there relies on the tag `Finalized`, which nothing enforces. With `Latest` one replaced block
  suffices for minting tokens that are not covered (`C73_uncovered_latest`).
* C74: `mint` is run by one-shot timers only (deposit.rs:201-207, 461-463). If a deposit is registered while a `mint` is running, the
  timer set for it fires during that run and returns at once because of the guard, and when the run ends without errors no timer is
  left. The deposit waits until the next successful log query, and for ever if there is none (`C74_waits`). An upgrade also deletes the
  timers, and `setup_timers` does not start `mint`.
* C63: the helper contract does not look at the principal. If it is malformed, anonymous or the management canister, or if the
  token is not registered with the minter, the funds reach the minter's address and are never credited. If native tokens are sent
  along, the arguments `token` and `amount` are ignored.
* C41: the memo of a mint fits the 80 bytes of the ledger only for log indices below `2^160` (irrelevant in practice).
* Not errors by themselves, but needed as hypotheses or excluded by higher layers: at layer 1 a quarantine event may hit a
  minted deposit; `record_quarantined_reimbursement` overwrites a completed one; adding a token does not compare with the
  native ledger and symbol; `helper_contract_address` unset panics in the scraper; a log is not checked to come from the helper
  contract or the block range that was asked for (providers are trusted in this).

## Mutation tests

`tools/mutate.py` copies the project, applies one edit to the model, rebuilds, and reports which theorems fail. Each attempt
is a line of `seeded/LOG.jsonl`. Many wrong programs fail first at a lemma that inverts the edited function; the line then
says which property statement is false of the edited program.

## Trusted base

Lean 4 kernel, and for each theorem the axioms printed by `#print axioms` (at most `propext`, `Classical.choice`,
`Quot.sound`). No own axioms, no `sorry`, no `native_decide`, no `bv_decide`.
Trusted by reading: that the definitions in `Verif/Model` follow the cited Rust lines, that the behaviour of the libraries and
of the environment is as listed above, and that the statements in `Verif/Props` with their vocabulary in `Verif/Spec` say what
the properties say in English.
