{"id": "C01", "title": "A deposit log is credited at most once in the audit log", "statement": "For every event log the canister can hold, a given EVM deposit log (transaction hash, log index) has at most one Minted event, that event is preceded by exactly one Accepted event for the same source, and no Minted event follows an Invalid or Quarantined event for that source.", "quantifier": "every finite history of audit events that the canister accepted since init (any order, any number of deposits, upgrades, withdrawals)", "why_tests_cant": "Needs all histories; a unit test fixes one sequence of events.", "anchors": ["minter/src/state.rs: record_event_to_mint, record_successful_mint, record_invalid_deposit, record_quarantined_deposit", "minter/src/state/audit.rs: apply_state_transition"]}
{"id": "C02", "title": "The ledger mints at most once per deposit, under every schedule and trap", "statement": "Whatever the interleaving of scraping, timers and ledger replies, whatever calls fail, and at whatever callback the canister traps, the twin ledger executes at most one user mint for a given deposit log.", "quantifier": "all interleavings of atomic message executions of the minting task, scraping and other activity, with arbitrary ledger outcomes and traps after any await", "why_tests_cant": "Concurrency and crash points: tests cannot enumerate all interleavings of awaits and traps.", "anchors": ["minter/src/deposit.rs: mint", "minter/src/guard/mod.rs: TimerGuard", "minter/src/state.rs: record_quarantined_deposit"]}
{"id": "C03", "title": "Minted amount, recipient and ledger are exactly those of the deposit", "statement": "Each user mint for a native deposit credits the principal and subaccount in the log with value minus the configured deposit fee on the native ledger, and for an ERC-20 deposit the full value on the ledger registered for the token contract; user mint plus fee mint never exceeds the deposited value.", "quantifier": "all deposit events, fee settings and registered tokens, in every execution of the minting task", "why_tests_cant": "Holds for every amount/fee/token combination and every interleaving with fee changes.", "anchors": ["minter/src/deposit.rs: mint, calculate_deposit_amount_deducting_fee"]}
{"id": "C04", "title": "One small deposit cannot block or spoil the minting of other deposits", "statement": "A native deposit whose value is below the deposit fee is skipped or rejected without affecting other deposits: other pending deposits still get minted and recorded as minted.", "quantifier": "all sets of pending deposits and fee settings", "why_tests_cant": "Liveness over all pending sets and orders; the failing combination depends on map order.", "anchors": ["minter/src/deposit.rs: mint, calculate_deposit_amount_deducting_fee"]}
{"id": "C05", "title": "A deposit log is in at most one lifecycle state and terminal states are final", "statement": "At any time a deposit source is in at most one of: waiting to be minted, minted, invalid/quarantined; minted stays minted with the same data forever and invalid stays invalid forever.", "quantifier": "all reachable states of the canister", "why_tests_cant": "Invariant over unbounded histories.", "anchors": ["minter/src/state.rs: events_to_mint, minted_events, invalid_events and their record_* functions"]}
{"id": "C06", "title": "Only registered ERC-20 tokens are ever credited or withdrawn, and the registration is immutable", "statement": "Every accepted ERC-20 deposit and every ERC-20 withdrawal refers to a contract that is registered with exactly one ledger, at acceptance and forever after; the minting task never hits its 'unsupported contract' panic.", "quantifier": "all reachable states and histories", "why_tests_cant": "Invariant over unbounded histories.", "anchors": ["minter/src/state.rs: record_event_to_mint, record_erc20_withdrawal_request, record_add_erc20_token", "minter/src/deposit.rs: mint"]}
{"id": "C07", "title": "Log scraping never skips a block silently", "statement": "After any run of the scraper, with any pattern of RPC successes, oversized responses and failures, every block above the initial scraped block and at or below the reported last scraped block was either covered by a successful log query or is recorded as skipped.", "quantifier": "all block heights, chunk sizes, and all sequences of RPC outcomes over any number of scraper runs", "why_tests_cant": "The halving loop depends on an unbounded sequence of external outcomes.", "anchors": ["minter/src/deposit.rs: scrape_until_block, scrape_block_range", "minter/src/numeric/range.rs"]}
{"id": "C08", "title": "Block ranges are split exactly", "statement": "Splitting a block range into chunks, at a point, or into halves yields non-empty, ordered, disjoint pieces whose union is exactly the range; chunks have at most the requested size; for the whole 256-bit domain including the maximum block number.", "quantifier": "all start/end blocks in the 256-bit domain, all chunk sizes from 1 to 65535, all split points", "why_tests_cant": "256-bit domain with boundary cases at the maximum.", "anchors": ["minter/src/numeric/range.rs: into_chunks, partition_at_checked, partition_into_halves, join_with"]}
{"id": "C09", "title": "Scraping a range terminates and only truly oversized single blocks are skipped", "statement": "For every RPC behaviour the range scraper performs finitely many queries (bounded in terms of the range length), and records a block as skipped only if the query for exactly that block failed with the oversized-response error.", "quantifier": "all ranges and all RPC outcome sequences", "why_tests_cant": "Termination and a for-all-outcomes claim.", "anchors": ["minter/src/deposit.rs: scrape_block_range"]}
{"id": "C10", "title": "Every deposit emitted by the helper contract is matched by the scraper's log filter", "statement": "A deposit event emitted by the helper contract for the native token or for a registered ERC-20 token matches the topics filter the scraper sends.", "quantifier": "all sets of registered tokens and all deposit events", "why_tests_cant": "Depends on the whole set of registered tokens; tests use fixed token sets.", "anchors": ["minter/src/deposit_logs/scraping.rs: next_scrape", "evm_helper_contract/src/Deposit.sol: deposit", "minter/src/rpc_client/mod.rs: into_evm_topic"]}
{"id": "C11", "title": "Deposit log decoding is faithful and total", "statement": "Decoding never panics; a log emitted by the helper contract for a valid principal decodes to exactly the depositor, token, amount, principal and subaccount that were emitted; a decoded event always comes from a mined, non-removed log with the helper event topic; the anonymous and management principals are never credited.", "quantifier": "all log entries, all byte contents", "why_tests_cant": "Input space of arbitrary byte strings.", "anchors": ["minter/src/deposit_logs/parser.rs: parse_log", "minter/src/deposit_logs/mod.rs: parse_principal_from_slice, LedgerSubaccount", "evm_helper_contract/src/Deposit.sol"]}
{"id": "C12", "title": "A burn is served through exactly one pipeline stage and at most one request", "statement": "At any time each accepted withdrawal is in exactly one of the stages pending, created, sent, finalized, and no two requests share the native burn index.", "quantifier": "all reachable states in which upgrades do not lower the next transaction nonce", "why_tests_cant": "Invariant over unbounded histories of events.", "anchors": ["minter/src/state/transactions/mod.rs: record_withdrawal_request, record_created_transaction, record_signed_transaction, record_finalized_transaction"]}
{"id": "C13", "title": "No two withdrawals ever share a transaction nonce", "statement": "Transactions created for different burns have different nonces, nonces are handed out consecutively from the configured start, and a nonce is never reused after finalization.", "quantifier": "all histories in which upgrades do not lower the next nonce", "why_tests_cant": "Invariant over unbounded histories.", "anchors": ["minter/src/state/transactions/mod.rs: record_created_transaction, update_next_transaction_nonce", "minter/src/withdraw.rs: create_transactions_batch"]}
{"id": "C14", "title": "All transactions ever signed for one withdrawal pay the same recipient with the same nonce and payload", "statement": "Every created, resubmitted and signed transaction for a withdrawal has the nonce, chain, destination, calldata and gas limit of the first one, so the EVM chain can execute at most one of them and it pays the address the user asked for.", "quantifier": "all histories of creation and resubmission in which upgrades do not lower the next transaction nonce", "why_tests_cant": "Arbitrary number of resubmissions interleaved with other withdrawals.", "anchors": ["minter/src/state/transactions/mod.rs: record_resubmit_transaction, record_signed_transaction, equal_ignoring_fee_and_amount, create_transaction"]}
{"id": "C15", "title": "Native withdrawal: amount sent plus maximum fee equals the amount burned", "statement": "For each native withdrawal, each transaction the minter builds (first or resubmitted) satisfies: value transferred + gas_limit * max_fee_per_gas = burned amount, so the minter never spends more than was burned.", "quantifier": "all amounts burned below the 256-bit maximum 2^256-1, all gas estimates and all resubmission sequences, over all executions in which upgrades do not lower the next transaction nonce", "why_tests_cant": "All 256-bit inputs and unbounded resubmissions.", "anchors": ["minter/src/state/transactions/mod.rs: create_transaction, create_resubmit_transactions", "minter/src/tx.rs: resubmit"]}
{"id": "C16", "title": "ERC-20 withdrawal: gas spent never exceeds the fee burned, and the token amount is exact", "statement": "For each ERC-20 withdrawal, each transaction has gas_limit * max_fee_per_gas at most the native fee burned by the user, zero native value, targets the token contract, and its calldata transfers exactly the burned token amount to the requested recipient.", "quantifier": "all amounts burned below the 256-bit maximum 2^256-1, all gas estimates and all resubmission sequences, over all executions in which upgrades do not lower the next transaction nonce", "why_tests_cant": "All 256-bit inputs and unbounded resubmissions.", "anchors": ["minter/src/state/transactions/mod.rs: create_transaction, TransactionCallData", "minter/src/tx.rs: resubmit"]}
{"id": "C17", "title": "A resubmitted transaction is an acceptable replacement", "statement": "When a sent transaction is replaced, the replacement has a priority fee at least 10% higher (rounded up), a max fee not lower than before, within the allowed maximum fee; and it replaces the transaction signed last with its nonce; if the current price is still sufficient no replacement is produced.", "quantifier": "all last transactions and all gas fee estimates; over whole executions: those in which upgrades do not lower the next transaction nonce", "why_tests_cant": "All 256-bit price combinations.", "anchors": ["minter/src/tx.rs: resubmit_transaction_price, SignedTransactionRequest::resubmit"]}
{"id": "C18", "title": "A withdrawal is finalized at most once and only with a receipt of one of its own transactions", "statement": "A finalized transaction's receipt hash is the hash of one of the transactions signed for that withdrawal, a withdrawal is finalized at most once, and the other transactions with that nonce disappear from the pipeline.", "quantifier": "all histories of events and receipts in which upgrades do not lower the next transaction nonce", "why_tests_cant": "Arbitrary receipts and histories.", "anchors": ["minter/src/state/transactions/mod.rs: record_finalized_transaction", "minter/src/tx.rs: try_finalize"]}
{"id": "C19", "title": "Reimbursements are owed only for failures, with the right amount, account and ledger, and recorded at most once", "statement": "A reimbursement request exists only for a withdrawal whose transaction was finalized as failed or an ERC-20 withdrawal whose token burn failed; its amount is the value the failed transaction would have transferred (or the burned fee, minus penalty), its beneficiary is the burner; a reimbursement index is completed at most once and never becomes owed again.", "quantifier": "all histories in which upgrades do not lower the next transaction nonce", "why_tests_cant": "Invariant over unbounded histories.", "anchors": ["minter/src/state/transactions/mod.rs: record_finalized_transaction, record_reimbursement_request, record_finalized_reimbursement, record_quarantined_reimbursement", "minter/src/main.rs: withdraw_erc20"]}
{"id": "C20", "title": "Reimbursement is paid out at most once, under every schedule and trap", "statement": "Whatever the interleaving, ledger failures, and traps after awaits, the ledger executes at most one reimbursement mint per reimbursement index.", "quantifier": "all interleavings with arbitrary ledger outcomes and traps", "why_tests_cant": "Concurrency and crash points.", "anchors": ["minter/src/withdraw.rs: process_reimbursement"]}
{"id": "C21", "title": "Native balance accounting is exact", "statement": "The tracked native balance equals the sum of accepted native deposits minus, for each finalized transaction, the value transferred (if successful) and the effective fee; totals of effective and unspent fees equal the corresponding sums.", "quantifier": "all histories", "why_tests_cant": "Invariant over unbounded histories.", "anchors": ["minter/src/state.rs: update_balance_upon_deposit, update_balance_upon_withdrawal, NativeBalance"]}
{"id": "C22", "title": "ERC-20 balance accounting is exact per token", "statement": "For each token contract the tracked balance equals accepted deposits of that token minus token amounts of successfully finalized withdrawals of that token; unrelated tokens are untouched.", "quantifier": "all histories and tokens", "why_tests_cant": "Invariant over unbounded histories.", "anchors": ["minter/src/state.rs: Erc20Balances, update_balance_upon_withdrawal"]}
{"id": "C23", "title": "The effective fee never exceeds the charged fee", "statement": "For a receipt that respects the EVM rules (gas used within the limit, effective price within the max fee), recording the finalization of any withdrawal never fails the 'charged fee covers effective fee' check, and effective + unspent = charged.", "quantifier": "all reachable states (no upgrade lowering the nonce, burned amounts below 2^256-1) and all protocol-conforming receipts", "why_tests_cant": "Relates creation, any number of resubmissions and finalization.", "anchors": ["minter/src/state.rs: update_balance_upon_withdrawal", "minter/src/tx.rs", "minter/src/state/transactions/mod.rs"]}
{"id": "C24", "title": "Upgrade reproduces the state from the event log", "statement": "At any time, replaying the audit log (as done in an upgrade) succeeds and yields a state equivalent to the live one: same configuration, deposits, tokens, balances, withdrawals in every stage, nonces and reimbursements; only transient locks, caches and the order of the pending queue may differ.", "quantifier": "all reachable live states, i.e. all histories including reschedulings and traps", "why_tests_cant": "Any history length and any crash point.", "anchors": ["minter/src/state/audit.rs: process_event, replay_events", "minter/src/lifecycle.rs: post_upgrade", "minter/src/main.rs: pre_upgrade", "minter/src/state.rs: is_equivalent_to"]}
{"id": "C25", "title": "Two-key token registry is a consistent bijection", "statement": "The map from ledger id to contract address to symbol behaves as a set of triples in which each key and each alternative key occurs at most once; insertion is rejected exactly when either is in use; lookups by either key agree; iteration never panics. A map collected from triples with distinct keys and alternative keys contains exactly these.", "quantifier": "all sequences of insertions and removals", "why_tests_cant": "Unbounded sequences of operations on generic keys.", "anchors": ["minter/src/map.rs: MultiKeyMap, DedupMultiKeyMap"]}
{"id": "C26", "title": "Token registration is restricted and conflict-free", "statement": "Only the ledger suite manager can register tokens; a registration with a wrong chain, malformed address, used symbol, used ledger or used contract leaves the state unchanged; registered tokens have pairwise distinct symbols, ledgers and contracts.", "quantifier": "all callers, arguments and states", "why_tests_cant": "All inputs and histories.", "anchors": ["minter/src/main.rs: add_erc20_token", "minter/src/state.rs: record_add_erc20_token", "minter/src/erc20.rs"]}
{"id": "C27", "title": "Configuration stays valid through init and upgrades", "statement": "After init and after any sequence of accepted upgrades the configuration satisfies the documented constraints (non-blank key name, non-anonymous ledger, non-zero helper address, positive minimum withdrawal covering the ledger fee); an upgrade with an invalid argument changes nothing.", "quantifier": "all init and upgrade arguments and histories", "why_tests_cant": "All argument combinations and sequences.", "anchors": ["minter/src/state.rs: validate_config, upgrade", "minter/src/lifecycle.rs: State::try_from"]}
{"id": "C28", "title": "Guards give mutual exclusion and are always released", "statement": "No principal ever has two withdrawals in progress, at most 100 withdrawals run concurrently, no timer task runs concurrently with itself, and each lock is held exactly while its task is in progress (so it is released on completion, error and trap).", "quantifier": "all interleavings of task starts, completions and traps", "why_tests_cant": "All schedules.", "anchors": ["minter/src/guard/mod.rs: Guard, TimerGuard"]}
{"id": "C29", "title": "User-triggered scraping is rate limited", "statement": "An accepted scraping request implies at least one minute since the last scrape attempt started and a block number above the last observed one.", "quantifier": "all times and block numbers, including overflow of the 64-bit clock", "why_tests_cant": "All 64-bit/256-bit inputs.", "anchors": ["minter/src/deposit.rs: validate_log_scraping_request, scrape_logs", "minter/src/main.rs: request_scraping_logs"]}
{"id": "C30", "title": "Native withdrawal endpoint: every burn is recorded, every error leaves no request", "statement": "A successful call returns the index of the burn and has queued exactly one request for exactly the burned amount, destination and caller; if the call fails or traps no request is queued and no native tokens of the caller are burned; the tokens taken equal amount argument.", "quantifier": "all callers, amounts, fee settings and ledger outcomes at each await, including traps", "why_tests_cant": "All inputs and all failure points.", "anchors": ["minter/src/main.rs: withdraw_native_token", "minter/src/ledger_client.rs"]}
{"id": "C31", "title": "A refused native withdrawal does not cost the user more than ledger fees", "statement": "When a native withdrawal is refused or fails, the caller's loss is bounded by ledger transfer fees: the withdrawal fee is either not taken or refunded.", "quantifier": "all amounts, fee settings and ledger outcomes", "why_tests_cant": "All configurations; the violating ones are not covered by fixed tests.", "anchors": ["minter/src/main.rs: withdraw_native_token"]}
{"id": "C32", "title": "ERC-20 withdrawal endpoint: burned tokens are always matched by a request or a reimbursement", "statement": "If the native fee burn succeeds then either the token burn succeeds and exactly one request with both burn indices is queued, or a reimbursement of the burned fee (minus at most the ledger fee) to the caller is scheduled; otherwise nothing is recorded.", "quantifier": "all callers, amounts and ledger outcomes at each await", "why_tests_cant": "All failure points.", "anchors": ["minter/src/main.rs: withdraw_erc20"]}
{"id": "C33", "title": "Withdrawal status queries are total and truthful", "statement": "Status queries never panic and report the actual stage: a burn index unknown to the minter is NotFound, pending requests are Pending, created ones TxCreated, sent ones TxSent with the hash of the last transaction, finalized ones Success / PendingReimbursement / Reimbursed according to the receipt and the reimbursement.", "quantifier": "all reachable states and all burn indices", "why_tests_cant": "Needs the pipeline invariant over all histories.", "anchors": ["minter/src/state/transactions/mod.rs: transaction_status, processed_transaction_status, withdrawal_status"]}
{"id": "C34", "title": "Transaction encoding is injective", "statement": "Two unsigned EIP-1559 transactions with the same signing payload are equal, and two signed transactions with the same raw bytes are equal: a signature cannot be replayed for a different transfer.", "quantifier": "all transactions", "why_tests_cant": "All byte strings and 256-bit fields.", "anchors": ["minter/src/tx.rs: rlp_inner, hash, raw_bytes", "minter/src/checked_amount/mod.rs: rlp_append"]}
{"id": "C35", "title": "ERC-20 calldata encoding round-trips and is strict", "statement": "Decoding the encoding of a transfer returns the transfer; decoding accepts exactly the 68-byte encodings with the transfer selector and a well-formed address, and never panics.", "quantifier": "all addresses, amounts and byte strings", "why_tests_cant": "All byte strings.", "anchors": ["minter/src/state/transactions/mod.rs: TransactionCallData::encode, decode"]}
{"id": "C36", "title": "Stored numbers and principals survive serialization", "statement": "CBOR encoding followed by decoding is the identity for 256-bit amounts, arbitrary-size naturals, optional values and principals, also when followed by more data; encodings are canonical (shortest).", "quantifier": "all values", "why_tests_cant": "All 256-bit/unbounded values.", "anchors": ["minter/src/cbor/u256.rs", "minter/src/cbor/nat.rs", "minter/src/cbor/principal.rs", "minter/src/cbor/id.rs"]}
{"id": "C37", "title": "Checked amounts compute exactly or report overflow", "statement": "Addition, subtraction, multiplication, floor and ceiling division on amounts return the exact mathematical result when it fits 256 bits and none otherwise; big-endian and arbitrary-precision conversions round-trip.", "quantifier": "all 256-bit values", "why_tests_cant": "2^512 input pairs.", "anchors": ["minter/src/checked_amount/mod.rs", "minter/src/numeric/mod.rs"]}
{"id": "C38", "title": "Gas fee estimation is bounded below and saturates safely", "statement": "The estimated max fee is exactly 2*base + priority (or the maximum on overflow), never below what is required for the next block, the priority fee is at least the configured minimum, and the price query never panics on overflow.", "quantifier": "all fee histories and configurations", "why_tests_cant": "All histories of fee data.", "anchors": ["minter/src/tx.rs: GasFeeEstimate, estimate_transaction_fee, median, TransactionPrice::max_transaction_fee"]}
{"id": "C39", "title": "Multi-provider RPC answers are accepted only under the stated agreement", "statement": "Equality reduction accepts a value only if at least two providers returned it and no successful provider returned another one (or the RPC canister reported consensus); the strict-majority reduction returns a value held by strictly more providers than any other key; the minimum reduction returns a minimal value; none of them panics; an error shared by all providers comes out with its kind, code and message, never as an answer.", "quantifier": "all numbers of providers and all response combinations", "why_tests_cant": "All response vectors.", "anchors": ["minter/src/rpc_client/mod.rs: reduce_with_equality, reduce_with_strict_majority_by_key, reduce_with_min_by_key, reduce_with_only_one_key"]}
{"id": "C40", "title": "Event pagination returns the whole log", "statement": "get_events returns at most 100 events, exactly the log slice starting at the requested index, and paging from 0 reconstructs the complete log in order without gaps or duplicates.", "quantifier": "all log lengths and page parameters", "why_tests_cant": "All lengths and 64-bit parameters.", "anchors": ["minter/src/main.rs: get_events"]}
{"id": "C41", "title": "Ledger memos identify the operation", "statement": "Mint and burn memos are injective: two mints have the same memo only if they refer to the same deposit log and sender, two reimbursements only if they are for the same burn and transaction; memo bytes fit in the ledger's memo limit.", "quantifier": "all deposits, reimbursements and withdrawals", "why_tests_cant": "All values.", "anchors": ["minter/src/memo.rs"]}
{"id": "C42", "title": "Withdrawal queue is served in order and fairly", "statement": "Requests are taken from the queue in first-in-first-out order, at most five per round and never more than 1000 outstanding nonces; a request whose amount cannot cover fees is moved to the back without being lost or duplicated and does not block the others.", "quantifier": "all queue contents and gas estimates", "why_tests_cant": "All queues and rounds.", "anchors": ["minter/src/state/transactions/mod.rs: withdrawal_requests_batch, reschedule_withdrawal_request", "minter/src/withdraw.rs: create_transactions_batch"]}
{"id": "C43", "title": "Exactly the transactions not yet mined are (re)sent and only mined ones are finalized", "statement": "The minter keeps for a nonce all transactions signed with it, in the order of signing, from the first signature until the withdrawal is finalized. The send batch contains only last versions of sent transactions with nonce at or above the latest transaction count, lowest nonces first; the finalization set contains exactly the transactions with nonce below the finalized transaction count; resubmission never touches mined nonces.", "quantifier": "all sent maps and counts", "why_tests_cant": "All maps and counts.", "anchors": ["minter/src/state/transactions/mod.rs: transactions_to_send_batch, sent_transactions_to_finalize, create_resubmit_transactions"]}
{"id": "C44", "title": "Chain identifiers and addresses are parsed exactly", "statement": "A network is recognised exactly for its chain id and chain ids are distinct; address parsing accepts exactly 0x followed by 40 hex digits, printing then parsing returns the same address, and the zero address is refused as a withdrawal destination. The address of a public key is the last 20 bytes of its hash.", "quantifier": "all strings and chain ids", "why_tests_cant": "All strings.", "anchors": ["minter/src/evm_config.rs", "minter/src/eth_types/mod.rs: Address", "minter/src/address.rs"]}
{"id": "C45", "title": "A foreign token deposit cannot block scraping", "statement": "No deposit that an arbitrary third party can make through the helper contract causes the scraper to trap on it at every attempt.", "quantifier": "all deposits by arbitrary parties and all sets of registered tokens", "why_tests_cant": "Adversarial inputs over all registry contents.", "anchors": ["minter/src/deposit_logs/scraping.rs: next_scrape", "minter/src/state.rs: record_event_to_mint", "minter/src/deposit.rs: register_deposit_events"]}
{"id": "C46", "title": "Every transaction the minter records is a valid EIP-1559 transaction for its own chain", "statement": "Each transaction recorded by the minter (first or replacement) has the chain id of the configured network, an empty access list, and a max priority fee that does not exceed its max fee, so the network does not reject it as malformed.", "quantifier": "all executions in which upgrades do not lower the next transaction nonce, all gas estimates, all burned amounts below the 256-bit maximum", "why_tests_cant": "depends on every sequence of fee estimates and resubmissions; a unit test fixes one price history", "anchors": ["minter/src/tx.rs", "minter/src/state/transactions/mod.rs:create_transaction", "minter/src/tx.rs:resubmit"]}
{"id": "C47", "title": "The scraper asks only for settled blocks of the configured contract", "statement": "Every log request names the helper contract and the topics configured at some point of the execution, covers a non-empty range of at most 1000 blocks above the block scraped before, and never goes beyond a block that is older than a reported chain head by the safety margin of the network; the last scraped block never exceeds such a block either. An attempt asks for the chain head at most three times. The margin is 20 blocks on BSC and 12 on Arbitrum One, Base, Optimism, Avalanche and Fantom.", "quantifier": "all executions of the scraper: any chain heads, answers, failures, traps, upgrades and token registrations in between", "why_tests_cant": "The margin is only respected if it survives retries after failures, the stored last observed block, splitting and joining of ranges, and interleaving with upgrades; tests exercise single calls.", "anchors": ["minter/src/deposit.rs:249-330", "minter/src/deposit.rs:333-445"]}
{"id": "C48", "title": "With truthful providers, exactly the deposits on the chain are accepted", "statement": "If the RPC providers report the chain truthfully, every deposit of a registered token that the helper contract emitted in a scraped, not skipped block is accepted with exactly the emitted data, and every accepted deposit was emitted by the configured helper contract in a scraped block.", "quantifier": "all chains, all executions of the scraper with truthful answers (including errors and oversized responses), all deposits", "why_tests_cant": "The claim composes filtering, range splitting, log decoding and event recording over an unbounded chain and unbounded executions.", "anchors": ["minter/src/deposit.rs:333-478", "minter/src/deposit_logs/scraping.rs:29-52", "minter/src/deposit_logs/parser.rs", "evm_helper_contract/src/Deposit.sol:53-75"]}
{"id": "C49", "title": "Recorded ledger block indices are true and no burn is used twice", "statement": "Every ledger block index that the event log mentions (minted deposit, accepted or failed withdrawal request, completed reimbursement) is the index of a block that exists on the named ledger and that does exactly what the event says (operation, account, amount, memo); no burn block is named twice by requests or reimbursements of failed requests.", "quantifier": "all reachable worlds: all interleavings of messages, ledger answers, traps and upgrades", "why_tests_cant": "Requires every interleaving of concurrent calls and every failure point, over unbounded histories.", "anchors": ["minter/src/main.rs: withdraw_native_token, withdraw_erc20", "minter/src/deposit.rs: mint", "minter/src/withdraw.rs: process_reimbursement", "minter/src/ledger_client.rs"]}
{"id": "C50", "title": "The event log survives storage", "statement": "Every recorded event decodes from its stored bytes to the same event and timestamp, different events have different bytes, and so the state that an upgrade rebuilds from stable memory is the replay of exactly the recorded events.", "quantifier": "all events of the program's types and all logs", "why_tests_cant": "Every combination of field values, optional fields and variants of a nested encoding with omitted trailing fields; a single unreadable event makes every later upgrade trap.", "anchors": ["minter/src/storage.rs", "minter/src/state/event.rs", "minter/src/state/audit.rs: replay_events", "minter/src/cbor/"]}
{"id": "C51", "title": "Calls of the RPC canister are retried within bounds", "statement": "The client calls the EVM RPC canister at least once and at most eleven times, first with 30 billion cycles; every further call follows an answer with a too-few-cycles error and carries twice the cycles of the previous one, or what the error asks for if this is more; the result is the answer to the last call; a rejected call is not repeated, counts as an error, and is taken for a response that is too large exactly if it failed with SysFatal and a message about the size limit.", "quantifier": "all sequences of answers of the RPC canister", "why_tests_cant": "Unbounded families of answer sequences with any number of provider errors in each.", "anchors": ["evm_rpc_client/src/lib.rs: call_internal"]}
{"id": "C52", "title": "One faulty provider neither forges logs or receipts nor gets a block skipped", "statement": "If at least one provider answers truthfully and all others but one agree with it, a faulty provider can make the minter neither accept other logs or another receipt than the true ones, nor take the response for too large (which at a range of one block makes the minter skip the block and lose its deposits).", "quantifier": "all numbers of providers and all answers", "why_tests_cant": "All combinations of answers and errors.", "anchors": ["minter/src/rpc_client/mod.rs: get_logs, get_transaction_receipt, has_http_outcall_error_matching", "minter/src/deposit.rs: scrape_block_range", "minter/src/rpc_client/providers.rs"]}
{"id": "C53", "title": "ERC-20 twin tokens are fully backed", "statement": "At every moment of every execution, for each supported token (with a ledger of its own): what was minted on its ledger and not burned again, plus everything still owed for withdrawals whose tokens were burned but which were neither paid out on the EVM chain nor given back, is at most the token balance that the minter tracks for the contract.", "quantifier": "all executions: any interleaving of deposits, minting, withdrawals, transactions, reimbursements, answers and refusals of ledgers and providers, traps and upgrades that do not lower the next nonce", "why_tests_cant": "It is a sum over the whole history that every concurrent task contributes to; a test sees single interleavings.", "anchors": ["minter/src/deposit.rs: mint", "minter/src/withdraw.rs: process_reimbursement", "minter/src/main.rs: withdraw_erc20", "minter/src/state.rs: update_balance_upon_withdrawal"]}
{"id": "C54", "title": "Native twin tokens are fully backed", "statement": "At every moment of every execution, as long as no ERC-20 token is registered with the native ledger: what was minted on the native ledger and not burned again, plus everything still owed in native tokens (burned amounts of withdrawals without a receipt, transaction amounts after a failed transaction, refunds of failed ERC-20 withdrawals, each until given back), is at most the native balance that the minter tracks.", "quantifier": "all executions: any interleaving of deposits, minting, withdrawals, transactions, reimbursements, answers and refusals of ledgers and providers, traps and upgrades that do not lower the next nonce", "why_tests_cant": "It is a sum over the whole history that every concurrent task contributes to; a test sees single interleavings.", "anchors": ["minter/src/deposit.rs: mint", "minter/src/withdraw.rs: process_reimbursement", "minter/src/main.rs: withdraw_native_token, withdraw_erc20", "minter/src/state.rs: update_balance_upon_withdrawal", "minter/src/state.rs:426-452"]}
{"id": "C55", "title": "Native twin tokens are covered by the chain", "statement": "For every EVM chain that obeys its protocol and agrees with the log (recorded deposits and receipts are on it, transactions from the minter's address carry signatures the minter recorded): what was minted on the native ledger and not burned again, plus everything still owed in native tokens going by the chain, is at most what the minter's address received on the chain less all fees and values that left it, whether the minter has noticed them or not.", "quantifier": "all executions: any interleaving of deposits, minting, withdrawals, transactions, reimbursements, answers and refusals of ledgers and providers, traps and upgrades that do not lower the next nonce; all chains that agree with the log; withdrawals of less than 2^256 - 1; no token registered with the native ledger", "why_tests_cant": "It relates the whole history of the ledgers to every possible history of the chain, including transactions that are mined but not yet seen as finalized.", "anchors": ["minter/src/deposit.rs: mint", "minter/src/withdraw.rs: process_reimbursement, send_transactions_batch", "minter/src/main.rs: withdraw_native_token, withdraw_erc20", "minter/src/state/transactions/mod.rs: create_transaction, create_resubmit_transactions"]}
{"id": "C56", "title": "ERC-20 twin tokens are covered by the chain", "statement": "For every EVM chain as in C55 and each supported token with a ledger of its own: what was minted on the ledger and not burned again, plus everything owed for withdrawals that have neither a successful transaction on the chain nor been given back, is at most what the minter's address received of the token less what its transactions sent.", "quantifier": "all executions: any interleaving of deposits, minting, withdrawals, transactions, reimbursements, answers and refusals of ledgers and providers, traps and upgrades that do not lower the next nonce; all chains that agree with the log", "why_tests_cant": "It relates the whole history of the ledgers to every possible history of the chain, including transactions that are mined but not yet seen as finalized.", "anchors": ["minter/src/deposit.rs: mint", "minter/src/withdraw.rs: process_reimbursement, send_transactions_batch", "minter/src/main.rs: withdraw_erc20", "minter/src/state/transactions/mod.rs: create_transaction"]}
{"id": "C57", "title": "Only paid-for transactions are signed and sent", "statement": "Every transaction that the minter hands to the threshold signer or to the RPC providers was recorded in the log before, is for the minter's chain, and is paid for: a block of the native ledger burns exactly its value plus maximum fee with a memo naming its destination; or a block of the native ledger burns a fee that covers its maximum fee and a block of the token's ledger burns exactly the transferred tokens from the same account, both with memos naming the recipient. Two transactions for the same burn have the same nonce and two with the same nonce are for the same burn, so the chain takes at most one per burn.", "quantifier": "all executions: any interleaving of deposits, minting, withdrawals, transactions, reimbursements, answers and refusals of ledgers and providers, traps and upgrades that do not lower the next nonce; all suspended tasks and all transactions in their batches", "why_tests_cant": "The batches are computed from state that other tasks change between the awaits; a test sees single interleavings and amounts.", "anchors": ["minter/src/withdraw.rs:288-360", "minter/src/state/transactions/mod.rs: transactions_to_sign_batch, transactions_to_send_batch", "minter/src/tx.rs: sign"]}
{"id": "C58", "title": "Which withdrawals are let in", "statement": "A withdrawal call is let in exactly when the caller is not anonymous, fewer than 100 withdrawals are pending, the caller has no other withdrawal call in flight and fewer than 100 callers have; otherwise it traps without effect. Once let in, it is answered at once and without effect if the recipient is not a valid non-zero address, if the native amount is below the minimum (which itself is accepted), or if the token is unknown, each with the error that says so; it traps for amounts of 2^256 or more and for a configured withdrawal fee below the ledger's transfer fee; in all other cases its first effect is the one transfer or burn that the endpoint announces, with exactly the configured fee, the given amount or the estimated maximum fee, from the caller's account, with a memo naming the destination.", "quantifier": "all states of the canister, callers, amounts, recipient strings, tokens and fee estimates", "why_tests_cant": "The boundaries (100 pending requests, 100 callers, the minimum itself, 2^256, fees around the transfer fee) and their combinations are unbounded; a test samples a few of them and does not see that every other call leaves the state unchanged.", "anchors": ["minter/src/main.rs: withdraw_native_token, withdraw_erc20", "minter/src/guard/mod.rs: retrieve_withdraw_guard", "minter/src/address.rs: validate_address_as_destination"]}
{"id": "C59", "title": "Nothing owed is lost by refusals or failures", "statement": "A deposit that waits to be minted and a reimbursement that is owed stay so, unchanged, until a ledger has minted the right amount to the right account or they are given up; and they are given up only by a message whose callback trapped: because the system made it trap, or, for deposits, because a waiting deposit was smaller than the deposit fee (C04). Ledgers that refuse, fail or never answer, upgrades and other messages in between never cause it. Whenever no reimbursement is running, one run of the timer with ledgers that execute the calls pays everything owed.", "quantifier": "all executions: any interleaving of deposits, minting, withdrawals, transactions, reimbursements, answers and refusals of ledgers and providers, traps and upgrades that do not lower the next nonce; all deposits and reimbursements", "why_tests_cant": "It is about every interleaving of timers, ledger answers, traps and upgrades between the time something is owed and the time it is paid; a test follows a few.", "anchors": ["minter/src/deposit.rs: mint", "minter/src/withdraw.rs: process_reimbursement", "minter/src/state/transactions/mod.rs: record_quarantined_reimbursement", "minter/src/state.rs: record_quarantined_deposit"]}
{"id": "C60", "title": "Mined transactions are finalized", "statement": "When the providers answer for the transactions that have been mined, exactly one version per withdrawal, with receipts that respect the transactions' limits, the callback does not trap: every withdrawal asked for becomes finalized with the version that was mined and its receipt, and leaves the queue of sent transactions; other withdrawals are not affected. If a provider fails or reports two versions of the transaction of a withdrawal as mined, nothing is recorded and the round ends; if no version of some withdrawal has a receipt, the callback traps and nothing is recorded.", "quantifier": "all executions (any interleaving; no upgrade lowering the next nonce) in which no token uses the native ledger, on no ledger more was burned than minted and withdrawn token amounts are positive; all receipts and answers", "why_tests_cant": "Recording a receipt involves about ten checks (fees, balances, totals, reimbursement indices, maps) over state built up by an unbounded history; that none of them can fail needs the accounting invariants.", "anchors": ["minter/src/withdraw.rs: finalize_transactions_batch", "minter/src/state.rs: record_finalized_transaction, update_balance_upon_withdrawal", "minter/src/state/transactions/mod.rs: record_finalized_transaction, sent_transactions_to_finalize"]}
{"id": "C61", "title": "Deposits arrive: from the chain to the ledgers", "statement": "If the providers report the logs of the chain truthfully: every deposit of a registered token (or, as long as no token is registered, of the native token) to a creditable principal, emitted by the helper contract in a block scraped since and not skipped, is accepted and is then waiting, or credited by exactly one mint, on the twin ledger of the token, to the account it names, with the emitted amount (for the native token less a fee), or quarantined. Conversely every mint for a deposit is for a log that the helper contract emitted at the position named in the memo, in a scraped block, with that account, ledger and amount. In total no more is minted on a ledger for deposits than different logs of the helper contract on the chain account for.", "quantifier": "all chains; all executions of the minter with its ledgers (any interleaving, traps, refusals, upgrades that change neither the helper contract nor the scraped block and do not lower the nonce); all answers of providers that are truthful when logs are returned", "why_tests_cant": "The claim joins the scraper's bookkeeping over unbounded histories of provider errors, range splits and restarts with the at-most-once argument for mints under all interleavings; a test covers single schedules of one of the two.", "anchors": ["minter/src/deposit.rs: scrape_logs, scrape_until_block, scrape_block_range, mint", "minter/src/deposit_logs/parser.rs", "minter/src/state.rs: record_event_to_mint, record_successful_mint, record_quarantined_deposit", "evm_helper_contract/src/Deposit.sol"]}
{"id": "C62", "title": "What the minter tells about itself is true", "statement": "get_minter_info always answers. It lists every registered token exactly once, with a contract address that parses back, and beside it the balance: deposits of that token less what was sent out; likewise the native balance. The helper contract and block it shows (also smart_contract_address) are those that scraping uses; a native withdrawal is refused exactly below the minimum shown and pays the withdrawal fee shown, a token withdrawal is refused as unsupported exactly if its token is not listed, a native deposit is credited less the deposit fee shown, all on the ledgers shown. The price quoted for a token by eip_1559_transaction_price is exactly what withdraw_erc20 charges while the estimate is recent, and suffices for the transaction; the price quoted for the native token is exactly what is deducted from a withdrawal whose transaction is created with that estimate. The estimate shown is the one that quotes and withdrawals use; the ledger suite manager and the swap canister shown are the only ones that may register tokens and ask for a check of deposits; the newest block is asked for with the tag shown.", "quantifier": "all executions of the minter, all configurations, callers, amounts, fee estimates and times", "why_tests_cant": "The claims relate queries to what later updates do in every state; a test compares single fields with expected constants.", "anchors": ["minter/src/main.rs: get_minter_info, smart_contract_address, eip_1559_transaction_price", "minter/src/endpoints.rs: MinterInfo, Erc20Token, Eip1559TransactionPrice", "minter/src/state.rs: supported_erc20_tokens, find_erc20_token_by_ledger_id, balance_of"]}
{"id": "C63", "title": "The helper contract passes on exactly what it takes and logs exactly that", "statement": "A successful call of deposit with a value moves that value from the caller to the minter's address, nothing else, and emits one event with the zero address, the value, and the caller's principal and subaccount; a call without value moves the amount of the token named from the caller to the minter's address and emits one event with that token and amount; the contract keeps nothing. A call with a value succeeds whenever the caller can pay and the minter's address takes the payment. The log of a successful call, wherever it is included, is decoded by the minter to a deposit of exactly what the minter's address received, for the principal and subaccount that the caller named.", "quantifier": "all calls, balances, contract addresses, token contracts that move tokens or fail, and positions in the chain", "why_tests_cant": "The claim ties a Solidity contract to a Rust decoder for all arguments; the repository has tests of each with sample values only.", "anchors": ["evm_helper_contract/src/Deposit.sol: deposit", "minter/src/deposit_logs/parser.rs: parse_log"]}
{"id": "C64", "title": "The balances of the minter's address cover the twin tokens and the debts", "statement": "While the minter and the chain run side by side - users calling the helper contract, the minter sending transactions, blocks being mined, answers being delayed or lost - the balance of native tokens of the minter's address is at all times at least the native twin tokens in circulation (minted less burned) together with what the minter owes for accepted withdrawals that are neither paid nor given back; likewise for every supported token with a standard contract.", "quantifier": "all joint executions of the minter with its ledgers and of the chain with the helper contract, all interleavings, callers, amounts, tokens, fees", "why_tests_cant": "It is an invariant over unbounded interleavings of three systems (minter, ledgers, chain); no test of the repository runs them together.", "anchors": ["evm_helper_contract/src/Deposit.sol: deposit", "minter/src/deposit.rs: mint", "minter/src/withdraw.rs", "minter/src/state/transactions/mod.rs"]}
{"id": "C65", "title": "Pending payouts are funded", "statement": "Take any transactions that the minter has created or signed, one for each of some nonces that are not used on the chain yet. As long as not more twin tokens were burned than minted, the minter's address holds enough native tokens on the chain to pay for the value and the maximal fee of all of them at once, and enough of every supported token with a standard contract for the transfers of all of them.", "quantifier": "all joint executions, all sets of pending transactions", "why_tests_cant": "The claim is about sums over arbitrary sets of pending transactions in every interleaving with the chain.", "anchors": ["minter/src/state/transactions/mod.rs: create_transaction, record_created_transaction, record_resubmit_transaction", "minter/src/withdraw.rs: process_retrieve_tokens_requests"]}
{"id": "C66", "title": "On the chain a withdrawal is paid at most once, from its own burn, and never both paid and given back", "statement": "Every transaction of the minter's address on the chain belongs to a withdrawal that the minter recorded and whose burn paid for it (amount, destination, fee), and carries the chain id of the configured network; two transactions on the chain belong to different withdrawals. If a withdrawal's transaction succeeded on the chain then none of its burns is given back, neither on the native ledger nor on the token's ledger, whether or not the minter has learnt of the transaction yet.", "quantifier": "all joint executions of the minter with its ledgers and of the chain", "why_tests_cant": "Exclusion of double payment needs all interleavings of resubmission, mining, receipts and reimbursement; tests follow single schedules.", "anchors": ["minter/src/state/transactions/mod.rs: record_finalized_transaction, record_reimbursed", "minter/src/withdraw.rs: process_reimbursement, process_retrieve_tokens_requests"]}
{"id": "C67", "title": "Every transaction is signed with the minter's key, whose address is the one it shows", "statement": "Whenever the minter records a signed transaction, the sender that the EVM recovers from it is the address of the public key that the management canister holds for the minter's configured key name and derivation path - the address that minter_address returns. It asks for exactly the EIP-155/EIP-1559 signing hash of the transaction that it had created, and a signature that does not belong to that key is never recorded: the batch stops instead. The key name never changes, so all transactions of all times have one sender.", "quantifier": "all executions of the minter with the signing calls and its cache of the public key, all answers of the management canister, all upgrades", "why_tests_cant": "Tests sign with one fixed key in a single process; the claim is about every recorded transaction, every answer (also wrong signatures), and the key cache over all interleavings.", "anchors": ["minter/src/tx.rs: sign, compute_recovery_id", "minter/src/management.rs: sign_with_ecdsa", "minter/src/state.rs: lazy_call_ecdsa_public_key, minter_address", "minter/src/withdraw.rs: sign_transactions_batch"]}
{"id": "C68", "title": "The swap canister, and only it, can ask for an early deposit check", "statement": "check_new_deposits traps unless it is called by the configured swap canister; a call of the swap canister does what the scraping timer does. (The second half is vacuous in practice: no code stores the id of a swap canister, so the endpoint traps for everybody.)", "quantifier": "all memories of the minter for the checks, all executions for the defect, all callers and times", "why_tests_cant": "No test calls the endpoint; that the id is never set is a statement about all code paths and upgrades.", "anchors": ["minter/src/main.rs: check_new_deposits", "minter/src/lifecycle.rs: TryFrom<InitArg> for State", "minter/src/state.rs: upgrade"]}
{"id": "C69", "title": "Questions about the chain go to at least two distinct services of the right network", "statement": "For every supported network and whatever API keys are stored, the services asked are told the registered chain id of the network; there are at least two and their URLs differ; no service is asked about two networks; a request to a single provider goes to one of those services, of the named provider; and an API key appears only at the end of URLs of its own provider. Stable memory returns for every provider the key stored for it last.", "quantifier": "all networks, all stored API keys, all sequences of stored keys", "why_tests_cant": "The tables are written out three times by hand, and keys are arbitrary strings appended to URLs some of which are prefixes of others; no test looks at them.", "anchors": ["minter/src/rpc_client/providers.rs: get_url_with_api_key, get_one_provider_ankr, get_one_provider_public_node, get_providers", "minter/src/storage.rs: set_rpc_api_key, get_rpc_api_key"]}
{"id": "C70", "title": "The native ledger suite is registered as configured", "statement": "The registration sent to the ledger suite manager after the installation names the configured native ledger and index canisters, symbol and chain id, and the hashes of the ledger's and of the index's wasm.", "quantifier": "all installation arguments and executions, all wasm files", "why_tests_cant": "The unit tests compare with the same constants that the code uses, so a mix-up of the files goes unnoticed.", "anchors": ["minter/src/lsm_client.rs: new_native_ls, call_lsm_to_add_twin_native, lazy_add_native_ls_to_lsm_canister"]}
{"id": "C71", "title": "Withdrawals go out: no stage of a round of sending traps, and each takes its withdrawals on", "statement": "When the transaction count arrives, the affordable ones among the (at most five) requests whose turn it is get transactions, the others go to the end of the queue, and nothing else is created except replacements of transactions that are sent and not mined. When signatures arrive, whichever are missing, exactly the transactions whose signatures arrived become the latest versions for their withdrawals; the others keep waiting. After each stage the round goes on with the right next stage and the right five transactions; and from every state in which no round is under way and nothing waits for a signature there is a round that ends in sending all affordable withdrawals of the batch.", "quantifier": "all reachable worlds, all answers (counts, signatures missing or not), all fee estimates that are not zero", "why_tests_cant": "The stages are callbacks that read the state left behind by earlier rounds and by messages that ran in between; tests run each helper on hand-made states.", "anchors": ["minter/src/withdraw.rs: process_retrieve_tokens_requests, resubmit_transactions_batch, create_transactions_batch, sign_transactions_batch, send_transactions_batch, finalize_transactions_batch", "minter/src/state/transactions/mod.rs: withdrawal_requests_batch, transactions_to_sign_batch, transactions_to_send_batch, sent_transactions_to_finalize"]}
{"id": "C72", "title": "Prices in use are real and recent", "statement": "Whenever the minter prices a transaction, replaces one or charges the fee of a token withdrawal, it uses an estimate computed from a fee history that really arrived: either for this very message, or less than 30 seconds before the message began. A created transaction carries the estimated priority fee and a maximal fee that covers base and priority fee (twice the base fee plus the priority fee for native withdrawals), a replacement pays at least that, and the fee charged for a token withdrawal is 65000 gas at twice the base fee plus the priority fee. The price query names the time at which its fee history arrived.", "quantifier": "all executions with real fee estimates: all interleavings, answers, failures of calls, traps and upgrades", "why_tests_cant": "The cache is shared by timers and endpoints that interleave at calls; whether a stale or foreign estimate can reach a transaction depends on the whole execution.", "anchors": ["minter/src/tx.rs: lazy_refresh_gas_fee_estimate, estimate_transaction_fee", "minter/src/withdraw.rs: process_retrieve_tokens_requests", "minter/src/main.rs: withdraw_erc20, estimate_erc20_transaction_fee, eip_1559_transaction_price"]}
{"id": "C73", "title": "Only final facts are acted upon, even when the chain reorganizes", "statement": "On a chain whose newest blocks may be replaced at any time (up to a given depth), with nodes that answer from the chain as they see it at that moment and answers that arrive late, a minter that keeps a margin of at least that depth or only asks for finalized blocks records only deposits and receipts that are in final blocks and can never be taken back. Its executions are executions on the final part of the chain alone, so twin tokens in circulation stay covered by what the minter's address holds there, and a withdrawal paid in a final block is never given back.", "quantifier": "all executions: all chains and reorganizations up to the depth, all times of answers, interleavings, failures, traps and upgrades", "why_tests_cant": "Reorganizations race with calls in flight: a block number, logs and receipts are read at different times from different versions of the chain. Tests use one fixed chain.", "anchors": ["minter/src/deposit.rs: update_last_observed_block_number, scrape_logs, scrape_until_block", "minter/src/withdraw.rs: finalize_transactions_batch", "minter/src/rpc_client/mod.rs: get_transaction_receipt, get_finalized_transaction_count"]}
{"id": "C74", "title": "What is owed is paid in the end", "statement": "Take an endless execution in which, from some time on, calls to the ledgers return, callbacks are not cut off and timers that were set fire (so no upgrade deletes them). As long as no waiting deposit is smaller than the deposit fee, a waiting deposit is credited in the end, provided that a log query succeeds once more after a moment at which no mint is running and from which on the ledger executes its mints; moments at which no mint is running come again and again. Without a further log query it is credited in the end if a run of the mint timer has it before it, however often the ledger refuses first. A reimbursement that the ledger executes from some time on is paid in the end.", "quantifier": "all endless executions: all interleavings of timers, endpoints and answers, any number of refusals and rejections before, any number of other deposits and reimbursements", "why_tests_cant": "Liveness is about endless executions and all interleavings of timers and callbacks; a test can only run a finite one, and the guard, the one-shot timers and the retries interact across messages.", "anchors": ["minter/src/deposit.rs: mint, register_deposit_events", "minter/src/withdraw.rs: process_reimbursement", "minter/src/guard/mod.rs: TimerGuard", "minter/src/main.rs: setup_timers", "minter/src/state.rs: has_events_to_mint"]}
{"id": "C75", "title": "With ledgers that follow the standard, all balances together are covered, and collected fees never come back", "statement": "Take ledgers with balances and allowances that follow ICRC-1 and ICRC-2, with the minter's default account as minting account. A call of the minter that a ledger executes is the mint, burn or transfer the minter takes it for, and takes tokens only from the account named in the call, which has allowed the minter to take that much. No more is burned than was minted, and all accounts of a ledger together hold at most the difference; together with all withdrawals and reimbursements owed this is covered by what the minter's address holds on the chain. Recorded withdrawals are not of 0, truthful receipts are always recorded, and the transactions on their way can be paid for, with no assumption about burns left. The minter has no allowance for its own fee account and never gives itself one: no refund of a withdrawal fee moves anything, a failed native withdrawal never gets its fee back, and balances of the minter's accounts never decrease.", "quantifier": "all executions with ledgers of the standard: all users' transfers, approvals and uses of allowances, all fees and fee collectors, all interleavings, refusals, rejections, traps and upgrades", "why_tests_cant": "The flow tests run a few fixed sequences with real ledgers, none with a refund. What a call means depends on the accounts in it, the minting account of the ledger and the allowances given by everyone at that moment; the sum of all balances is an invariant of all executions of many canisters.", "anchors": ["minter/src/ledger_client.rs: burn_from, trasnfer_withdrawal_fee, refund_withdrawal_fee", "minter/src/deposit.rs: mint", "minter/src/withdraw.rs: process_reimbursement", "minter/src/main.rs: withdraw_native_token, withdraw_erc20"]}
{"id": "C76", "title": "A deposit on the chain is credited in the end", "statement": "Take an endless execution in which, from some time on, the timer for scraping fires again and again, its calls return (they may fail at times, and answers may be too large), and what providers return is true. A block that is deep enough in the chain that the providers report, with queries for logs not failing any more, is scraped in the end, however the queries are split. A deposit of a registered token in it that names a creditable principal is then registered, or the logs of its block alone are too large and the block is recorded as skipped. If the minting calls return and the timers set fire, no waiting deposit is below the fee and no single block is too large, the deposit is credited in the end: by exactly one mint, on the twin ledger, to the account it names, of the emitted amount (less the fee for native tokens). This needs one more block after the deposit was registered, or that no mint was running when it was registered.", "quantifier": "all endless executions: all chains of logs, all interleavings of all tasks and messages, all failures and refusals that are not permanent, all splittings of queries", "why_tests_cant": "That something happens in the end is a statement about endless executions under fairness assumptions; tests see finite ones. It depends on retries, on the halving of ranges, on the guards against parallel runs, on one-shot timers and on the absence of traps in all of the callbacks.", "anchors": ["minter/src/deposit.rs: scrape_logs, scrape_until_block, scrape_block_range, register_deposit_events, mint", "minter/src/main.rs: setup_timers"]}
{"id": "C77", "title": "An accepted withdrawal is finalized in the end", "statement": "Take an endless execution in which, from some time on, no upgrade happens, the timer that sends withdrawals fires again and again, its calls return, and the answers are of use: gas prices, transaction counts and signatures are returned, and receipts are those of mined transactions. Let the chain mine, in the order of the nonces, every transaction that it is offered again and again. Then every withdrawal that the minter has accepted gets, in the end, a receipt recorded: its transaction is created, signed, sent, resubmitted if necessary, mined and finalized. It is enough that from some time on the withdrawn amount pays for the transaction at the fees estimated. This holds whatever happened before, however many withdrawals are queued before it, and whatever else goes on in between.", "quantifier": "all endless executions: all earlier histories with all failures, all queues of requests, all interleavings with all other tasks and messages, all gas prices", "why_tests_cant": "That something happens in the end is a statement about endless executions under fairness assumptions; tests see finite ones. It depends on the order of the queue, the limit of 1000 transactions under way, the batch sizes, the order in which transactions are signed, sent and replaced, the guard against parallel rounds, and the absence of traps in every callback of a round.", "anchors": ["minter/src/withdraw.rs: process_retrieve_tokens_requests, resubmit_transactions_batch, create_transactions_batch, sign_transactions_batch, send_transactions_batch, finalize_transactions_batch", "minter/src/state/transactions.rs: withdrawal_requests_batch, transactions_to_sign_batch, transactions_to_send_batch, sent_transactions_to_finalize, reschedule_withdrawal_request"]}
{"id": "C78", "title": "The oldest withdrawal under way is reported correctly", "statement": "The time that the state gives for its oldest incomplete withdrawal is the smallest time at which a withdrawal that still has no receipt recorded was accepted; no time is given exactly when no withdrawal under way has a recorded time. The minter believes that it has nothing left to do for withdrawals exactly when every accepted withdrawal has a receipt recorded.", "quantifier": "all histories of events, all withdrawals, all times", "why_tests_cant": "The time is found by way of three maps (pending, processed and maybe-reimburse requests) that must agree on which withdrawals are under way after every history of creations, resubmissions, receipts and reimbursements; a test fixes one history.", "anchors": ["minter/src/state/transactions/mod.rs: oldest_incomplete_withdrawal_timestamp, maybe_reimburse_requests_iter, has_pending_requests"]}
{"id": "C79", "title": "The minter asks the right questions, and sends what it signed", "statement": "Every request to the JSON-RPC providers goes through the configured EVM RPC canister to services of the minter's own network, with its chain id, and never to a service of another network; logs, receipts and transactions go to at least two different services. The scraper asks for the block with the configured tag and then for the logs of the helper contract in a range of block numbers; transactions are counted for the minter's own address, the final ones before receipts are asked for. Each transaction is sent as a text that stands for exactly the bytes of a transaction that the minter signed and recorded, and each receipt is asked for with a text that stands for the hash of such bytes, none twice. Therefore nodes that are truthful about these questions never mislead the minter: whatever they answer, the reduced answer that a task is resumed with is true of the chain (final block number, emitted logs in the range asked for, number of final transactions, receipts of mined transactions of the minter), which is what the properties about the reserve assume; and if the logs on which the providers agree are complete, they are all logs of the helper contract in the range that match the filter. What the task is resumed with is also what the nodes reported: the receipts, the counts and the block on which they agree, and an error or a disagreement is never taken for an answer.", "quantifier": "all reachable worlds with all suspended tasks, all API keys, all chains with reorganizations, all reports (consistent or not) of truthful providers", "why_tests_cant": "The meaning of a question is given by the interface of the nodes, not by the code; a test with fixed answers passes whatever is asked. That the task asks about the right contract and the right transactions depends on the whole history of upgrades, scraped ranges, resubmissions and signatures.", "anchors": ["minter/src/rpc_client/mod.rs: from_state_all_providers, from_state_one_provider_public_node, from_state_one_provider_ankr, get_logs, get_block_by_number, get_transaction_receipt, get_finalized_transaction_count, get_latest_transaction_count, send_raw_transaction, into_evm_block_tag, into_evm_topic", "minter/src/deposit.rs: update_last_observed_block_number, scrape_block_range", "minter/src/withdraw.rs: latest_transaction_count, send_transactions_batch, finalize_transactions_batch, finalized_transaction_count", "minter/src/tx.rs: raw_transaction_hex"]}
{"id": "C80", "title": "Users find their withdrawals", "statement": "At any time the query withdrawal_status lists exactly the accepted withdrawals with the given number, recipient address (in any letter case) or sender account (as accounts are compared by ICRC-1), each once, with its actual data and status and with the recipient printed with its checksum; it fails only for a text that is not 0x and 40 hexadecimal digits.", "quantifier": "all reachable worlds in which no upgrade lowers the nonce, all search arguments", "why_tests_cant": "Needs the pipeline invariant over all histories, and all spellings of addresses and accounts.", "anchors": ["minter/src/main.rs: withdrawal_status", "minter/src/endpoints.rs: TryFrom<WithdrawalSearchParameter>", "minter/src/state/transactions/mod.rs: withdrawal_status, match_parameter"]}
{"id": "C81", "title": "Exported logs fit, lose nothing that fits, and can be read back", "statement": "The export of the log collects every line of the three buffers, each with its priority. Sorting keeps all entries, puts them in the order of their times, ascending or descending, and keeps the order of entries of the same time. If at least the 14 bytes of an empty log are allowed, the text returned is at most as long as allowed and is the JSON text of the longest beginning of the log that fits; with less room the whole log is returned. The text is JSON in the sense of RFC 8259 and stands for an object with the array of all entries with all their fields; it determines the entries, whatever characters they contain. The names of priorities and orders in a request are recognized in any letter case, and no other words are.", "quantifier": "all contents of the buffers, all entries, all size limits", "why_tests_cant": "The search depends on the sizes of all beginnings of the log in UTF-8, and escaping on all texts.", "anchors": ["minter/src/logs.rs: push_all, serialize_logs, sort_logs"]}
{"id": "C82", "title": "A withdrawal ends with the payment or with the refund", "statement": "In an endless execution in which the rounds that send withdrawals are answered and the chain mines what is offered to it (as in C77), calls of the ledgers return and the ledger executes the refund (as in C74): every accepted withdrawal whose amount pays for the transaction either ends with a successful transaction, signed for it, that sends what remains of the burned amount after the maximum fee to the destination (or transfers the burned tokens to it), or its transaction failed on the chain and a block of the right ledger mints the amount of the transaction (or the burned tokens) to the account that burned them, with the memo of the refund; unless the refund was put into quarantine before that. It never ends both ways.", "quantifier": "all endless executions with all interleavings that meet the conditions, all accepted withdrawals", "why_tests_cant": "The end of a withdrawal lies behind unboundedly many rounds of several timers, interleaved with all other tasks.", "anchors": ["minter/src/withdraw.rs: process_retrieve_tokens_requests, process_reimbursement", "minter/src/state/transactions/mod.rs: record_finalized_transaction, record_finalized_reimbursement"]}
{"id": "C83", "title": "Texts of amounts, blocks and data stand for their values", "statement": "The text of an amount consists of its decimal digits with an underscore between groups of three and no zeros in front, and determines the amount. Hexadecimal quantities are read exactly from an optional plus sign, 0x and at least one digit in any case, if they are less than 2^256, and both hexadecimal forms of every amount, which have no zeros in front, are read back. A block is read exactly from an unsigned quantity or one of the tags latest, safe and finalized, and the serialised form of every block is read back. Data is read exactly from 0x and two digits for each byte, topics if there are 32 bytes, and the serialised form of all data is read back.", "quantifier": "all texts, all amounts less than 2^256, all byte strings", "why_tests_cant": "There are 2^256 amounts and unboundedly many texts; tests look at a few of each.", "anchors": ["minter/src/checked_amount/mod.rs: Display, LowerHex, UpperHex, from_str_hex", "minter/src/rpc_declrations.rs: Data, FixedSizeData, BlockTag, BlockSpec", "minter/src/eth_types/serde_data.rs: serialize, deserialize"]}
{"id": "C84", "title": "Stored events and memos are the CBOR data items of their format", "statement": "The bytes of every event in stable memory are exactly the RFC 8949 encoding, in preferred serialisation, of the array of its time and of the array of the number of its variant and its fields; the fields are in the order of their numbers, numbers are unsigned integers below 2^64 and bignums (tag 2) from there, addresses, hashes and principals are byte strings, and absent optional fields are null or left out at the end. The memos of mints and burns are the items of their format. An item has one encoding, and no bytes begin with the encodings of two items, so whoever reads CBOR reads this item and the rest after it; different events are different items.", "quantifier": "all events with values of the program, all times below 2^64, all memos, all bytes that follow, both ways to treat optional fields with a codec of their own", "why_tests_cant": "Round-trip tests pass when encoder and decoder are changed together, although the log that is in stable memory already can then not be read; and the format is about all values of all fields.", "anchors": ["minter/src/state/event.rs: EventType, Event", "minter/src/storage.rs: Storable", "minter/src/memo.rs: MintMemo, BurnMemo", "minter/src/cbor/u256.rs, nat.rs, principal.rs, id.rs", "minter/src/tx.rs", "minter/src/state/transactions/mod.rs", "minter/src/deposit_logs/mod.rs", "minter/src/lifecycle.rs: InitArg, UpgradeArg"]}
{"id": "C85", "title": "Nobody is charged without asking, nor more than they asked for", "statement": "Whatever becomes of a message (answered, failed, trapped, killed from outside, or not over yet), the ledgers have executed for it only the following. For a native withdrawal: at most the transfer of the withdrawal fee configured when it arrived, then the burn of the rest of the amount or the refund of the fee; so the caller has lost nothing, exactly the fee, or exactly the amount, on the native ledger only. For an ERC-20 withdrawal: a beginning of the fee, the burn of the maximal transaction fee (65000 gas at twice the base fee plus the priority fee of a valid estimate) and the burn of the amount, or one or two of these and the refund; so the caller has lost at most fee and maximal transaction fee on the native ledger and at most the amount on the token's ledger. For any other message: mints. Hence every transaction of the minter that takes tokens from an account belongs to a withdrawal that the owner called, or is a refund from the fee account to the caller, and all that the minter ever took from a user's account on a ledger is what the withdrawals called by that user took.", "quantifier": "all reachable worlds, all messages at any stage and however they end, all interleavings, all behaviours of ledgers and providers", "why_tests_cant": "A charge too much shows only in particular interleavings of callbacks, traps and ledger errors, of which there are unboundedly many; the claim is about the absence of any other ledger call.", "anchors": ["minter/src/main.rs: withdraw_native_token, withdraw_erc20", "minter/src/ledger_client.rs: burn_from, trasnfer_withdrawal_fee, refund_withdrawal_fee", "minter/src/deposit.rs: mint", "minter/src/withdraw.rs: process_reimbursement"]}
{"id": "C86", "title": "The status of a withdrawal only moves forward", "statement": "When the minter is asked for the status of a withdrawal at two times, the later answer is never an earlier stage: what was found is never unknown again, what was created or sent is never pending again, what was sent is never only created again, a success is reported with the same transaction and fee for ever, a failure awaiting reimbursement is followed only by the reimbursement for the same transaction, and a reimbursement is reported with the same transaction, amount and block for ever.", "quantifier": "all executions in which no upgrade lowers the nonce, all pairs of times, all burn indices", "why_tests_cant": "The claim compares the answers at any two times of any execution; tests look at the answer after a few fixed steps, and resubmission is rarely among them.", "anchors": ["minter/src/state/transactions/mod.rs:841-905", "minter/src/state/transactions/mod.rs:802-839", "minter/src/main.rs:411-457"]}
{"id": "C87", "title": "A withdrawal is signed a bounded number of times", "statement": "Of the transactions signed for one withdrawal each pays more than the one before: neither the maximum fee nor the priority fee is lower, at least one is higher, and the priority fee is at least 10% higher. Therefore the number of transactions signed for a withdrawal is bounded by what was burned for it, however long the minter runs and whatever fees it is told: 21000 times the number of replacements is at most twice the amount of a native withdrawal, 65000 times it is at most twice the fee of a token withdrawal, and if the first transaction offered a priority fee, the bound is logarithmic in the amount.", "quantifier": "all executions in which no upgrade lowers the nonce, all withdrawals that burn less than 2^256-1, all gas fee estimates, all numbers of resubmissions", "why_tests_cant": "The bound is about unboundedly many resubmissions with arbitrary fee estimates, including replacements that are computed again before they are signed; tests resubmit once or twice with fixed estimates.", "anchors": ["minter/src/tx.rs:186-236", "minter/src/tx.rs:694-725", "minter/src/state/transactions/mod.rs:596-653", "minter/src/withdraw.rs:197-236"]}
{"id": "C88", "title": "Nodes accept the replacement of a transaction", "statement": "When the minter replaces a pending transaction that pays too little, the nodes of the chain accept the replacement: both the maximum fee and the priority fee are higher, each by at least 10% of the old one, as the transaction pool of go-ethereum asks.", "quantifier": "all transactions sent before, all gas fee estimates, all replacements in all executions", "why_tests_cant": "The claim is about all combinations of four 256-bit fees; the tests of the repository pin single prices and do not compare them with the rule of the nodes.", "anchors": ["minter/src/tx.rs:694-725", "minter/src/tx.rs:186-236", "README.md:96"]}
{"id": "C89", "title": "No withdrawal waits for the fee of another one", "statement": "When the gas fee estimate rises, every transaction that is not mined, offers too little, and whose own withdrawal can pay for the replacement, is replaced, whatever other withdrawals can pay.", "quantifier": "all executions in which no upgrade lowers the nonce, all transaction counts, all gas fee estimates, all sets of withdrawals in flight", "why_tests_cant": "It is about any number of withdrawals in flight with any amounts and fees; the tests resubmit transactions that all can pay or a single one that cannot.", "anchors": ["minter/src/state/transactions/mod.rs:596-638", "minter/src/withdraw.rs:197-236"]}
{"id": "C90", "title": "Which fees a withdrawal can bear", "statement": "A transaction is created for a native withdrawal exactly if the amount covers 21000 times twice the base fee plus the priority fee of the estimate, and the recipient is sent the rest; for a token withdrawal exactly if the fee burned covers 65000 times base fee plus priority fee. The fee of a token withdrawal was set from an estimate that was fresh when it was asked for, and suffices as long as base fee plus priority fee do not exceed twice the base fee plus the priority fee of that estimate; so it suffices if the base fee at most doubles. A withdrawal that cannot bear the fees waits, without a panic.", "quantifier": "all withdrawals that burn less than 2^256-1, all estimates at the time of the request and at the time of sending, all executions", "why_tests_cant": "Exact thresholds over 256-bit amounts and two estimates with saturating arithmetic; tests pin a few estimates.", "anchors": ["minter/src/state/transactions/mod.rs:1104-1180", "minter/src/tx.rs:614-660", "minter/src/main.rs:498", "minter/src/main.rs:676-686", "minter/src/withdraw.rs:450-455"]}
