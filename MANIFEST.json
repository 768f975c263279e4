{
 "claims": [
  {
   "property": "C01",
   "status": "proved",
   "theorems": [
    "EvmMinter.C01_deposit_credited_at_most_once"
   ],
   "note": "over all accepted audit logs"
  },
  {
   "property": "C02",
   "status": "proved",
   "theorems": [
    "EvmMinter.C02_minted_at_most_once",
    "EvmMinter.Example.C02_example"
   ],
   "note": "over all interleavings of messages, ledger answers, traps in callbacks and upgrades of a stopped canister (Reachable); upgrading with calls outstanding is assumed not to happen"
  },
  {
   "property": "C03",
   "status": "proved",
   "theorems": [
    "EvmMinter.C03_mint",
    "EvmMinter.C03_value",
    "EvmMinter.C03_total"
   ],
   "note": "over all executions (Reachable); C03_total mentions only blocks of the ledgers and the audit log"
  },
  {
   "property": "C05",
   "status": "proved",
   "theorems": [
    "EvmMinter.C05_exclusive",
    "EvmMinter.C05_final",
    "EvmMinter.C05_waiting_exclusive",
    "EvmMinter.C05_terminal_states_final"
   ],
   "note": "over all executions (Run); the last two over all accepted audit logs"
  },
  {
   "property": "C12",
   "status": "proved",
   "theorems": [
    "EvmMinter.C12_exactly_one_stage",
    "EvmMinter.C12_running"
   ],
   "note": "over all accepted audit logs and all executions of the running minter in which no upgrade lowers the next nonce; without that condition it is false (C13_violated_when_nonce_lowered)"
  },
  {
   "property": "C13",
   "status": "proved",
   "theorems": [
    "EvmMinter.C13_nonces_unique",
    "EvmMinter.Example.C13_violated_when_nonce_lowered"
   ],
   "note": "with the stated restriction on upgrades; the second theorem shows the restriction is needed"
  },
  {
   "property": "C14",
   "status": "proved",
   "theorems": [
    "EvmMinter.C14_same_call"
   ],
   "note": "over all accepted audit logs in which no upgrade lowers the next nonce"
  },
  {
   "property": "C18",
   "status": "proved",
   "theorems": [
    "EvmMinter.C18_finalized_once",
    "EvmMinter.C18_own",
    "EvmMinter.Example.C18_example_own"
   ],
   "note": "over all accepted audit logs in which no upgrade lowers the next nonce; that the transaction was signed for this very withdrawal is proved over all executions (Reachable)"
  },
  {
   "property": "C19",
   "status": "proved",
   "theorems": [
    "EvmMinter.C19_reimbursements_justified",
    "EvmMinter.C19_completed_is_final",
    "EvmMinter.C19_running"
   ],
   "note": "over all accepted audit logs and all executions of the running minter in which no upgrade lowers the next nonce"
  },
  {
   "property": "C15",
   "status": "proved",
   "theorems": [
    "EvmMinter.C15_native_value_plus_fee",
    "EvmMinter.Example.C15_fails_at_maximum"
   ],
   "note": "over all executions (Run) with the stated restrictions; the second theorem shows that a burned amount of 2^256-1 has to be excluded"
  },
  {
   "property": "C16",
   "status": "proved",
   "theorems": [
    "EvmMinter.C16_erc20_fee_and_amount"
   ],
   "note": "over all executions (Run) with the stated restrictions"
  },
  {
   "property": "C17",
   "status": "proved",
   "theorems": [
    "EvmMinter.C17_resubmit_price",
    "EvmMinter.C17_acceptable_replacement",
    "EvmMinter.C17_replaces_when_needed",
    "EvmMinter.C17_replacements_raise_fees"
   ],
   "note": ""
  },
  {
   "property": "C07",
   "status": "proved",
   "theorems": [
    "EvmMinter.C07_no_silent_skip",
    "EvmMinter.C07_deposits_accepted",
    "EvmMinter.C07_forward",
    "EvmMinter.C07_world"
   ],
   "note": "over all executions of the scraper (Scraping), with traps, upgrades that do not set the last scraped block, and the rest of the minter in between; C07_world is the same over executions of the whole minter with its ledgers"
  },
  {
   "property": "C08",
   "status": "proved",
   "theorems": [
    "EvmMinter.C08_partition",
    "EvmMinter.C08_halves",
    "EvmMinter.C08_join",
    "EvmMinter.C08_chunks"
   ],
   "note": ""
  },
  {
   "property": "C09",
   "status": "proved",
   "theorems": [
    "EvmMinter.C09_skipped_only_if_too_large",
    "EvmMinter.C09_terminates",
    "EvmMinter.C09_terminates_code",
    "EvmMinter.C09_no_panic",
    "EvmMinter.C09_world"
   ],
   "note": ""
  },
  {
   "property": "C11",
   "status": "proved",
   "theorems": [
    "EvmMinter.C11_topic",
    "EvmMinter.C11_total",
    "EvmMinter.C11_exact",
    "EvmMinter.C11_faithful",
    "EvmMinter.C11_safe",
    "EvmMinter.C11_rejected",
    "EvmMinter.C11_principal_injective"
   ],
   "note": "the specification is what the Solidity helper contract emits"
  },
  {
   "property": "C10",
   "status": "partial",
   "theorems": [
    "EvmMinter.C10_matched_exactly",
    "EvmMinter.C10_partial",
    "EvmMinter.C10_violated"
   ],
   "note": "the code violates it: native deposits are not matched once a token is registered (C10_violated); which deposits are matched is characterised exactly"
  },
  {
   "property": "C45",
   "status": "partial",
   "theorems": [
    "EvmMinter.C45_partial",
    "EvmMinter.C45_honest_partial",
    "EvmMinter.C45_world_partial",
    "EvmMinter.C45_unregistered_panics",
    "EvmMinter.C45_violated"
   ],
   "note": "the code violates it: while no token is registered, a deposit of any token makes every answer that contains it panic; proved once a token is registered, as long as balances do not overflow 256 bits"
  },
  {
   "property": "C28",
   "status": "proved",
   "theorems": [
    "EvmMinter.C28_withdrawals",
    "EvmMinter.C28_timers",
    "EvmMinter.C28_cleanup",
    "EvmMinter.C28_refused",
    "EvmMinter.C28_timer_skipped",
    "EvmMinter.C28_messages"
   ],
   "note": "over all interleavings of messages, ledger answers, traps in callbacks and upgrades of a stopped canister (Reachable); a trap inside a destructor itself is assumed away (they cannot panic, C28_cleanup)"
  },
  {
   "property": "C29",
   "status": "proved",
   "theorems": [
    "EvmMinter.C29_rate_limit",
    "EvmMinter.C29_accepts_exactly",
    "EvmMinter.C29_last_nanosecond",
    "EvmMinter.C29_world"
   ],
   "note": "except in the last nanosecond that a 64-bit time stamp can express"
  },
  {
   "property": "C47",
   "status": "proved",
   "theorems": [
    "EvmMinter.C47_requests",
    "EvmMinter.C47_scraped",
    "EvmMinter.C47_attempts",
    "EvmMinter.C47_world"
   ],
   "note": ""
  },
  {
   "property": "C48",
   "status": "proved",
   "theorems": [
    "EvmMinter.C48_credited",
    "EvmMinter.C48_only_real"
   ],
   "note": "over all chains and executions of the scraper with truthful answers"
  },
  {
   "property": "C04",
   "status": "partial",
   "theorems": [
    "EvmMinter.C04_exact",
    "EvmMinter.C04_blocked",
    "EvmMinter.C04_partial",
    "EvmMinter.C04_progress_partial",
    "EvmMinter.Example.C04_violated_blocked",
    "EvmMinter.Example.C04_violated_spoiled"
   ],
   "note": "the claim is false (two witnesses proved): a deposit smaller than the fee blocks all minting if it comes first in the map order, and otherwise spoils the record of the deposit before it; proved: minting traps exactly because of such deposits, and without them one run mints and records all waiting deposits"
  },
  {
   "property": "C20",
   "status": "proved",
   "theorems": [
    "EvmMinter.C20_at_most_once",
    "EvmMinter.C20_owed",
    "EvmMinter.C20_owed_is_unpaid"
   ],
   "note": "over all reachable worlds; C20_owed (every paid reimbursement was owed, with this amount and account) under the restriction that no upgrade lowers the next nonce"
  },
  {
   "property": "C21",
   "status": "proved",
   "theorems": [
    "EvmMinter.C21_native_balance_exact",
    "EvmMinter.C21_live"
   ],
   "note": ""
  },
  {
   "property": "C22",
   "status": "proved",
   "theorems": [
    "EvmMinter.C22_token_balance_exact",
    "EvmMinter.C22_live"
   ],
   "note": "C22_live states it in terms of what users requested"
  },
  {
   "property": "C23",
   "status": "proved",
   "theorems": [
    "EvmMinter.C23_fee_covered",
    "EvmMinter.C23_finalization_succeeds"
   ],
   "note": "over all executions (Run) with the stated restrictions"
  },
  {
   "property": "C25",
   "status": "proved",
   "theorems": [
    "EvmMinter.C25_two_key_map",
    "EvmMinter.C25_collected",
    "EvmMinter.C25_registry"
   ],
   "note": "for all key and value types"
  },
  {
   "property": "C06",
   "status": "proved",
   "theorems": [
    "EvmMinter.C06_deposits_registered",
    "EvmMinter.C06_withdrawals_registered",
    "EvmMinter.C06_mint_lookup"
   ],
   "note": ""
  },
  {
   "property": "C26",
   "status": "proved",
   "theorems": [
    "EvmMinter.C26_accepts_exactly",
    "EvmMinter.C26_accepted",
    "EvmMinter.C26_rejected",
    "EvmMinter.C26_distinct"
   ],
   "note": ""
  },
  {
   "property": "C27",
   "status": "proved",
   "theorems": [
    "EvmMinter.C27_init_accepts_exactly",
    "EvmMinter.C27_upgrade_accepts_exactly",
    "EvmMinter.C27_configuration",
    "EvmMinter.C27_upgrade_canister"
   ],
   "note": ""
  },
  {
   "property": "C24",
   "status": "proved",
   "theorems": [
    "EvmMinter.C24_replay_equivalent",
    "EvmMinter.C24_upgrade_preserves_state"
   ],
   "note": "live state = replayed state up to the order of the pending queue and the last scraped block"
  },
  {
   "property": "C33",
   "status": "proved",
   "theorems": [
    "EvmMinter.C33_status",
    "EvmMinter.C33_withdrawal_details"
   ],
   "note": "over all executions (Run) in which no upgrade lowers the next nonce; a burn whose ERC-20 part failed (FailedErc20WithdrawalRequest) is not a withdrawal and is answered NotFound"
  },
  {
   "property": "C34",
   "status": "proved",
   "theorems": [
    "EvmMinter.C34_read_unsigned",
    "EvmMinter.C34_read_signed",
    "EvmMinter.C34_unsigned_injective",
    "EvmMinter.C34_signed_injective",
    "EvmMinter.C34_not_confused",
    "EvmMinter.C34_recorded"
   ],
   "note": "encodings shorter than 2^64 bytes, the limit of RLP; a strict independent decoder reads back the transaction; C34_recorded shows that everything the minter records satisfies the conditions"
  },
  {
   "property": "C35",
   "status": "partial",
   "theorems": [
    "EvmMinter.C35_roundtrip",
    "EvmMinter.C35_accepts_exactly",
    "EvmMinter.C35_no_panic_partial",
    "EvmMinter.C35_recorded",
    "EvmMinter.Example.C35_violated_decode_panics",
    "EvmMinter.C35_selector"
   ],
   "note": "round trip and strictness proved; \"never panics\" is false for arbitrary bytes (address word with non-zero padding), exact panic condition proved, and that it never holds for the data the program decodes, those of its own transactions"
  },
  {
   "property": "C36",
   "status": "proved",
   "theorems": [
    "EvmMinter.C36_u256",
    "EvmMinter.C36_nat",
    "EvmMinter.C36_id",
    "EvmMinter.C36_principal",
    "EvmMinter.C36_option_nat",
    "EvmMinter.C36_option_principal",
    "EvmMinter.C36_canonical_small",
    "EvmMinter.C36_canonical_u256",
    "EvmMinter.C36_canonical_nat",
    "EvmMinter.C36_canonical_principal"
   ],
   "note": "canonical: shortest integer form below 2^64, from 2^64 on no shorter byte string is accepted for the value; naturals of less than 2^64 bytes; semantics of minicbor from its documentation"
  },
  {
   "property": "C37",
   "status": "proved",
   "theorems": [
    "EvmMinter.Word256.C37_add",
    "EvmMinter.Word256.C37_sub",
    "EvmMinter.Word256.C37_mul",
    "EvmMinter.Word256.C37_div_floor",
    "EvmMinter.Word256.C37_div_ceil",
    "EvmMinter.Word256.C37_steps",
    "EvmMinter.Word256.C37_refines",
    "EvmMinter.Word256.C37_fees",
    "EvmMinter.Word256.C37_bytes",
    "EvmMinter.Word256.C37_nat",
    "EvmMinter.Word256.C37_words",
    "EvmMinter.Word256.C37_rlp",
    "EvmMinter.Word256.C37_milli_ether"
   ],
   "note": "over machine words (BitVec 256); C37_refines links them to the natural numbers used in the rest of the model"
  },
  {
   "property": "C38",
   "status": "proved",
   "theorems": [
    "EvmMinter.C38_median",
    "EvmMinter.C38_median_none",
    "EvmMinter.C38_max_fee",
    "EvmMinter.C38_estimate",
    "EvmMinter.C38_minimum",
    "EvmMinter.C38_next_block",
    "EvmMinter.C38_five_blocks",
    "EvmMinter.C38_price",
    "EvmMinter.C38_cache"
   ],
   "note": ""
  },
  {
   "property": "C44",
   "status": "proved",
   "theorems": [
    "EvmMinter.C44_network",
    "EvmMinter.C44_chain_ids",
    "EvmMinter.C44_parse",
    "EvmMinter.C44_parse_range",
    "EvmMinter.C44_round_trip",
    "EvmMinter.C44_display_injective",
    "EvmMinter.C44_case",
    "EvmMinter.C44_destination",
    "EvmMinter.C44_hash",
    "EvmMinter.C44_key",
    "EvmMinter.Example.C44_example_key"
   ],
   "note": ""
  },
  {
   "property": "C41",
   "status": "proved",
   "theorems": [
    "EvmMinter.C41_injective",
    "EvmMinter.C41_deposits",
    "EvmMinter.C41_reimbursements",
    "EvmMinter.C41_kinds",
    "EvmMinter.C41_size_deposit",
    "EvmMinter.C41_size_reimbursement",
    "EvmMinter.C41_size_burn"
   ],
   "note": "the memo of a deposit fits in 80 bytes exactly if its log index is below 2^160; symbols of at most 20 bytes"
  },
  {
   "property": "C42",
   "status": "proved",
   "theorems": [
    "EvmMinter.C42_oldest_first",
    "EvmMinter.C42_round",
    "EvmMinter.C42_advances",
    "EvmMinter.C42_zero_fee_panics"
   ],
   "note": "over all executions (Run) in which no upgrade lowers the next nonce, native amounts below 2^256-1 and a non-zero fee estimate; with a zero estimate recording panics (witness proved)"
  },
  {
   "property": "C43",
   "status": "proved",
   "theorems": [
    "EvmMinter.C43_sent",
    "EvmMinter.C43_send",
    "EvmMinter.C43_finalize",
    "EvmMinter.C43_replace"
   ],
   "note": "over all executions (Run) in which no upgrade lowers the next nonce; finalization set under absence of hash collisions between different withdrawals"
  },
  {
   "property": "C30",
   "status": "partial",
   "theorems": [
    "EvmMinter.C30_success",
    "EvmMinter.C30_nothing_recorded",
    "EvmMinter.C30_failure_partial",
    "EvmMinter.Example.C30_injected_trap"
   ],
   "note": "proved in full for calls that end by a reply or a trap of the code itself; an injected trap in the callback after the burn leaves a burn without a request (witness proved), nothing is recorded in that case either"
  },
  {
   "property": "C31",
   "status": "partial",
   "theorems": [
    "EvmMinter.C31_loss_partial",
    "EvmMinter.Example.C31_fee_lost",
    "EvmMinter.Example.C31_trap_after_fee"
   ],
   "note": "the claim is false: a refused burn with a refused refund loses the fee, and a withdrawal below the fee traps after the fee was taken (witnesses proved); proved: the loss is at most the configured withdrawal fee, and at most two ledger fees if the refund is executed"
  },
  {
   "property": "C32",
   "status": "partial",
   "theorems": [
    "EvmMinter.C32_success",
    "EvmMinter.C32_failure_partial",
    "EvmMinter.C32_nothing_recorded",
    "EvmMinter.Example.C32_injected_trap"
   ],
   "note": "proved in full for calls that end by a reply or a trap of the code itself; an injected trap after the burns leaves them without a record (witness proved)"
  },
  {
   "property": "C49",
   "status": "proved",
   "theorems": [
    "EvmMinter.C49_truthful",
    "EvmMinter.C49_burns_distinct"
   ],
   "note": "over all reachable worlds, with the stated assumptions on ledgers"
  },
  {
   "property": "C50",
   "status": "proved",
   "theorems": [
    "EvmMinter.C50_event",
    "EvmMinter.C50_prefix_free",
    "EvmMinter.C50_log",
    "EvmMinter.C50_upgrade"
   ],
   "note": "for events whose fields are in the ranges of the types of the program; the stable log is a list of byte strings (trusted)"
  },
  {
   "property": "C39",
   "status": "proved",
   "theorems": [
    "EvmMinter.Rpc.C39_equality",
    "EvmMinter.Rpc.C39_two_providers",
    "EvmMinter.Rpc.C39_minimum",
    "EvmMinter.Rpc.C39_one_success",
    "EvmMinter.Rpc.C39_majority",
    "EvmMinter.Rpc.C39_logs",
    "EvmMinter.Rpc.C39_receipt",
    "EvmMinter.Rpc.C39_no_receipt",
    "EvmMinter.Rpc.C39_block",
    "EvmMinter.Rpc.C39_finalized_count",
    "EvmMinter.Rpc.C39_latest_count",
    "EvmMinter.Rpc.C39_fee_history",
    "EvmMinter.Rpc.C39_shared_error",
    "EvmMinter.Example.C39_example"
   ],
   "note": "the reductions do not panic; get_block_by_number panics on a block without base fee (hypothesis of C39_block)"
  },
  {
   "property": "C51",
   "status": "proved",
   "theorems": [
    "EvmMinter.Rpc.C51_retries",
    "EvmMinter.Rpc.C51_one_retry",
    "EvmMinter.Rpc.C51_rejected",
    "EvmMinter.Example.C51_example"
   ],
   "note": ""
  },
  {
   "property": "C52",
   "status": "partial",
   "theorems": [
    "EvmMinter.Rpc.C52_no_false_logs",
    "EvmMinter.Rpc.C52_no_false_receipt",
    "EvmMinter.Rpc.C52_one_faulty_partial",
    "EvmMinter.Rpc.C52_too_large",
    "EvmMinter.Example.C52_two_providers"
   ],
   "note": "violated where two providers are asked: there one of them can get a block skipped (C52_two_providers); proved when two providers answer truthfully"
  },
  {
   "property": "C53",
   "status": "proved",
   "theorems": [
    "EvmMinter.C53_token_backed",
    "EvmMinter.Example.C53_example"
   ],
   "note": ""
  },
  {
   "property": "C54",
   "status": "proved",
   "theorems": [
    "EvmMinter.C54_native_backed",
    "EvmMinter.Example.C53_example",
    "EvmMinter.Example.C54_counterexample"
   ],
   "note": "the hypothesis about the native ledger is needed: add_erc20_token does not refuse it (C54_counterexample)"
  },
  {
   "property": "C55",
   "status": "proved",
   "theorems": [
    "EvmMinter.C55_native_solvent",
    "EvmMinter.Example.C55_example"
   ],
   "note": "what is assumed of the chain is stated in Spec/Solvency.lean (EvmChain.Agrees)"
  },
  {
   "property": "C56",
   "status": "proved",
   "theorems": [
    "EvmMinter.C56_token_solvent",
    "EvmMinter.Example.C55_example"
   ],
   "note": "what is assumed of the chain is stated in Spec/Solvency.lean (EvmChain.Agrees)"
  },
  {
   "property": "C57",
   "status": "proved",
   "theorems": [
    "EvmMinter.C57_outgoing_paid",
    "EvmMinter.C57_recorded_before_sent",
    "EvmMinter.Example.C57_example"
   ],
   "note": ""
  },
  {
   "property": "C58",
   "status": "proved",
   "theorems": [
    "EvmMinter.C58_native",
    "EvmMinter.C58_erc20",
    "EvmMinter.C58_estimate",
    "EvmMinter.Example.C58_example"
   ],
   "note": ""
  },
  {
   "property": "C59",
   "status": "proved",
   "theorems": [
    "EvmMinter.C59_given_up",
    "EvmMinter.C59_reimbursement",
    "EvmMinter.C59_deposit",
    "EvmMinter.C59_progress",
    "EvmMinter.Example.C59_example",
    "EvmMinter.Example.C59_example_given_up"
   ],
   "note": "progress for deposits is C04_progress_partial"
  },
  {
   "property": "C60",
   "status": "proved",
   "theorems": [
    "EvmMinter.C60_asked",
    "EvmMinter.C60_finalized",
    "EvmMinter.C60_nothing",
    "EvmMinter.C60_missing",
    "EvmMinter.Example.C60_example",
    "EvmMinter.Example.C60_zero_counterexample"
   ],
   "note": "the environment assumptions are in the statement; the counterexample shows why zero amounts are excluded"
  },
  {
   "property": "C61",
   "status": "proved",
   "theorems": [
    "EvmMinter.C61_credited",
    "EvmMinter.C61_real",
    "EvmMinter.C61_total",
    "EvmMinter.Example.C61_example"
   ],
   "note": "over all chains and all executions of the minter with its ledgers in which the answers to the scraper are truthful; native deposits are covered as long as no token is registered, afterwards the code does not find them (C10)"
  },
  {
   "property": "C62",
   "status": "proved",
   "theorems": [
    "EvmMinter.C62_info",
    "EvmMinter.C62_addresses",
    "EvmMinter.C62_native",
    "EvmMinter.C62_token",
    "EvmMinter.C62_deposit",
    "EvmMinter.C62_quote_token",
    "EvmMinter.C62_quote_native",
    "EvmMinter.C62_estimate",
    "EvmMinter.C62_configuration"
   ],
   "note": "The public key is given by its decoded bytes; the cached estimate and the last observed block are arguments of the queries."
  },
  {
   "property": "C63",
   "status": "proved",
   "theorems": [
    "EvmMinter.C63_native",
    "EvmMinter.C63_native_accepted",
    "EvmMinter.C63_token",
    "EvmMinter.C63_any_token",
    "EvmMinter.C63_emittable",
    "EvmMinter.C63_decoded",
    "EvmMinter.Example.C63_example"
   ],
   "note": "the caller is not the minter address itself; token contracts that move tokens or revert"
  },
  {
   "property": "C64",
   "status": "proved",
   "theorems": [
    "EvmMinter.C64_native_reserve",
    "EvmMinter.C64_token_reserve",
    "EvmMinter.Example.C64_example"
   ],
   "note": "over all joint executions of minter, ledgers and chain (Joint); assumptions on chain and providers are in Spec/Evm.lean; the next nonce is not lowered by an upgrade, no hash collisions, the native ledger is not registered as a token ledger"
  },
  {
   "property": "C65",
   "status": "proved",
   "theorems": [
    "EvmMinter.C65_native_funded",
    "EvmMinter.C65_token_funded",
    "EvmMinter.Example.C65_example"
   ],
   "note": "same assumptions as C64"
  },
  {
   "property": "C66",
   "status": "proved",
   "theorems": [
    "EvmMinter.C66_paid_once",
    "EvmMinter.C66_not_given_back",
    "EvmMinter.Example.C66_example"
   ],
   "note": "same assumptions as C64"
  },
  {
   "property": "C67",
   "status": "proved",
   "theorems": [
    "EvmMinter.C67_sender",
    "EvmMinter.C67_asks",
    "EvmMinter.C67_signs",
    "EvmMinter.C67_reason",
    "EvmMinter.C67_one_address",
    "EvmMinter.Example.C67_example_sender",
    "EvmMinter.Example.C67_example_sign",
    "EvmMinter.Example.C67_example"
   ],
   "note": "for every curve (class Secp256k1) and hash function; the management canister is assumed to return the same public key for the same key name and path; examples use the real curve and hash"
  },
  {
   "property": "C68",
   "status": "partial",
   "theorems": [
    "EvmMinter.C68_only_swap_partial",
    "EvmMinter.C68_never",
    "EvmMinter.Example.C68_example"
   ],
   "note": "only the swap canister gets past the checks; that it can is false: its id is never stored and the endpoint always traps (C68_never)"
  },
  {
   "property": "C69",
   "status": "proved",
   "theorems": [
    "EvmMinter.C69_chain",
    "EvmMinter.C69_several",
    "EvmMinter.C69_separate",
    "EvmMinter.C69_single",
    "EvmMinter.C69_keys",
    "EvmMinter.C69_init",
    "EvmMinter.C69_stored",
    "EvmMinter.Example.C69_example",
    "EvmMinter.Example.C69_example_stored"
   ],
   "note": ""
  },
  {
   "property": "C70",
   "status": "partial",
   "theorems": [
    "EvmMinter.C70_registration_partial",
    "EvmMinter.C70_hashes_swapped",
    "EvmMinter.Example.C70_example"
   ],
   "note": "the two wasm hashes are swapped in the code (C70_hashes_swapped), the rest is proved"
  },
  {
   "property": "C71",
   "status": "proved",
   "theorems": [
    "EvmMinter.C71_begin",
    "EvmMinter.C71_create",
    "EvmMinter.C71_sign",
    "EvmMinter.C71_sent",
    "EvmMinter.C71_finalize",
    "EvmMinter.C71_round",
    "EvmMinter.Example.C71_example",
    "EvmMinter.Example.C71_example_sign"
   ],
   "note": "no native request of 2^256-1 (C15), non-zero fee (C42); finalizing assumes that hashes of transactions do not collide"
  },
  {
   "property": "C72",
   "status": "proved",
   "theorems": [
    "EvmMinter.C72_reachable",
    "EvmMinter.C72_cache",
    "EvmMinter.C72_created",
    "EvmMinter.C72_replaced",
    "EvmMinter.C72_charged",
    "EvmMinter.C72_price",
    "EvmMinter.C72_real",
    "EvmMinter.Example.C72_example"
   ],
   "note": "executions in which estimates come from the cache or from fee histories (Spec.Priced); the fee history itself is what the provider says"
  },
  {
   "property": "C73",
   "status": "proved",
   "theorems": [
    "EvmMinter.C73_final",
    "EvmMinter.C73_recorded",
    "EvmMinter.C73_lasting",
    "EvmMinter.C73_native_reserve",
    "EvmMinter.C73_token_reserve",
    "EvmMinter.C73_not_given_back",
    "EvmMinter.Example.C73_example",
    "EvmMinter.Example.C73_uncovered_latest"
   ],
   "note": "executions with reorganizations up to a depth (Spec.Forked), for minters with a sufficient margin or the tag Finalized (Careful); C73_uncovered_latest shows that Latest without a margin, which init accepts, is unsafe"
  },
  {
   "property": "C74",
   "status": "proved",
   "theorems": [
    "EvmMinter.C74_minted",
    "EvmMinter.C74_pauses",
    "EvmMinter.C74_retried",
    "EvmMinter.C74_repaid",
    "EvmMinter.Example.C74_example",
    "EvmMinter.Example.C74_example_repaid",
    "EvmMinter.Example.C74_waits"
   ],
   "note": "endless executions (Spec.Endless) with the fairness assumptions of Spec.Steady; the hypothesis that logs come in once more cannot be dropped from C74_minted: C74_waits is a steady execution in which a deposit registered during a mint waits for ever"
  },
  {
   "property": "C75",
   "status": "proved",
   "theorems": [
    "EvmMinter.C75_meaning",
    "EvmMinter.C75_consent",
    "EvmMinter.C75_supply",
    "EvmMinter.C75_kept",
    "EvmMinter.C75_no_refund",
    "EvmMinter.C75_stuck",
    "EvmMinter.C75_fee_kept",
    "EvmMinter.C75_amounts",
    "EvmMinter.C75_finalized",
    "EvmMinter.C75_native_covered",
    "EvmMinter.C75_token_covered",
    "EvmMinter.C75_native_funded",
    "EvmMinter.C75_token_funded",
    "EvmMinter.Example.C75_example"
   ],
   "note": "ledgers with balances and allowances (Spec.Banked), together with the chain (Spec.Joint) for the covered and funded theorems; the theorems about refunds are a finding: the minter never approves itself for its fee account"
  },
  {
   "property": "C76",
   "status": "proved",
   "theorems": [
    "EvmMinter.C76_scraped",
    "EvmMinter.C76_registered",
    "EvmMinter.C76_credited",
    "EvmMinter.C76_pauses",
    "EvmMinter.C76_undisturbed",
    "EvmMinter.Example.C76_example"
   ],
   "note": "endless executions in which the chain is watched (Spec.Watching) and, for the credit, steady ones (Spec.Steady); C76_credited needs a further block that gets deep enough, C76_undisturbed needs that no mint is running when the deposit is registered (see C74_waits)"
  },
  {
   "property": "C77",
   "status": "proved",
   "theorems": [
    "EvmMinter.C77_served",
    "EvmMinter.C77_amounts",
    "EvmMinter.Example.C77_example"
   ],
   "note": "endless executions in which withdrawals are served (Spec.Serving) and the chain mines what it is offered again and again (Spec.Mines)"
  },
  {
   "property": "C78",
   "status": "proved",
   "theorems": [
    "EvmMinter.C78_oldest",
    "EvmMinter.C78_idle",
    "EvmMinter.Example.C78_example"
   ],
   "note": "for histories in which upgrades never lower the nonce (NonceNeverLowered, see C13)"
  },
  {
   "property": "C79",
   "status": "proved",
   "theorems": [
    "EvmMinter.C79_tells",
    "EvmMinter.C79_honest",
    "EvmMinter.C79_whom",
    "EvmMinter.C79_send",
    "EvmMinter.C79_receipts",
    "EvmMinter.C79_numbers",
    "EvmMinter.C79_reported",
    "EvmMinter.C79_counted",
    "EvmMinter.C79_observed",
    "EvmMinter.Example.C79_example",
    "EvmMinter.Example.C79_example_reported",
    "EvmMinter.Example.C79_example_send",
    "EvmMinter.Example.C79_example_logs"
   ],
   "note": "nodes are truthful in the sense of Spec/Node.lean; the only helper contract that init and upgrades name is the one of the chain (OnlyHelper); hashes have 32 bytes; upgrades never lower the nonce"
  },
  {
   "property": "C80",
   "status": "partial",
   "theorems": [
    "EvmMinter.C80_search_partial",
    "EvmMinter.C80_zeros",
    "EvmMinter.Example.C80_example"
   ],
   "note": "false of the code: searched by sender, the default account is found only if written without subaccount, not with 32 zero bytes, which the ledger standard declares to be the same account (C80_zeros); the partial theorem asks that the sender is not given with the zero subaccount"
  },
  {
   "property": "C81",
   "status": "proved",
   "theorems": [
    "EvmMinter.C81_all",
    "EvmMinter.C81_sorted",
    "EvmMinter.C81_fits",
    "EvmMinter.C81_too_little_room",
    "EvmMinter.C81_readable",
    "EvmMinter.C81_json",
    "EvmMinter.C81_words",
    "EvmMinter.Example.C81_example",
    "EvmMinter.Example.C81_example_words"
   ],
   "note": "the code is in the library, but no endpoint calls it at this commit; the JSON text of serde_json is modelled"
  },
  {
   "property": "C82",
   "status": "proved",
   "theorems": [
    "EvmMinter.C82_ends",
    "EvmMinter.C82_not_both",
    "EvmMinter.Example.C82_example"
   ],
   "note": "the conditions on the environment are those of C77 and C74; both are met by the execution of the example"
  },
  {
   "property": "C83",
   "status": "proved",
   "theorems": [
    "EvmMinter.C83_amount",
    "EvmMinter.C83_canonical",
    "EvmMinter.C83_amount_injective",
    "EvmMinter.C83_quantity",
    "EvmMinter.C83_quantity_round_trip",
    "EvmMinter.C83_block",
    "EvmMinter.C83_block_round_trip",
    "EvmMinter.C83_data",
    "EvmMinter.C83_topic",
    "EvmMinter.C83_data_round_trip",
    "EvmMinter.Example.C83_example"
   ],
   "note": "the behaviour of ethnum, hex and thousands is taken from their documentation; the minter itself prints these texts but reads blocks and data only in tests"
  },
  {
   "property": "C84",
   "status": "proved",
   "theorems": [
    "EvmMinter.C84_event",
    "EvmMinter.C84_unique",
    "EvmMinter.C84_bytes",
    "EvmMinter.C84_distinct",
    "EvmMinter.C84_read",
    "EvmMinter.C84_log",
    "EvmMinter.C84_mint",
    "EvmMinter.C84_burn",
    "EvmMinter.C84_number",
    "EvmMinter.Example.C84_example",
    "EvmMinter.Example.C84_example_form"
   ],
   "note": "minicbor is not part of the repository; its encoders are modelled from its documentation, with a parameter for what that leaves open"
  },
  {
   "property": "C85",
   "status": "proved",
   "theorems": [
    "EvmMinter.C85_native",
    "EvmMinter.C85_erc20",
    "EvmMinter.C85_native_amount",
    "EvmMinter.C85_erc20_amount",
    "EvmMinter.C85_others",
    "EvmMinter.C85_asked",
    "EvmMinter.C85_total",
    "EvmMinter.Example.C85_example_killed",
    "EvmMinter.Example.C85_example_erc20"
   ],
   "note": "over all reachable worlds; that a withdrawal fee above the amount is taken before the trap is C31_trap_after_fee"
  },
  {
   "property": "C86",
   "status": "partial",
   "theorems": [
    "EvmMinter.C86_forward_partial",
    "EvmMinter.C86_success",
    "EvmMinter.C86_reimbursed",
    "EvmMinter.C86_quarantined",
    "EvmMinter.Example.C86_goes_back",
    "EvmMinter.Example.C86_example",
    "EvmMinter.Example.C86_example_quarantined"
   ],
   "note": "violated: when a sent transaction is resubmitted, the status goes back from TxSent to TxCreated until the replacement is signed (C86_goes_back); proved: everything else only moves forward, and this step back happens only by a resubmission"
  },
  {
   "property": "C87",
   "status": "proved",
   "theorems": [
    "EvmMinter.C87_versions",
    "EvmMinter.C87_native",
    "EvmMinter.C87_erc20",
    "EvmMinter.Example.C87_example"
   ],
   "note": "a withdrawal of 2^256-1 is excluded, as in C15"
  },
  {
   "property": "C88",
   "status": "partial",
   "theorems": [
    "EvmMinter.C88_accepted_partial",
    "EvmMinter.C88_refused",
    "EvmMinter.C88_tokens",
    "EvmMinter.C88_held",
    "EvmMinter.Example.C88_rejected",
    "EvmMinter.Example.C88_example",
    "EvmMinter.Example.C88_example_tokens",
    "EvmMinter.Example.C88_example_held",
    "EvmMinter.Example.C88_example_held_tokens"
   ],
   "note": "violated: only the priority fee is raised by 10%; the maximum fee is raised to what the estimate needs, often not at all, and go-ethereum then refuses the replacement (C88_rejected), always for token withdrawals (C88_tokens), of which nodes keep the first version (C88_held); proved: exactly when it is accepted"
  },
  {
   "property": "C89",
   "status": "partial",
   "theorems": [
    "EvmMinter.C89_replaced_partial",
    "EvmMinter.C89_held_up",
    "EvmMinter.Example.C89_waits",
    "EvmMinter.Example.C89_example"
   ],
   "note": "violated: the loop over the sent transactions returns at the first one that cannot pay for its replacement, so that none after it is replaced (C89_waits, C89_held_up); proved: all are replaced that have no such one before them"
  },
  {
   "property": "C90",
   "status": "proved",
   "theorems": [
    "EvmMinter.C90_native",
    "EvmMinter.C90_tokens",
    "EvmMinter.C90_charged",
    "EvmMinter.Example.C90_example"
   ],
   "note": "the creation is a decision of one function; that the fee was set from a fresh estimate is about all executions with their prices, as in C72"
  },
  {
   "property": "C40",
   "status": "partial",
   "theorems": [
    "EvmMinter.Candid.C40_answer",
    "EvmMinter.Candid.C40_slice_partial",
    "EvmMinter.Candid.C40_pages_partial",
    "EvmMinter.Candid.C40_recover_partial",
    "EvmMinter.Candid.C40_read",
    "EvmMinter.Candid.C40_nothing_lost",
    "EvmMinter.Candid.C40_start_wraps",
    "EvmMinter.Candid.C40_hash_dropped",
    "EvmMinter.Example.C40_example_wraps"
   ],
   "note": "violated for starts of 2^32 and more, where the 32-bit conversion of the start wraps around (C40_start_wraps, C40_example_wraps); proved for all smaller starts, i.e. for logs of up to 2^32 events"
  },
  {
   "property": "C46",
   "status": "proved",
   "theorems": [
    "EvmMinter.C46_valid_fees"
   ],
   "note": "over all executions (Run) with the stated restrictions"
  }
 ]
}
