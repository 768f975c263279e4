#!/usr/bin/env python3
"""Write MANIFEST.json from the table below and check that every theorem exists in lean/Verif."""
import json, os, re, sys
ROOT = os.path.join(os.path.dirname(os.path.abspath(__file__)), '..')
P, H = 'proved', 'partial'
CLAIMS = [
 ('C01', P, ['C01_deposit_credited_at_most_once'], 'over all accepted audit logs'),
 ('C02', P, ['C02_minted_at_most_once', 'Example.C02_example'], 'over all interleavings of messages, ledger answers, traps in callbacks and upgrades of a stopped canister (Reachable); upgrading with calls outstanding is assumed not to happen'),
 ('C03', P, ['C03_mint', 'C03_value', 'C03_total'], 'over all executions (Reachable); C03_total mentions only blocks of the ledgers and the audit log'),
 ('C05', P, ['C05_exclusive', 'C05_final', 'C05_waiting_exclusive', 'C05_terminal_states_final'], 'over all executions (Run); the last two over all accepted audit logs'),
 ('C12', P, ['C12_exactly_one_stage', 'C12_running'], 'over all accepted audit logs and all executions of the running minter in which no upgrade lowers the next nonce; without that condition it is false (C13_violated_when_nonce_lowered)'),
 ('C13', P, ['C13_nonces_unique', 'Example.C13_violated_when_nonce_lowered'], 'with the stated restriction on upgrades; the second theorem shows the restriction is needed'),
 ('C14', P, ['C14_same_call'], 'over all accepted audit logs in which no upgrade lowers the next nonce'),
 ('C18', P, ['C18_finalized_once','C18_own','Example.C18_example_own'], 'over all accepted audit logs in which no upgrade lowers the next nonce; that the transaction was signed for this very withdrawal is proved over all executions (Reachable)'),
 ('C19', P, ['C19_reimbursements_justified', 'C19_completed_is_final', 'C19_running'], 'over all accepted audit logs and all executions of the running minter in which no upgrade lowers the next nonce'),
 ('C15', P, ['C15_native_value_plus_fee', 'Example.C15_fails_at_maximum'], 'over all executions (Run) with the stated restrictions; the second theorem shows that a burned amount of 2^256-1 has to be excluded'),
 ('C16', P, ['C16_erc20_fee_and_amount'], 'over all executions (Run) with the stated restrictions'),
 ('C17', P, ['C17_resubmit_price', 'C17_acceptable_replacement', 'C17_replaces_when_needed', 'C17_replacements_raise_fees'], ''),
 ('C07', P, ['C07_no_silent_skip', 'C07_deposits_accepted', 'C07_forward', 'C07_world'], 'over all executions of the scraper (Scraping), with traps, upgrades that do not set the last scraped block, and the rest of the minter in between; C07_world is the same over executions of the whole minter with its ledgers'),
 ('C08', P, ['C08_partition', 'C08_halves', 'C08_join', 'C08_chunks'], ''),
 ('C09', P, ['C09_skipped_only_if_too_large', 'C09_terminates', 'C09_terminates_code', 'C09_no_panic', 'C09_world'], ''),
 ('C11', P, ['C11_topic', 'C11_total', 'C11_exact', 'C11_faithful', 'C11_safe', 'C11_rejected', 'C11_principal_injective'], 'the specification is what the Solidity helper contract emits'),
 ('C10', H, ['C10_matched_exactly', 'C10_partial', 'C10_violated'], 'the code violates it: native deposits are not matched once a token is registered (C10_violated); which deposits are matched is characterised exactly'),
 ('C45', H, ['C45_partial', 'C45_honest_partial', 'C45_world_partial', 'C45_unregistered_panics', 'C45_violated'], 'the code violates it: while no token is registered, a deposit of any token makes every answer that contains it panic; proved once a token is registered, as long as balances do not overflow 256 bits'),
 ('C28', P, ['C28_withdrawals', 'C28_timers', 'C28_cleanup', 'C28_refused', 'C28_timer_skipped', 'C28_messages'], 'over all interleavings of messages, ledger answers, traps in callbacks and upgrades of a stopped canister (Reachable); a trap inside a destructor itself is assumed away (they cannot panic, C28_cleanup)'),
 ('C29', P, ['C29_rate_limit', 'C29_accepts_exactly', 'C29_last_nanosecond', 'C29_world'], 'except in the last nanosecond that a 64-bit time stamp can express'),
 ('C47', P, ['C47_requests', 'C47_scraped', 'C47_attempts', 'C47_world'], ''),
 ('C48', P, ['C48_credited', 'C48_only_real'], 'over all chains and executions of the scraper with truthful answers'),
 ('C04', H, ['C04_exact', 'C04_blocked', 'C04_partial', 'C04_progress_partial', 'Example.C04_violated_blocked', 'Example.C04_violated_spoiled'], 'the claim is false (two witnesses proved): a deposit smaller than the fee blocks all minting if it comes first in the map order, and otherwise spoils the record of the deposit before it; proved: minting traps exactly because of such deposits, and without them one run mints and records all waiting deposits'),
 ('C20', P, ['C20_at_most_once', 'C20_owed', 'C20_owed_is_unpaid'], 'over all reachable worlds; C20_owed (every paid reimbursement was owed, with this amount and account) under the restriction that no upgrade lowers the next nonce'),
 ('C21', P, ['C21_native_balance_exact', 'C21_live'], ''),
 ('C22', P, ['C22_token_balance_exact', 'C22_live'], 'C22_live states it in terms of what users requested'),
 ('C23', P, ['C23_fee_covered', 'C23_finalization_succeeds'], 'over all executions (Run) with the stated restrictions'),
 ('C25', P, ['C25_two_key_map', 'C25_collected', 'C25_registry'], 'for all key and value types'),
 ('C06', P, ['C06_deposits_registered', 'C06_withdrawals_registered', 'C06_mint_lookup'], ''),
 ('C26', P, ['C26_accepts_exactly', 'C26_accepted', 'C26_rejected', 'C26_distinct'], ''),
 ('C27', P, ['C27_init_accepts_exactly', 'C27_upgrade_accepts_exactly', 'C27_configuration', 'C27_upgrade_canister'], ''),
 ('C24', P, ['C24_replay_equivalent', 'C24_upgrade_preserves_state'], 'live state = replayed state up to the order of the pending queue and the last scraped block'),
 ('C33', P, ['C33_status', 'C33_withdrawal_details'], 'over all executions (Run) in which no upgrade lowers the next nonce; a burn whose ERC-20 part failed (FailedErc20WithdrawalRequest) is not a withdrawal and is answered NotFound'),
 ('C34', P, ['C34_read_unsigned', 'C34_read_signed', 'C34_unsigned_injective', 'C34_signed_injective', 'C34_not_confused', 'C34_recorded'], 'encodings shorter than 2^64 bytes, the limit of RLP; a strict independent decoder reads back the transaction; C34_recorded shows that everything the minter records satisfies the conditions'),
 ('C35', H, ['C35_roundtrip', 'C35_accepts_exactly', 'C35_no_panic_partial', 'C35_recorded', 'Example.C35_violated_decode_panics', 'C35_selector'], 'round trip and strictness proved; "never panics" is false for arbitrary bytes (address word with non-zero padding), exact panic condition proved, and that it never holds for the data the program decodes, those of its own transactions'),
 ('C36', P, ['C36_u256', 'C36_nat', 'C36_id', 'C36_principal', 'C36_option_nat', 'C36_option_principal', 'C36_canonical_small', 'C36_canonical_u256', 'C36_canonical_nat', 'C36_canonical_principal'], 'canonical: shortest integer form below 2^64, from 2^64 on no shorter byte string is accepted for the value; naturals of less than 2^64 bytes; semantics of minicbor from its documentation'),
 ('C37', P, ['Word256.C37_add', 'Word256.C37_sub', 'Word256.C37_mul', 'Word256.C37_div_floor', 'Word256.C37_div_ceil', 'Word256.C37_steps', 'Word256.C37_refines', 'Word256.C37_fees', 'Word256.C37_bytes', 'Word256.C37_nat', 'Word256.C37_words', 'Word256.C37_rlp', 'Word256.C37_milli_ether'], 'over machine words (BitVec 256); C37_refines links them to the natural numbers used in the rest of the model'),
 ('C38', P, ['C38_median', 'C38_median_none', 'C38_max_fee', 'C38_estimate', 'C38_minimum', 'C38_next_block', 'C38_five_blocks', 'C38_price', 'C38_cache'], ''),
 ('C44', P, ['C44_network', 'C44_chain_ids', 'C44_parse', 'C44_parse_range', 'C44_round_trip', 'C44_display_injective', 'C44_case', 'C44_destination', 'C44_hash', 'C44_key', 'Example.C44_example_key'], ''),
 ('C41', P, ['C41_injective', 'C41_deposits', 'C41_reimbursements', 'C41_kinds', 'C41_size_deposit', 'C41_size_reimbursement', 'C41_size_burn'], 'the memo of a deposit fits in 80 bytes exactly if its log index is below 2^160; symbols of at most 20 bytes'),
 ('C42', P, ['C42_oldest_first', 'C42_round', 'C42_advances', 'C42_zero_fee_panics'], 'over all executions (Run) in which no upgrade lowers the next nonce, native amounts below 2^256-1 and a non-zero fee estimate; with a zero estimate recording panics (witness proved)'),
 ('C43', P, ['C43_sent', 'C43_send', 'C43_finalize', 'C43_replace'], 'over all executions (Run) in which no upgrade lowers the next nonce; finalization set under absence of hash collisions between different withdrawals'),
 ('C30', H, ['C30_success', 'C30_nothing_recorded', 'C30_failure_partial', 'Example.C30_injected_trap'], 'proved in full for calls that end by a reply or a trap of the code itself; an injected trap in the callback after the burn leaves a burn without a request (witness proved), nothing is recorded in that case either'),
 ('C31', H, ['C31_loss_partial', 'Example.C31_fee_lost', 'Example.C31_trap_after_fee'], 'the claim is false: a refused burn with a refused refund loses the fee, and a withdrawal below the fee traps after the fee was taken (witnesses proved); proved: the loss is at most the configured withdrawal fee, and at most two ledger fees if the refund is executed'),
 ('C32', H, ['C32_success', 'C32_failure_partial', 'C32_nothing_recorded', 'Example.C32_injected_trap'], 'proved in full for calls that end by a reply or a trap of the code itself; an injected trap after the burns leaves them without a record (witness proved)'),
 ('C49', P, ['C49_truthful', 'C49_burns_distinct'], 'over all reachable worlds, with the stated assumptions on ledgers'),
 ('C50', P, ['C50_event', 'C50_prefix_free', 'C50_log', 'C50_upgrade'], 'for events whose fields are in the ranges of the types of the program; the stable log is a list of byte strings (trusted)'),
 ('C39', P, ['Rpc.C39_equality', 'Rpc.C39_two_providers', 'Rpc.C39_minimum', 'Rpc.C39_one_success', 'Rpc.C39_majority', 'Rpc.C39_logs', 'Rpc.C39_receipt', 'Rpc.C39_no_receipt', 'Rpc.C39_block', 'Rpc.C39_finalized_count', 'Rpc.C39_latest_count', 'Rpc.C39_fee_history', 'Rpc.C39_shared_error', 'Example.C39_example'], 'the reductions do not panic; get_block_by_number panics on a block without base fee (hypothesis of C39_block)'),
 ('C51', P, ['Rpc.C51_retries', 'Rpc.C51_one_retry', 'Rpc.C51_rejected', 'Example.C51_example'], ''),
 ('C52', H, ['Rpc.C52_no_false_logs', 'Rpc.C52_no_false_receipt', 'Rpc.C52_one_faulty_partial', 'Rpc.C52_too_large', 'Example.C52_two_providers'], 'violated where two providers are asked: there one of them can get a block skipped (C52_two_providers); proved when two providers answer truthfully'),
 ('C53', P, ['C53_token_backed', 'Example.C53_example'], ''),
 ('C54', P, ['C54_native_backed', 'Example.C53_example', 'Example.C54_counterexample'], 'the hypothesis about the native ledger is needed: add_erc20_token does not refuse it (C54_counterexample)'),
 ('C55', P, ['C55_native_solvent', 'Example.C55_example'], 'what is assumed of the chain is stated in Spec/Solvency.lean (EvmChain.Agrees)'),
 ('C56', P, ['C56_token_solvent', 'Example.C55_example'], 'what is assumed of the chain is stated in Spec/Solvency.lean (EvmChain.Agrees)'),
 ('C57', P, ['C57_outgoing_paid', 'C57_recorded_before_sent', 'Example.C57_example'], ''),
 ('C58', P, ['C58_native', 'C58_erc20', 'C58_estimate', 'Example.C58_example'], ''),
 ('C59', P, ['C59_given_up', 'C59_reimbursement', 'C59_deposit', 'C59_progress', 'Example.C59_example', 'Example.C59_example_given_up'], 'progress for deposits is C04_progress_partial'),
 ('C60', P, ['C60_asked', 'C60_finalized', 'C60_nothing', 'C60_missing', 'Example.C60_example', 'Example.C60_zero_counterexample'], 'the environment assumptions are in the statement; the counterexample shows why zero amounts are excluded'),
 ('C61', P, ['C61_credited', 'C61_real', 'C61_total', 'Example.C61_example'], 'over all chains and all executions of the minter with its ledgers in which the answers to the scraper are truthful; native deposits are covered as long as no token is registered, afterwards the code does not find them (C10)'),
 ('C62', P, ['C62_info', 'C62_addresses', 'C62_native', 'C62_token', 'C62_deposit', 'C62_quote_token', 'C62_quote_native', 'C62_estimate', 'C62_configuration'], 'The public key is given by its decoded bytes; the cached estimate and the last observed block are arguments of the queries.'),
 ('C63', P, ['C63_native', 'C63_native_accepted', 'C63_token', 'C63_any_token', 'C63_emittable', 'C63_decoded', 'Example.C63_example'], 'the caller is not the minter address itself; token contracts that move tokens or revert'),
 ('C64', P, ['C64_native_reserve', 'C64_token_reserve', 'Example.C64_example'], 'over all joint executions of minter, ledgers and chain (Joint); assumptions on chain and providers are in Spec/Evm.lean; the next nonce is not lowered by an upgrade, no hash collisions, the native ledger is not registered as a token ledger'),
 ('C65', P, ['C65_native_funded', 'C65_token_funded', 'Example.C65_example'], 'same assumptions as C64'),
 ('C66', P, ['C66_paid_once', 'C66_not_given_back', 'Example.C66_example'], 'same assumptions as C64'),
 ('C67', P, ['C67_sender', 'C67_asks', 'C67_signs', 'C67_reason', 'C67_one_address', 'Example.C67_example_sender', 'Example.C67_example_sign', 'Example.C67_example'], 'for every curve (class Secp256k1) and hash function; the management canister is assumed to return the same public key for the same key name and path; examples use the real curve and hash'),
 ('C68', H, ['C68_only_swap_partial', 'C68_never', 'Example.C68_example'], 'only the swap canister gets past the checks; that it can is false: its id is never stored and the endpoint always traps (C68_never)'),
 ('C69', P, ['C69_chain', 'C69_several', 'C69_separate', 'C69_single', 'C69_keys', 'C69_init', 'C69_stored', 'Example.C69_example', 'Example.C69_example_stored'], ''),
 ('C70', H, ['C70_registration_partial', 'C70_hashes_swapped', 'Example.C70_example'], 'the two wasm hashes are swapped in the code (C70_hashes_swapped), the rest is proved'),
 ('C71', P, ['C71_begin', 'C71_create', 'C71_sign', 'C71_sent', 'C71_finalize', 'C71_round', 'Example.C71_example', 'Example.C71_example_sign'], 'no native request of 2^256-1 (C15), non-zero fee (C42); finalizing assumes that hashes of transactions do not collide'),
 ('C72', P, ['C72_reachable', 'C72_cache', 'C72_created', 'C72_replaced', 'C72_charged', 'C72_price', 'C72_real', 'Example.C72_example'], 'executions in which estimates come from the cache or from fee histories (Spec.Priced); the fee history itself is what the provider says'),
 ('C73', P, ['C73_final', 'C73_recorded', 'C73_lasting', 'C73_native_reserve', 'C73_token_reserve', 'C73_not_given_back', 'Example.C73_example', 'Example.C73_uncovered_latest'], 'executions with reorganizations up to a depth (Spec.Forked), for minters with a sufficient margin or the tag Finalized (Careful); C73_uncovered_latest shows that Latest without a margin, which init accepts, is unsafe'),
 ('C74', P, ['C74_minted', 'C74_pauses', 'C74_retried', 'C74_repaid', 'Example.C74_example', 'Example.C74_example_repaid', 'Example.C74_waits'], 'endless executions (Spec.Endless) with the fairness assumptions of Spec.Steady; the hypothesis that logs come in once more cannot be dropped from C74_minted: C74_waits is a steady execution in which a deposit registered during a mint waits for ever'),
 ('C75', P, ['C75_meaning', 'C75_consent', 'C75_supply', 'C75_kept', 'C75_no_refund', 'C75_stuck', 'C75_fee_kept', 'C75_amounts', 'C75_finalized', 'C75_native_covered', 'C75_token_covered', 'C75_native_funded', 'C75_token_funded', 'Example.C75_example'], 'ledgers with balances and allowances (Spec.Banked), together with the chain (Spec.Joint) for the covered and funded theorems; the theorems about refunds are a finding: the minter never approves itself for its fee account'),
 ('C76', P, ['C76_scraped', 'C76_registered', 'C76_credited', 'C76_pauses', 'C76_undisturbed', 'Example.C76_example'], 'endless executions in which the chain is watched (Spec.Watching) and, for the credit, steady ones (Spec.Steady); C76_credited needs a further block that gets deep enough, C76_undisturbed needs that no mint is running when the deposit is registered (see C74_waits)'),
 ('C77', P, ['C77_served', 'C77_amounts', 'Example.C77_example'], 'endless executions in which withdrawals are served (Spec.Serving) and the chain mines what it is offered again and again (Spec.Mines)'),
 ('C78', P, ['C78_oldest', 'C78_idle', 'Example.C78_example'], 'for histories in which upgrades never lower the nonce (NonceNeverLowered, see C13)'),
 ('C79', P, ['C79_tells', 'C79_honest', 'C79_whom', 'C79_send', 'C79_receipts', 'C79_numbers', 'C79_reported', 'C79_counted', 'C79_observed', 'Example.C79_example', 'Example.C79_example_reported', 'Example.C79_example_send', 'Example.C79_example_logs'], 'nodes are truthful in the sense of Spec/Node.lean; the only helper contract that init and upgrades name is the one of the chain (OnlyHelper); hashes have 32 bytes; upgrades never lower the nonce'),
 ('C80', H, ['C80_search_partial','C80_zeros','Example.C80_example'], 'false of the code: searched by sender, the default account is found only if written without subaccount, not with 32 zero bytes, which the ledger standard declares to be the same account (C80_zeros); the partial theorem asks that the sender is not given with the zero subaccount'),
 ('C81', P, ['C81_all','C81_sorted','C81_fits','C81_too_little_room','C81_readable','C81_json','C81_words','Example.C81_example','Example.C81_example_words'], 'the code is in the library, but no endpoint calls it at this commit; the JSON text of serde_json is modelled'),
 ('C82', P, ['C82_ends','C82_not_both','Example.C82_example'], 'the conditions on the environment are those of C77 and C74; both are met by the execution of the example'),
 ('C83', P, ['C83_amount','C83_canonical','C83_amount_injective','C83_quantity','C83_quantity_round_trip','C83_block','C83_block_round_trip','C83_data','C83_topic','C83_data_round_trip','Example.C83_example'], 'the behaviour of ethnum, hex and thousands is taken from their documentation; the minter itself prints these texts but reads blocks and data only in tests'),
 ('C84', P, ['C84_event','C84_unique','C84_bytes','C84_distinct','C84_read','C84_log','C84_mint','C84_burn','C84_number','Example.C84_example','Example.C84_example_form'], 'minicbor is not part of the repository; its encoders are modelled from its documentation, with a parameter for what that leaves open'),
 ('C85', P, ['C85_native','C85_erc20','C85_native_amount','C85_erc20_amount','C85_others','C85_asked','C85_total','Example.C85_example_killed','Example.C85_example_erc20'], 'over all reachable worlds; that a withdrawal fee above the amount is taken before the trap is C31_trap_after_fee'),
 ('C86', H, ['C86_forward_partial', 'C86_success', 'C86_reimbursed', 'C86_quarantined', 'Example.C86_goes_back', 'Example.C86_example', 'Example.C86_example_quarantined'], 'violated: when a sent transaction is resubmitted, the status goes back from TxSent to TxCreated until the replacement is signed (C86_goes_back); proved: everything else only moves forward, and this step back happens only by a resubmission'),
 ('C87', P, ['C87_versions', 'C87_native', 'C87_erc20', 'Example.C87_example'], 'a withdrawal of 2^256-1 is excluded, as in C15'),
 ('C88', H, ['C88_accepted_partial', 'C88_refused', 'C88_tokens', 'C88_held', 'Example.C88_rejected', 'Example.C88_example', 'Example.C88_example_tokens', 'Example.C88_example_held', 'Example.C88_example_held_tokens'], 'violated: only the priority fee is raised by 10%; the maximum fee is raised to what the estimate needs, often not at all, and go-ethereum then refuses the replacement (C88_rejected), always for token withdrawals (C88_tokens), of which nodes keep the first version (C88_held); proved: exactly when it is accepted'),
 ('C89', H, ['C89_replaced_partial', 'C89_held_up', 'Example.C89_waits', 'Example.C89_example'], 'violated: the loop over the sent transactions returns at the first one that cannot pay for its replacement, so that none after it is replaced (C89_waits, C89_held_up); proved: all are replaced that have no such one before them'),
 ('C90', P, ['C90_native', 'C90_tokens', 'C90_charged', 'Example.C90_example'], 'the creation is a decision of one function; that the fee was set from a fresh estimate is about all executions with their prices, as in C72'),
 ('C40', H, ['Candid.C40_answer', 'Candid.C40_slice_partial', 'Candid.C40_pages_partial', 'Candid.C40_recover_partial', 'Candid.C40_read', 'Candid.C40_nothing_lost', 'Candid.C40_start_wraps', 'Candid.C40_hash_dropped', 'Example.C40_example_wraps'], 'violated for starts of 2^32 and more, where the 32-bit conversion of the start wraps around (C40_start_wraps, C40_example_wraps); proved for all smaller starts, i.e. for logs of up to 2^32 events'),
 ('C46', P, ['C46_valid_fees'], 'over all executions (Run) with the stated restrictions'),
]
names = set()
for d, _, fs in os.walk(os.path.join(ROOT, 'lean/Verif')):
    for f in fs:
        if f.endswith('.lean'):
            for m in re.finditer(r'^(?:protected )?theorem ([^\s:({\[]+)', open(os.path.join(d, f)).read(), re.M):
                names.add(m.group(1))
bad = [t for _, _, ts, _ in CLAIMS for t in ts if t not in names and t.split('.')[-1] not in names]
if bad: sys.exit('missing theorems: %s' % bad)
out = {'claims': [{'property': p, 'status': s, 'theorems': ['EvmMinter.' + t for t in ts], 'note': n} for p, s, ts, n in CLAIMS]}
with open(os.path.join(ROOT, 'MANIFEST.json'), 'w') as f:
    json.dump(out, f, indent=1, ensure_ascii=False); f.write('\n')
