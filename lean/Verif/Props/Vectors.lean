import Verif.Model.Texts
import Verif.Model.Ranges
import Verif.Model.Withdraw
import Verif.Model.CheckedAmount
import Verif.Props.C44
import Verif.Model.Rpc
import Verif.Model.Scrape
import Verif.Spec.Example
/-!
# Expected values of the unit tests of the program

The values that the tests of the repository expect (minter/src/tests.rs, eth_types/tests.rs, deposit_logs/test.rs,
numeric/tests.rs, rpc_client/tests.rs, state/tests.rs, state/transactions/tests.rs), computed with the model. They are tests: they
compare the model with the program on a few inputs, and no property rests on them. Values of tests that are already examples of a
property (the transaction of C34, the memos of C41, the topic of C11) are not repeated.
-/

namespace EvmMinter.Vectors

attribute [local instance] Example.realKeccak

/-! ## Addresses (eth_types/tests.rs, tests.rs) -/

/-- `should_display_address_with_checksum`: the examples of EIP-55. -/
example : ["0x7574eB42cA208A4f6960ECCAfDF186D627dCC175", "0x52908400098527886E0F7030069857D2E4169EE7",
    "0x8617E340B3D01FA5F11F306F4090FD50E238070D", "0xde709f2102306220921060314715629080e2fb77",
    "0x27b1fdb04752bbc536007a920d24acb045561c26", "0x5aAeb6053F3E94C9b9A09f33669435E7Ef1BeAed",
    "0xfB6916095ca1df60bB79Ce92cE3Ea74c37c5d359", "0xdbF03B407c01E7cD3CBea99509d93f8DDDC8C6FB",
    "0xD1220A0cf47c7B9Be7A2E6BA89F429762e7b9aDb"].all (fun s =>
      (Address.parse s.toList).map Address.display == some s.toList) = true := by
  decide +kernel

/-- `address_from_pubkey`. -/
example : String.ofList (addressOfKey (toBE 64 0xe68acfc0253a10620dff706b0a1b1f1f5833ea3beb3bde2250d5f271f3563606672ebc45e0b7ea2e816ecb70ca03137b1c9476eec63d4632e990020b7b6fba39)).display =
      "0x90F8bf6A479f320ead074411a4B0e7944Ea8c9C1" ∧
    String.ofList (addressOfKey (toBE 64 0xbbe06c9dd095cdf0aded667ea17621e8c1fdcd36ffe112a9c94e47aa6be1406a666e1001cf0067d0f9a541043dfc5438ead7be3ecbcdc328b67d8f966bceea63)).display =
      "0x721B68fA152a930F3df71F54aC1ce7ed3ac5f867" := by
  decide +kernel

/-! ## Principals (deposit_logs/test.rs) -/

/-- The bytes of `2chl6-4hpzw-vqaaa-aaaaa-c`. -/
def shortPrincipal : Bytes := toBE 9 0xefcdab000000000001

/-- The bytes of `hkroy-sm7vs-yyjs7-ekppe-qqnwx-hm4zf-n7ybs-titsi-k6e3k-ucuiu-uqe`. -/
def longPrincipal : Bytes := toBE 29 0x9facb184cbe453de4841b6b9d9cc95bfc065344e485789b55054452902

/-- The principal that a slice is read as. -/
def readPrincipal (slice : Bytes) : Option Principal :=
  match parsePrincipal slice with
  | .ok (.ok p) => some p
  | _ => none

/-- `should_deserialize_principal`. -/
example : readPrincipal (9 :: shortPrincipal) = some ⟨shortPrincipal⟩ := by decide +kernel

/-- `should_fail_when_first_byte_is_zero`. -/
example : readPrincipal (0 :: 9 :: shortPrincipal) = none := by decide +kernel

/-- `should_fail_when_first_byte_larger_than_29`. -/
example : (List.range 226).all (fun i => (readPrincipal (UInt8.ofNat (30 + i) :: 9 :: shortPrincipal)).isNone) = true := by
  decide +kernel

/-- `should_fail_when_length_shorter_than_value_in_first_byte`. -/
example : (List.range 10).all (fun i => (readPrincipal ((9 :: shortPrincipal).take i)).isNone) = true := by decide +kernel

/-- `should_fail_when_non_trailing_zeroes`. -/
example : readPrincipal (9 :: shortPrincipal ++ [0, 0, 0, 1, 0]) = none := by decide +kernel

/-! ## Deposit logs (tests.rs) -/

/-- A word. -/
def word (n : Nat) : Word32 := ⟨toBE 32 n, length_toBE _ _⟩

/-- The log of `should_parse_received_eth_event`. -/
def nativeLog : LogEntry where
  address := 0xF199c1779706fE7Fe636B9897043F51235295E96
  topics := [word 0xdeaddf8708b62ae1bf8ec4693b523254aa961b2da6bc5be57f3188ee784d6275, word 0, word 0x5af3107a4000,
    word 0x09efcdab00000000000100000000000000000000000000000000000000000000]
  data := toBE 64 0x5d737f982696fe2fe4ef1c7584e914c3a8e44d540000000000000000000000000000000000000000000000000000000000000000
  blockNumber := some 0x3ca487
  transactionHash := some 0x705f826861c802b407843e99af986cfde8749b669e5e0a5a150f4350bcaa9bc3
  transactionIndex := some 0x22
  blockHash := some 0x8436209a391f7bc076123616ecb229602124eb6c1007f5eae84df8e098885d3c
  logIndex := some 0x27
  removed := false

/-- `should_parse_received_eth_event`. -/
example : parseLog nativeLog = .ok (.ok (.native {
    transactionHash := 0x705f826861c802b407843e99af986cfde8749b669e5e0a5a150f4350bcaa9bc3, blockNumber := 3974279, logIndex := 39
    fromAddress := 0x5d737F982696Fe2fE4eF1c7584E914C3A8e44D54, value := 100_000_000_000_000, principal := ⟨shortPrincipal⟩
    subaccount := none })) := by
  decide +kernel

/-- `should_parse_received_native_event_with_subaccount`. -/
example : parseLog { nativeLog with
    data := toBE 64 0x5d737f982696fe2fe4ef1c7584e914c3a8e44d54ffffffffffffffffffffffffffffffffffffffffffffffffffffffffffffffff
    blockNumber := some 0x698ab3, transactionHash := some 0x037305b461a7c69bf65d4e143262fc038b39d5e46da79de1539e3a90e91b9b37
    logIndex := some 0x14 } = .ok (.ok (.native {
    transactionHash := 0x037305b461a7c69bf65d4e143262fc038b39d5e46da79de1539e3a90e91b9b37, blockNumber := 6916787, logIndex := 20
    fromAddress := 0x5d737F982696Fe2fE4eF1c7584E914C3A8e44D54, value := 100_000_000_000_000, principal := ⟨shortPrincipal⟩
    subaccount := some (2 ^ 256 - 1) })) := by
  decide +kernel

/-- `should_parse_received_erc20_event`. -/
example : parseLog { nativeLog with
    topics := [word 0xdeaddf8708b62ae1bf8ec4693b523254aa961b2da6bc5be57f3188ee784d6275,
      word 0x779877a7b0d9e8603169ddbd7836e478b4624789, word 0x4563918244f40000,
      word 0x1d9facb184cbe453de4841b6b9d9cc95bfc065344e485789b550544529020000]
    blockNumber := some 0x5146a4
    transactionHash := some 0x44d8e93a8f4bbc89ad35fc4fbbdb12cb597b4832da09c0b2300777be180fde87 } = .ok (.ok (.erc20 {
    transactionHash := 0x44d8e93a8f4bbc89ad35fc4fbbdb12cb597b4832da09c0b2300777be180fde87, blockNumber := 5326500, logIndex := 39
    fromAddress := 0x5d737F982696Fe2fE4eF1c7584E914C3A8e44D54, value := 5_000_000_000_000_000_000, principal := ⟨longPrincipal⟩
    erc20ContractAddress := 0x779877A7B0D9E8603169DdbD7836e478b4624789, subaccount := none })) := by
  decide +kernel

/-- `should_parse_received_erc20_event_with_subaccount`. -/
example : parseLog { nativeLog with
    topics := [word 0xdeaddf8708b62ae1bf8ec4693b523254aa961b2da6bc5be57f3188ee784d6275,
      word 0x779877a7b0d9e8603169ddbd7836e478b4624789, word 0x5af3107a4000,
      word 0x09efcdab00000000000100000000000000000000000000000000000000000000]
    data := toBE 64 0x5d737f982696fe2fe4ef1c7584e914c3a8e44d54ffffffffffffffffffffffffffffffffffffffffffffffffffffffffffffffff
    blockNumber := some 0x698adb, transactionHash := some 0xf353e17cbcfea236a8b03d2d800205074e1f5014a3ce0f6dedcf128addb6bea4
    logIndex := some 0x45 } = .ok (.ok (.erc20 {
    transactionHash := 0xf353e17cbcfea236a8b03d2d800205074e1f5014a3ce0f6dedcf128addb6bea4, blockNumber := 6916827, logIndex := 69
    fromAddress := 0x5d737F982696Fe2fE4eF1c7584E914C3A8e44D54, value := 100_000_000_000_000, principal := ⟨shortPrincipal⟩
    erc20ContractAddress := 0x779877a7b0d9e8603169ddbd7836e478b4624789, subaccount := some (2 ^ 256 - 1) })) := by
  decide +kernel

/-- `should_not_parse_removed_event`. -/
example : parseLog { nativeLog with
    topics := [word 0xdeaddf8708b62ae1bf8ec4693b523254aa961b2da6bc5be57f3188ee784d6275,
      word 0x779877a7b0d9e8603169ddbd7836e478b4624789, word 0x4563918244f40000,
      word 0x09efcdab00000000000100000000000000000000000000000000000000000000]
    removed := true } = .ok (.error (.invalid
      ⟨0x705f826861c802b407843e99af986cfde8749b669e5e0a5a150f4350bcaa9bc3, 39⟩
      (.invalidEvent "this event has been removed from the chain"))) := by
  decide +kernel

/-- `should_not_allow_log_scraping` and `should_allow_log_scrapping`. -/
example : validateScrapingRequest 100 1_732_638_362_000_000_000 99 2_845_738_362_000_000_000 = .error .blockAlreadyObserved ∧
    validateScrapingRequest 100 1_732_638_362_000_000_000 200 (1_732_638_362_000_000_000 + 30_000_000_000) =
      .error .calledTooManyTimes ∧
    validateScrapingRequest 100 1_732_638_362_000_000_000 200 (1_732_638_362_000_000_000 + 60_000_000_001) = .ok () := by
  decide +kernel

/-! ## Numbers and ranges (numeric/tests.rs) -/

/-- `should_not_overflow_when_converting_from_milli_ether`. -/
example : Word256.weiFromMilliEther (BitVec.allOnes 128) =
    some 0xDE0B6B3A763FFFFFFFFFFFFFFFFFFFFF21F494C589C0000#256 := by
  decide +kernel

/-- The digits of a number, grouped. -/
example : String.ofList (Texts.amount 0x4b85a0fcd) = "20_272_779_213" ∧
    String.ofList (Texts.amount 0x698AB3) = "6_916_787" ∧ String.ofList (Texts.amount 0x698DD2) = "6_917_586" := by
  decide +kernel

/-- The first pieces of a range, with `none` where the iteration ends. -/
def pieces (c : Chunks) : Nat → List (Option (Nat × Nat))
  | 0 => []
  | n + 1 =>
    match c.next with
    | .ok (r, c) => r.map (fun r => (r.start, r.stop)) :: pieces c n
    | .error _ => []

/-- The first pieces of the range from `a` to `b`. -/
def chunks (a b size n : Nat) : List (Option (Nat × Nat)) :=
  match (BlockRange.mk a b).intoChunks size with
  | .ok c => pieces c n
  | .error _ => []

/-- `should_be_non_overlapping`, `should_be_one_by_one`, `should_be_one_iteration` and `should_be_empty`. -/
example : chunks 1 100 23 6 = [some (1, 23), some (24, 46), some (47, 69), some (70, 92), some (93, 100), none] ∧
    chunks 0 4 1 6 = [some (0, 0), some (1, 1), some (2, 2), some (3, 3), some (4, 4), none] ∧
    chunks 0 0 1 2 = [some (0, 0), none] ∧ chunks 1 1 1 2 = [some (1, 1), none] ∧
    chunks u256Max u256Max 1 2 = [some (u256Max, u256Max), none] ∧ chunks u256Max 0 65535 1 = [none] := by
  decide +kernel

/-! ## Answers of several providers (rpc_client/tests.rs) -/

section Providers
open Rpc

/-- A call that was rejected by the canister. -/
def reject : RpcError := .http (.ic 4 "reject")

/-- The value, if there is one. -/
def value {α : Type} : Reduced α → Option α
  | .ok a => some a
  | .error _ => none

/-- The reported answers, if they do not agree. -/
def reported {α : Type} : Reduced α → Option (List (Provider × Except SingleCallError α))
  | .error (.inconsistent l) => some l
  | _ => none

/-- `should_be_inconsistent_single_call_error`. -/
example : reported (reduceWithEquality (fromMultiResult (.inconsistent [(1, .error reject), (0, .ok "world")]))) =
    some [(1, .error (.http (.ic 4 "reject"))), (0, .ok "world")] := by
  decide +kernel

/-- `should_be_consistent_ok_result`, `should_be_consistent_if_only_one_http_error_and_two_consistent_ok` and
`should_be_consistent_if_only_one_http_error_and_two_inconsistent_ok`. -/
example : value (reduceWithEquality (fromMultiResult (.consistent (.ok "0x01")))) = some "0x01" ∧
    value (reduceWithEquality (fromMultiResult
      (.inconsistent [(1, .error reject), (0, .ok "world"), (3, .ok "world")]))) = some "world" ∧
    reported (reduceWithEquality (fromMultiResult
      (.inconsistent [(1, .error reject), (0, .ok "world"), (3, .ok "goodbye")]))) =
      some [(1, .error (.http (.ic 4 "reject"))), (0, .ok "world"), (3, .ok "goodbye")] := by
  decide +kernel

/-- `should_get_minimum_block_number`. -/
example : (reduceWithMinByKey (K := Nat) Prod.fst
    (fromMultiResult (.inconsistent [(1, .ok (0x411cda, 0x10)), (0, .ok (0x411cd9, 0x10))]))).toOption.bind value =
    some (0x411cd9, 0x10) := by
  decide +kernel

/-- The fee history of the tests. -/
def history : FeeHistory where
  oldestBlock := 0x10f73fc
  baseFeePerGas := [0x729d3f3b3, 0x766e503ea, 0x75b51b620, 0x74094f2b4, 0x716724f03, 0x73b467f76]
  reward := [[0x5f5e100], [0x55d4a80], [0x5f5e100], [0x5f5e100], [0x5f5e100]]

/-- `List.mergeSort` for at most three elements; the kernel cannot compute the sort of the library. -/
def sortThree {α : Type} (le : α → α → Bool) : List α → List α
  | [a, b] => if le a b then [a, b] else [b, a]
  | [a, b, c] =>
    if le a b then (if le a c then a :: (if le b c then [b, c] else [c, b]) else [c, a, b])
    else (if le b c then b :: (if le a c then [a, c] else [c, a]) else [c, b, a])
  | l => l

theorem mergeSort_eq_sortThree {α : Type} (le : α → α → Bool) {l : List α} (h : l.length ≤ 3) :
    l.mergeSort le = sortThree le l := by
  match l with
  | [] => simp [sortThree]
  | [a] => simp [sortThree]
  | [a, b] =>
    simp [List.mergeSort, List.MergeSort.Internal.splitInTwo, sortThree, List.merge]
  | [a, b, c] =>
    simp only [List.mergeSort, List.MergeSort.Internal.splitInTwo, sortThree]
    cases h : le a b <;> simp [List.mergeSort, List.MergeSort.Internal.splitInTwo, List.merge, h]
  | _ :: _ :: _ :: _ :: _ => simp at h

/-- `decideVotes` after the sort. -/
def decideTally {α : Type} (tally : List (Nat × Ballot α)) : Res (Reduced α) :=
  match tally.length with
  | 0 => .error "BUG: tally should be non-empty"
  | 1 => do
    let (_, a) ← expect (tally.getLast?.bind fun x => x.2.entries.getLast?) "BUG: tally is non-empty"
    return .ok a
  | _ => do
    let first ← expect tally.getLast? "BUG: tally has at least 2 elements"
    let second ← expect tally.dropLast.getLast? "BUG: tally has at least 2 elements"
    if first.2.size > second.2.size then
      let (_, a) ← expect first.2.entries.getLast? "BUG: tally should be non-empty"
      return .ok a
    else return .error (.inconsistent ((first.2.toList ++ second.2.toList).map fun x => (x.1, .ok x.2)))

/-- `reduce_with_strict_majority_by_key` with the oldest block as key. -/
def majority (l : List (Provider × Except RpcError FeeHistory)) : Option (Reduced FeeHistory) :=
  (reduceWithStrictMajorityByKey (K := Nat) FeeHistory.oldestBlock (fromMultiResult (.inconsistent l))).toOption

/-- The votes, if there are some. -/
def votes (l : List (Provider × Except RpcError FeeHistory)) : Option (FMap Nat (Ballot FeeHistory)) :=
  match fromMultiResult (.inconsistent l) with
  | .ok _ => none
  | .error e =>
    match e.atLeastTwoOk with
    | .error _ => none
    | .ok oks =>
      match addVotes FeeHistory.oldestBlock ∅ oks with
      | .ok (.ok v) => some v
      | _ => none

/-- The majority with a sort that the kernel can compute. -/
theorem majority_eq {l : List (Provider × Except RpcError FeeHistory)} {v : FMap Nat (Ballot FeeHistory)} (h : votes l = some v)
    (hl : v.toList.length ≤ 3) :
    majority l = (decideTally (sortThree (fun x y => decide (x.2.size ≤ y.2.size)) v.toList)).toOption := by
  unfold votes at h
  unfold majority reduceWithStrictMajorityByKey
  rw [← mergeSort_eq_sortThree _ hl]
  split at h
  · cases h
  · rename_i e he
    rw [he]
    split at h
    · cases h
    · rename_i oks ho
      split at h
      · rename_i w hw
        cases h
        simp only [ho]
        rw [hw]
        rfl
      · cases h

/-- The answers, with a sort that the kernel can compute. -/
def counted (l : List (Provider × Except RpcError FeeHistory)) : Option (Reduced FeeHistory) :=
  match votes l with
  | none => majority l
  | some v =>
    if v.toList.length ≤ 3 then (decideTally (sortThree (fun x y => decide (x.2.size ≤ y.2.size)) v.toList)).toOption
    else majority l

theorem counted_eq (l : List (Provider × Except RpcError FeeHistory)) : majority l = counted l := by
  unfold counted
  split
  · rfl
  · rename_i v hv
    split
    · exact majority_eq hv (by assumption)
    · rfl

/-- `should_get_unanimous_fee_history`, `should_get_fee_history_with_2_out_of_3` and
`should_get_fee_history_with_2_out_of_3_when_third_is_error`; the providers are numbered in the order of the type. -/
example :
    let other := { history with oldestBlock := 0x10f73fd }
    (majority [(1, .ok history), (0, .ok history), (2, .ok history)]).bind value = some history ∧
    (majority [(1, .ok other), (0, .ok history), (3, .ok history)]).bind value = some history ∧
    (majority [(1, .ok history), (0, .ok other), (3, .ok history)]).bind value = some history ∧
    (majority [(1, .ok history), (0, .ok history), (3, .ok other)]).bind value = some history ∧
    (majority [(1, .ok history), (0, .error reject), (3, .ok history)]).bind value = some history := by
  simp only [counted_eq]
  decide +kernel

/-- `should_fail_when_no_strict_majority`. -/
example :
    let ankr := { history with oldestBlock := 0x10f73fd }
    let alchemy := { history with oldestBlock := 0x10f73fc }
    let publicNode := { history with oldestBlock := 0x10f73fe }
    (majority [(1, .ok ankr), (0, .ok alchemy), (3, .ok publicNode)]).bind reported =
      some [(3, .ok publicNode), (1, .ok ankr)] ∧
    (majority [(1, .ok ankr), (3, .ok publicNode)]).bind reported = some [(3, .ok publicNode), (1, .ok ankr)] ∧
    (majority [(1, .ok ankr), (0, .error reject), (3, .ok publicNode)]).bind reported =
      some [(3, .ok publicNode), (1, .ok ankr)] := by
  simp only [counted_eq]
  decide +kernel

/-- `should_fail_when_fee_history_inconsistent_for_same_oldest_block` and `should_fail_when_no_sufficient_ok_responses`. -/
example :
    let other := { history with baseFeePerGas := 0x729d3f3b4 :: history.baseFeePerGas.tail }
    (majority [(1, .ok history), (3, .ok other)]).bind reported = some [(1, .ok history), (3, .ok other)] ∧
    (majority [(1, .ok history), (3, .error reject)]).bind reported =
      some [(1, .ok history), (3, .error (.http (.ic 4 "reject")))] := by
  simp only [counted_eq]
  decide +kernel

end Providers

/-! ## The state (state/tests.rs) -/

/-- `initial_state`: the argument. The conversion from milli-ether multiplies by 10 ^ 18 (see C37). -/
def initArg : InitArg where
  evmNetwork := .sepolia
  ecdsaKeyName := "test_key_1".toList
  helperContractAddress := none
  nativeLedgerId := ⟨toBE 10 0x00000000023000580101⟩
  nativeIndexId := ⟨toBE 10 0x0000000001e0540b0101⟩
  nativeSymbol := "icMatic"
  blockHeight := .latest
  nativeMinimumWithdrawalAmount := 20 * 10 ^ 18
  nativeLedgerTransferFee := 10 * 10 ^ 18
  nextTransactionNonce := 0
  lastScrapedBlockNumber := 0
  minMaxPriorityFeePerGas := 15000
  ledgerSuiteManagerId := ⟨toBE 10 0x0000000000c09cb70101⟩
  depositNativeFee := 10 ^ 18
  withdrawalNativeFee := 10 ^ 18

/-- What an upgrade of the initial state answers. -/
def upgradeError (a : UpgradeArg) : Option InvalidStateError :=
  match State.ofInit initArg with
  | .ok s =>
    match s.upgrade a with
    | .error e => some e
    | .ok _ => none
  | .error _ => none

/-- `should_fail_when_upgrade_args_invalid`. -/
example : upgradeError { nextTransactionNonce := some (2 ^ 256) } = some .transactionNonce ∧
    upgradeError { nativeMinimumWithdrawalAmount := some 0 } = some .minimumWithdrawalAmount ∧
    upgradeError { nativeMinimumWithdrawalAmount := some (2_000_000_000_000 - 1) } = some .minimumWithdrawalAmount ∧
    upgradeError { nativeMinimumWithdrawalAmount := some (10_000_000_000 - 1) } = some .minimumWithdrawalAmount ∧
    upgradeError { helperContractAddress := some "invalid".toList } = some .helperContractAddress ∧
    upgradeError { helperContractAddress := some "0x0000000000000000000000000000000000000000".toList } =
      some .helperContractAddress := by
  decide +kernel

/-- `upgrade::should_succeed`. -/
example : ((State.ofInit initArg).bind fun s => s.upgrade {
      nextTransactionNonce := some 15, nativeMinimumWithdrawalAmount := some 20_000_000_000_000_000
      helperContractAddress := some "0xb44B5e756A894775FC32EDdf3314Bb1B1944dC34".toList, blockHeight := some .safe
      nativeLedgerTransferFee := some 10_000_000_000_000_000 }).toOption.map (fun s =>
        (s.txs.nextNonce, s.nativeMinimumWithdrawalAmount, s.helperContractAddress, s.blockHeight)) =
    some (15, 20_000_000_000_000_000, some 0xb44B5e756A894775FC32EDdf3314Bb1B1944dC34, .safe) := by
  decide +kernel

/-- `ic_usdc`. -/
def usdc : Erc20Token := ⟨.sepolia, 0xa0b86991c6218b36c1d19d4a2e9eb0ce3606eb48, "icUSDC", ⟨toBE 10 0x00000000023000060101⟩⟩

/-- `ic_usdt`. -/
def usdt : Erc20Token := ⟨.sepolia, 0xdac17f958d2ee523a2206206994597c13d831ec7, "ckUSDT", ⟨toBE 10 0x000000000230000c0101⟩⟩

/-- The supported tokens after adding some. -/
def supported (l : List Erc20Token) : Option (List Erc20Token) :=
  (replay (.init initArg :: l.map .addedErc20Token)).toOption.bind fun s => s.supportedErc20Tokens.toOption

/-- The tests of `record_add_erc20_token`. -/
example : supported [usdc] = some [usdc] ∧ supported [usdc, usdt] = some [usdc, usdt] ∧
    supported [{ usdc with chainId := .ethereum }] = none ∧
    supported [usdc, { usdt with erc20LedgerId := usdc.erc20LedgerId }] = none ∧
    supported [usdc, { usdt with erc20ContractAddress := usdc.erc20ContractAddress }] = none ∧
    supported [usdc, { usdt with symbol := usdc.symbol }] = none := by
  decide +kernel

/-- `received_deposit_event`. -/
def nativeDeposit : NativeDeposit where
  transactionHash := 0xf1ac37d920fa57d9caeebc7136fea591191250309ffca95ae0e8a7739de89cc2
  blockNumber := 3960623
  logIndex := 29
  fromAddress := 0xdd2851cdd40ae6536831558dd46db62fac7a844d
  value := 10_000_000_000_000_000
  principal := ⟨toBE 29 0xb56bf994b37ae8e79f5ce000be1727a6060ae4eef24736b7cc999c3c02⟩
  subaccount := none

/-- `received_erc20_event`. -/
def tokenDeposit : Erc20Deposit where
  transactionHash := 0xd9335910102c08a9dc16f8cc1a42a0bf8ca93666d11dc3194c6ee1bd30d19686
  blockNumber := 5539903
  logIndex := 0x57
  fromAddress := 0xdd2851Cdd40aE6536831558DD46db62fAc7A844d
  value := 5_000_000
  principal := ⟨longPrincipal⟩
  erc20ContractAddress := 0x1c7d4b196cb0c7b01d743fbc6116a902379c7238
  subaccount := none

/-- `add_erc20_token`. -/
def sepoliaUsdc : Erc20Token :=
  ⟨.sepolia, 0x1c7d4b196cb0c7b01d743fbc6116a902379c7238, "ckSepoliaUSDC", ⟨toBE 10 0x00000000023001070101⟩⟩

/-- The number of the burn that pays for a request. -/
def burnIndex : Request → Nat
  | .native r => r.ledgerBurnIndex
  | .erc20 r => r.nativeLedgerBurnIndex

/-- `WithdrawalFlow::apply`: a request is accepted, its transaction created, signed and mined. -/
def flow (start : List Event) (r : Request) (g : GasFeeEstimate) (gasLimit gasPrice gasUsed : Nat) (status : TxStatus) :
    Res State := do
  match ← createTransaction r 0 g gasLimit .sepolia with
  | .error _ => .error "BUG: failed to create transaction"
  | .ok tx =>
    let signed : SignedTx := ⟨tx, ⟨false, 0, 0⟩⟩
    replay (start ++ [r.intoEvent, .createdTransaction (burnIndex r) tx, .signedTransaction (burnIndex r) signed,
      .finalizedTransaction (burnIndex r) {
        blockHash := 0xce67a85c9fb8bc50213815c32814c159fd75160acf7cb8631e8e7b7cf7f1d472, blockNumber := 4190269
        effectiveGasPrice := gasPrice, gasUsed, status, transactionHash := signed.hash }])

/-- The balances of a state. -/
def balances (r : Res State) : Option (NativeBalance × List (Address × Nat)) :=
  r.toOption.map fun s => (s.nativeBalance, s.erc20Balances.toList)

/-- `should_add_deposit_to_native_balance`, `should_ignore_erc20_deposit_for_native_balance` and `should_ignore_rejected_deposit`. -/
example : balances (replay [.init initArg, .acceptedDeposit nativeDeposit]) = some (⟨10_000_000_000_000_000, 0, 0⟩, []) ∧
    balances (replay [.init initArg, .addedErc20Token sepoliaUsdc, .acceptedErc20Deposit tokenDeposit]) =
      some (⟨0, 0, 0⟩, [(0x1c7d4b196cb0c7b01d743fbc6116a902379c7238, 5_000_000)]) ∧
    balances (replay [.init initArg, .invalidDeposit (Deposit.native nativeDeposit).source "invalid principal",
      .addedErc20Token sepoliaUsdc, .invalidDeposit (Deposit.erc20 tokenDeposit).source "invalid principal"]) = some (⟨0, 0, 0⟩, []) ∧
    (replay [.init initArg, .acceptedErc20Deposit tokenDeposit]).toOption.isNone = true := by
  decide +kernel

/-- The native request of `should_update_after_successful_and_failed_withdrawal`
(transaction 0xef628b8f45984bdf386f5b765b665a2e584295e1190d21c6acdfabe17c27e1bb of Sepolia). -/
def nativeRequest : Request := .native {
  withdrawalAmount := 10_000_000_000_000_000
  destination := 0xb44B5e756A894775FC32EDdf3314Bb1B1944dC34
  ledgerBurnIndex := 0
  «from» := ⟨toBE 29 0xb56bf994b37ae8e79f5ce000be1727a6060ae4eef24736b7cc999c3c02⟩
  fromSubaccount := none
  createdAt := some 1699527697000000000 }

/-- `should_update_after_successful_and_failed_withdrawal`. -/
example : balances (flow [.init initArg, .acceptedDeposit nativeDeposit] nativeRequest ⟨0xbc9998d1, 1_500_000_000⟩ 21_000
      0x1176e9eb9 21_000 .success) =
      some (⟨10_000_000_000_000_000 - 9_934_054_275_043_000, 98_449_949_997_000, 65_945_724_957_000⟩, []) ∧
    balances (flow [.init initArg, .acceptedDeposit nativeDeposit] nativeRequest ⟨0xbc9998d1, 1_500_000_000⟩ 21_000
      0x1176e9eb9 21_000 .failure) =
      some (⟨10_000_000_000_000_000 - 0x1176e9eb9 * 21_000, 98_449_949_997_000, 65_945_724_957_000⟩, []) := by
  decide +kernel

/-- `erc20_withdrawal_request` (transaction 0x9695853792c636f9098844931da5e0ae7c5bdc8b9c6a7471aa44aed96875affc of Sepolia). -/
def tokenRequest : Request := .erc20 {
  maxTransactionFee := 30_000_000_000_000_000
  withdrawalAmount := 4_996_000
  destination := 0xdd2851Cdd40aE6536831558DD46db62fAc7A844d
  nativeLedgerBurnIndex := 5
  erc20ContractAddress := 0x1c7D4B196Cb0C7B01d743Fbc6116a902379C7238
  erc20LedgerId := ⟨toBE 10 0x00000000023001070101⟩
  erc20LedgerBurnIndex := 2
  «from» := ⟨longPrincipal⟩
  fromSubaccount := none
  createdAt := 1_711_138_972_460_345_032 }

/-- `should_update_after_successful_and_failed_erc20_withdrawal`. -/
example :
    let start : List Event := [.init initArg, .addedErc20Token sepoliaUsdc, .acceptedErc20Deposit tokenDeposit,
      .acceptedDeposit nativeDeposit]
    let fee := 0x596cfd9a * 0xb003
    balances (flow start tokenRequest ⟨0x4ce9a, 1_500_000_000⟩ 65_000 0x596cfd9a 0xb003 .success) =
      some (⟨10_000_000_000_000_000 - fee, fee, 30_000_000_000_000_000 - fee⟩,
        [(0x1c7d4b196cb0c7b01d743fbc6116a902379c7238, 5_000_000 - 4_996_000)]) ∧
    balances (flow start tokenRequest ⟨0x4ce9a, 1_500_000_000⟩ 65_000 0x596cfd9a 0xb003 .failure) =
      some (⟨10_000_000_000_000_000 - fee, fee, 30_000_000_000_000_000 - fee⟩,
        [(0x1c7d4b196cb0c7b01d743fbc6116a902379c7238, 5_000_000)]) := by
  decide +kernel

/-! ## Transactions (state/transactions/tests.rs) -/

/-- `native_withdrawal_request_with_index` with an amount. -/
def native (i amount : Nat) : NativeRequest where
  withdrawalAmount := amount
  destination := 0xb44B5e756A894775FC32EDdf3314Bb1B1944dC34
  ledgerBurnIndex := i
  «from» := ⟨toBE 29 0xb56bf994b37ae8e79f5ce000be1727a6060ae4eef24736b7cc999c3c02⟩
  fromSubaccount := some (beNat (List.replicate 32 0x11))
  createdAt := some 1699527697000000000

/-- `erc20_withdrawal_request_with_index`. -/
def token (i j : Nat) : Erc20Request where
  maxTransactionFee := 30_000_000_000_000_000
  destination := 0xb44B5e756A894775FC32EDdf3314Bb1B1944dC34
  nativeLedgerBurnIndex := i
  erc20ContractAddress := 0xa0b86991c6218b36c1d19d4a2e9eb0ce3606eb48
  erc20LedgerId := ⟨toBE 10 0x000000000230009b0101⟩
  erc20LedgerBurnIndex := j
  withdrawalAmount := 1_100_000_000_000_000
  «from» := ⟨toBE 29 0xb56bf994b37ae8e79f5ce000be1727a6060ae4eef24736b7cc999c3c02⟩
  fromSubaccount := some (beNat (List.replicate 32 0x11))
  createdAt := 1699527697000000000

/-- `should_create_transaction` and `should_fail_when_amount_does_not_cover_transaction_fees` at the least amount that suffices
and one below. -/
example : createTransaction (.native (native 15 31_500_001_050_000)) 2 ⟨25, 0x59682f00⟩ 21_000 .sepolia = .ok (.ok {
      chainId := 11155111, nonce := 2, maxPriorityFeePerGas := 0x59682f00, maxFeePerGas := 1_500_000_050, gasLimit := 21_000
      destination := 0xb44B5e756A894775FC32EDdf3314Bb1B1944dC34, amount := 0, data := [], accessList := [] }) ∧
    createTransaction (.native (native 15 31_500_001_049_999)) 2 ⟨25, 0x59682f00⟩ 21_000 .sepolia =
      .ok (.error ⟨15, 31_500_001_049_999, 31_500_001_050_000⟩) := by
  decide +kernel

/-- `should_create_erc20_withdrawal_transaction` (transaction 0x295846b122356aebb2d426ffdc2510c2f5eecbf5fc359fb24bba8a7ab5fa8616 of
Ethereum) at the least fee that suffices and one below. -/
example :
    let r : Erc20Request := { token 15 2 with
      maxTransactionFee := 4_652_229_101_896_296, withdrawalAmount := 0x204123f
      destination := 0x6b9353bf4f90abdb218979b7596fafc3c6c6ac64 }
    createTransaction (.erc20 r) 0x57 ⟨0xb9790a88a, 0x2faf080⟩ 0x16ca4 .sepolia = .ok (.ok {
      chainId := 11155111, nonce := 0x57, maxPriorityFeePerGas := 0x2faf080, maxFeePerGas := 0xb9790a88a + 0x2faf080
      gasLimit := 0x16ca4, destination := 0xa0b86991c6218b36c1d19d4a2e9eb0ce3606eb48, amount := 0
      data := toBE 68 0xa9059cbb0000000000000000000000006b9353bf4f90abdb218979b7596fafc3c6c6ac64000000000000000000000000000000000000000000000000000000000204123f
      accessList := [] }) ∧
    createTransaction (.erc20 { r with maxTransactionFee := 4_652_229_101_896_295 }) 0x57 ⟨0xb9790a88a, 0x2faf080⟩ 0x16ca4 .sepolia =
      .ok (.error ⟨15, 4_652_229_101_896_295, 4_652_229_101_896_296⟩) := by
  decide +kernel

/-- The sent transaction of a request, created with the base fee 10 and the priority fee 2. -/
def sent (r : Request) : Option (Resubmittable SignedTx) :=
  match createTransaction r 0 ⟨10, 2⟩ (estimateGasLimit r) .sepolia with
  | .ok (.ok tx) => some ⟨⟨tx, ⟨false, 0, 0⟩⟩, match r with
    | .native q => .reduceEthAmount q.withdrawalAmount
    | .erc20 q => .guaranteeEthAmount q.maxTransactionFee⟩
  | _ => none

/-- What a resubmission at other fees changes: the maximal fee, the priority fee and the reduction of the amount. -/
def resubmitted (r : Request) (base priority : Nat) : Option (Option (Nat × Nat × Nat) ⊕ Nat) :=
  (sent r).bind fun t =>
    match t.resubmit ⟨base, priority⟩ with
    | .ok .unchanged => some (.inl none)
    | .ok (.replaced tx) => some (.inl (some (tx.maxFeePerGas, tx.maxPriorityFeePerGas, t.transaction.tx.amount - tx.amount)))
    | .ok (.insufficientFee _ fee) => some (.inr fee)
    | .error _ => none

/-- `should_resubmit_native_transaction_with_updated_price`. -/
example :
    let r := Request.native (native 15 1_100_000_000_000_000)
    resubmitted r 10 3 = some (.inl (some (22, 3, 0))) ∧
    resubmitted r 21 2 = some (.inl (some (24, 3, (24 - 22) * 21_000))) ∧
    resubmitted r 21 4 = some (.inl (some (25, 4, (25 - 22) * 21_000))) := by
  decide +kernel

/-- `should_be_empty_when_initial_max_fee_per_gas_covers_new_fee`. -/
example :
    let r := Request.native (native 15 1_100_000_000_000_000)
    (List.range 21).all (fun b => resubmitted r b 2 == some (.inl none)) = true ∧
    (List.range 22).all (fun b => resubmitted r b 1 == some (.inl none)) = true ∧
    (List.range 23).all (fun b => resubmitted r b 0 == some (.inl none)) = true := by
  decide +kernel

/-- `should_not_resubmit_erc20_transactions_unless_max_priority_fee_increases`; the last base fee is the maximal fee per gas of the
request. -/
example :
    let r := Request.erc20 (token 15 2)
    resubmitted r 21 2 = some (.inl none) ∧
    resubmitted r 10 3 = some (.inl (some (30_000_000_000_000_000 / 65_000, 3, 0))) ∧
    resubmitted r (30_000_000_000_000_000 / 65_000) 1 = some (.inr 30_000_000_000_165_000) := by
  decide +kernel

end EvmMinter.Vectors
