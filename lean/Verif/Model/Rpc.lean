import Verif.Base.FMap
import Verif.Base.Res
import Verif.Model.GasFee
import Verif.Model.Scrape
/-!
# Answers of the JSON-RPC providers (rpc_client/mod.rs and the crate evm_rpc_client)

The EVM RPC canister asks several providers and reports one common answer (`consistent`) or the answers one by one
(`inconsistent`). The functions below reduce such a report to one value or an error.

Simplifications: a provider (`RpcService`) is a number, only its order and equality matter; an error of the canister
carries a text; logging is left out; the types of `evm_rpc_types` (`Hex20`, `Nat256`, …) are the numbers and byte strings
of the model, so that conversions that only change the Rust type are identities.
-/

namespace EvmMinter
namespace Rpc

/-- `RpcService` (evm_rpc_types), used as key of a `BTreeMap`. -/
abbrev Provider := Nat

/-- `HttpOutcallError` (evm_rpc_types): a rejected call with its code, or an answer that is not JSON-RPC. -/
inductive HttpError where
  | ic (code : Nat) (message : String)
  | invalidHttpJsonRpcResponse (status : Nat) (body : String)
deriving DecidableEq, Repr

/-- `ProviderError` (evm_rpc_types); the variants other than `TooFewCycles` are only printed. -/
inductive ProviderError where
  | tooFewCycles (expected received : Nat)
  | other (text : String)
deriving DecidableEq, Repr

/-- The `Display` text of a `ProviderError`; it is only logged. -/
def ProviderError.text : ProviderError → String
  | .tooFewCycles _ _ => "too few cycles"
  | .other t => t

/-- `RpcError` (evm_rpc_types). -/
inductive RpcError where
  | provider (e : ProviderError)
  | http (e : HttpError)
  | jsonRpc (code : Int) (message : String)
  | validation (text : String)
deriving DecidableEq, Repr

/-- `MultiRpcResult` (evm_rpc_types). -/
inductive MultiRpcResult (α : Type) where
  | consistent (r : Except RpcError α)
  | inconsistent (l : List (Provider × Except RpcError α))

/-- `SingleCallError` (rpc_client/mod.rs:279-284). -/
inductive SingleCallError where
  | http (e : HttpError)
  | jsonRpc (code : Int) (message : String)
  | evmRpc (text : String)
deriving DecidableEq, Repr

/-- `impl From<EvmRpcError> for SingleCallError` (rpc_client/mod.rs:286-298). -/
def SingleCallError.ofRpcError : RpcError → SingleCallError
  | .provider e => .evmRpc e.text
  | .http e => .http e
  | .jsonRpc code message => .jsonRpc code message
  | .validation text => .evmRpc text

/-- `MultiCallError` (rpc_client/mod.rs:300-306). -/
inductive MultiCallError (α : Type) where
  | http (e : HttpError)
  | jsonRpc (code : Int) (message : String)
  | evmRpcCanister (text : String)
  | inconsistent (l : List (Provider × Except SingleCallError α))

/-- `ReducedResult` (rpc_client/mod.rs:376-391): a value or an error. -/
abbrev Reduced (α : Type) := Except (MultiCallError α) α

variable {α β K : Type}

/-- `filter_inconsistent_ok_results` (rpc_client/mod.rs:858-865). -/
def okResults (l : List (Provider × Except SingleCallError α)) : List (Provider × α) :=
  l.filterMap fun x =>
    match x.2 with
    | .ok a => some (x.1, a)
    | .error _ => none

/-- `has_http_outcall_error_matching` (rpc_client/mod.rs:309-330). -/
def MultiCallError.hasHttpErrorMatching (e : MultiCallError α) (p : HttpError → Bool) : Bool :=
  match e with
  | .http e => p e
  | .jsonRpc _ _ => false
  | .inconsistent l => l.any fun x =>
    match x.2 with
    | .ok _ => false
    | .error (.http e) => p e
    | .error (.jsonRpc _ _) => false
    | .error (.evmRpc _) => false
  | .evmRpcCanister _ => false

/-- `at_least_one_ok` (rpc_client/mod.rs:334-348). -/
def MultiCallError.atLeastOneOk (e : MultiCallError α) : Res (Except (MultiCallError α) (Provider × α)) :=
  match e with
  | .inconsistent l =>
    match (okResults l).length with
    | 0 => .ok (.error (.inconsistent l))
    | _ => do
      let x ← expect (okResults l).head? "called `Option::unwrap()` on a `None` value"
      return .ok x
  | e => .ok (.error e)

/-- `at_least_two_ok` (rpc_client/mod.rs:355-373). -/
def MultiCallError.atLeastTwoOk (e : MultiCallError α) : Except (MultiCallError α) (List (Provider × α)) :=
  match e with
  | .inconsistent l =>
    match (okResults l).length with
    | 0 => .error (.inconsistent l)
    | 1 => .error (.inconsistent l)
    | _ => .ok (okResults l)
  | e => .error e

/-- `map_reduce` (rpc_client/mod.rs:397-433). -/
def mapReduce (f : α → Except String β) (r : Reduced α) : Reduced β :=
  match r with
  | .ok a =>
    match f a with
    | .ok b => .ok b
    | .error text => .error (.evmRpcCanister text)
  | .error (.http e) => .error (.http e)
  | .error (.jsonRpc code message) => .error (.jsonRpc code message)
  | .error (.evmRpcCanister text) => .error (.evmRpcCanister text)
  | .error (.inconsistent l) => .error (.inconsistent (l.map fun x =>
      (x.1, match x.2 with
        | .ok a =>
          match f a with
          | .ok b => .ok b
          | .error text => .error (.evmRpc text)
        | .error e => .error e)))

/-- `from_multi_result` (rpc_client/mod.rs:435-473). -/
def fromMultiResult : MultiRpcResult α → Reduced α
  | .consistent (.ok a) => .ok a
  | .consistent (.error (.provider e)) => .error (.evmRpcCanister e.text)
  | .consistent (.error (.http e)) => .error (.http e)
  | .consistent (.error (.jsonRpc code message)) => .error (.jsonRpc code message)
  | .consistent (.error (.validation text)) => .error (.evmRpcCanister text)
  | .inconsistent l => .error (.inconsistent (l.map fun x =>
      (x.1, match x.2 with
        | .ok a => .ok a
        | .error e => .error (.ofRpcError e))))

/-- `reduce_with_equality` (rpc_client/mod.rs:477-519). -/
def reduceWithEquality [DecidableEq α] (r : Reduced α) : Reduced α :=
  match r with
  | .ok a => .ok a
  | .error e =>
    match e.atLeastTwoOk with
    | .ok oks =>
      match oks.head? with
      | some (_, base) =>
        match ((oks.filter fun x => decide (base ≠ x.2)).map (·.2)).length with
        | 0 => .ok base
        | _ => .error e
      | none => .error e
    | .error e => .error e

/-- The answers for one key, `BTreeMap<EvmRpcService, T>`. -/
abbrev Ballot (α : Type) := FMap Provider α

/-- One iteration of the loop that collects the votes (rpc_client/mod.rs:532-556); the inner error is the early `return`. -/
def addVote [DecidableEq α] [TOrd K] [DecidableEq K] (key : α → K) (votes : FMap K (Ballot α)) (p : Provider) (a : α) :
    Res (Except (MultiCallError α) (FMap K (Ballot α))) :=
  match votes.get (key a) with
  | some b => do
    let (_, other) ← expect b.entries.getLast? "BUG: results_with_same_key is non-empty"
    if a ≠ other then
      return .error (.inconsistent ((b.toList ++ [(p, a)]).map fun x => (x.1, .ok x.2)))
    else return .ok ((votes.erase (key a)).insert (key a) (b.insert p a))
  | none => return .ok (votes.insert (key a) ((∅ : Ballot α).insert p a))

/-- The loop over all answers (rpc_client/mod.rs:531-557). -/
def addVotes [DecidableEq α] [TOrd K] [DecidableEq K] (key : α → K) (votes : FMap K (Ballot α)) :
    List (Provider × α) → Res (Except (MultiCallError α) (FMap K (Ballot α)))
  | [] => return .ok votes
  | (p, a) :: t => do
    match ← addVote key votes p a with
    | .error e => return .error e
    | .ok votes => addVotes key votes t

/-- The tally (rpc_client/mod.rs:558-602). `sort_unstable_by` may order ballots of the same size in any way, here they stay
in the order of their keys; this concerns only the contents of an error. -/
def decideVotes [TOrd K] (votes : FMap K (Ballot α)) : Res (Reduced α) :=
  let tally := votes.toList.mergeSort fun x y => decide (x.2.size ≤ y.2.size)
  match tally.length with
  | 0 => .error "BUG: tally should be non-empty"
  | 1 => do
    let (_, a) ← expect (tally.getLast?.bind fun x => x.2.entries.getLast?) "BUG: tally is non-empty"
    return .ok a
  | _ => do
    let first ← expect tally.getLast? "BUG: tally has at least 2 elements"
    let second ← expect tally.dropLast.getLast? "BUG: tally has at least 2 elements"
    if first.2.size > second.2.size then
      let (_, a) ← expect first.2.entries.getLast? "BUG: tally should be non-empty"
      return .ok a
    else return .error (.inconsistent ((first.2.toList ++ second.2.toList).map fun x => (x.1, .ok x.2)))

/-- `reduce_with_strict_majority_by_key` (rpc_client/mod.rs:525-607). -/
def reduceWithStrictMajorityByKey [DecidableEq α] [TOrd K] [DecidableEq K] (key : α → K) (r : Reduced α) : Res (Reduced α) :=
  match r with
  | .ok a => .ok (.ok a)
  | .error e =>
    match e.atLeastTwoOk with
    | .ok oks => do
      match ← addVotes key ∅ oks with
      | .error e => return .error e
      | .ok votes => decideVotes votes
    | .error e => .ok (.error e)

/-- `reduce_with_only_one_key` (rpc_client/mod.rs:610-622). -/
def reduceWithOnlyOneKey (r : Reduced α) : Res (Reduced α) :=
  match r with
  | .ok a => .ok (.ok a)
  | .error e => do
    match ← e.atLeastOneOk with
    | .ok x => return .ok x.2
    | .error e => return .error e

/-- `Iterator::min_by_key`: the first of the elements with the smallest key. -/
def minByKey [TOrd K] (key : α → K) : List α → Option α
  | [] => none
  | a :: t => some (t.foldl (fun m b => if TOrd.lt (key b) (key m) then b else m) a)

/-- `reduce_with_min_by_key` (rpc_client/mod.rs:625-644). -/
def reduceWithMinByKey [TOrd K] (key : α → K) (r : Reduced α) : Res (Reduced α) :=
  match r with
  | .ok a => .ok (.ok a)
  | .error e =>
    match e.atLeastTwoOk with
    | .ok oks => do
      let a ← expect (minByKey key (oks.map (·.2))) "BUG: ok_results is guaranteed to be non-empty"
      return .ok a
    | .error e => .ok (.error e)

/-! ## The calls -/

/-- `Block` of evm_rpc_types; `other` stands for the fields that are not used, they matter for equality. -/
structure EvmBlock where
  number : BlockNumber
  baseFeePerGas : Option Wei
  other : Nat
deriving DecidableEq

/-- `get_block_by_number` (rpc_client/mod.rs:165-180, 654-668): the number of the block. The base fee is read with `expect`
for every block that is converted, but it is not used. -/
def blockNumber (r : MultiRpcResult EvmBlock) : Res (Reduced BlockNumber) :=
  let r := reduceWithEquality (fromMultiResult r)
  let blocks : List EvmBlock := match r with
    | .ok b => [b]
    | .error (.inconsistent l) => (okResults l).map (·.2)
    | .error _ => []
  if blocks.all (·.baseFeePerGas.isSome) then .ok (mapReduce (fun b : EvmBlock => .ok b.number) r)
  else .error "BUG: must be present in blocks after the London Upgrade / EIP-1559, which pre-dates the ckETH minter"

/-- `get_logs` (rpc_client/mod.rs:139-163, 678-710). -/
def logs (r : MultiRpcResult (List LogEntry)) : Reduced (List LogEntry) :=
  mapReduce .ok (reduceWithEquality (fromMultiResult r))

/-- `is_response_too_large` (rpc_client/mod.rs:849-856): `RejectionCode::SysFatal` is 1. -/
def isResponseTooLarge : HttpError → Bool
  | .ic code message => code == 1 && decide ("size limit".toList <:+: message.toList)
  | _ => false

/-- How `scrape_block_range` (deposit.rs:397-443) distinguishes the results of `get_logs`. -/
def logsAnswer : Reduced (List LogEntry) → LogsAnswer
  | .ok l => .logs l
  | .error e => if e.hasHttpErrorMatching isResponseTooLarge then .tooLarge else .failed

/-- `TransactionReceipt` of evm_rpc_types: the status is an optional number; `other` stands for the fields that are not used,
they matter for equality. -/
structure EvmReceipt where
  blockHash : Hash
  blockNumber : BlockNumber
  effectiveGasPrice : WeiPerGas
  gasUsed : GasAmount
  status : Option Nat
  transactionHash : Hash
  other : Nat
deriving DecidableEq

/-- `map_transaction_receipt` (rpc_client/mod.rs:725-745), with `TransactionStatus::try_from` (rpc_declrations.rs:379-389). -/
def mapReceipt : Option EvmReceipt → Except String (Option Receipt)
  | none => .ok none
  | some r =>
    match r.status.bind fun s => if s < 256 then some s else none with
    | none => .error "invalid transaction status"
    | some 0 => .ok (some ⟨r.blockHash, r.blockNumber, r.effectiveGasPrice, r.gasUsed, .failure, r.transactionHash⟩)
    | some 1 => .ok (some ⟨r.blockHash, r.blockNumber, r.effectiveGasPrice, r.gasUsed, .success, r.transactionHash⟩)
    | some _ => .error "invalid transaction status"

/-- `get_transaction_receipt` (rpc_client/mod.rs:182-197, 721-752). -/
def receipt (r : MultiRpcResult (Option EvmReceipt)) : Reduced (Option Receipt) :=
  mapReduce mapReceipt (reduceWithEquality (fromMultiResult r))

/-- `fee_history` (rpc_client/mod.rs:199-218, 764-790). -/
def feeHistory (r : MultiRpcResult (Option FeeHistory)) : Res (Reduced FeeHistory) :=
  reduceWithStrictMajorityByKey (·.oldestBlock)
    (mapReduce (fun h => match h with
      | some h => .ok h
      | none => .error "No fee history available") (fromMultiResult r))

/-- `SendRawTransactionResult` (rpc_declrations.rs:453-458). -/
inductive SendResult where
  | ok | insufficientFunds | nonceTooLow | nonceTooHigh
deriving DecidableEq, Repr

/-- `send_raw_transaction` (rpc_client/mod.rs:261-276, 792-805). -/
def send (r : MultiRpcResult SendResult) : Res (Reduced SendResult) :=
  reduceWithOnlyOneKey (mapReduce .ok (fromMultiResult r))

/-- `get_finalized_transaction_count` (rpc_client/mod.rs:220-237, 808-815). -/
def finalizedCount (r : MultiRpcResult TransactionCount) : Reduced TransactionCount :=
  reduceWithEquality (mapReduce .ok (fromMultiResult r))

/-- `get_latest_transaction_count` (rpc_client/mod.rs:239-259, 808-815). -/
def latestCount (r : MultiRpcResult TransactionCount) : Res (Reduced TransactionCount) :=
  reduceWithMinByKey (fun n : Nat => n) (mapReduce .ok (fromMultiResult r))

/-! ## Retries of the client (evm_rpc_client/src/lib.rs) -/

/-- `max_expected_too_few_cycles_error` (evm_rpc_client/src/lib.rs:212-222) with `multi_rpc_result_iter` (224-233). -/
def maxExpectedTooFewCycles (r : MultiRpcResult α) : Option Nat :=
  let l : List (Except RpcError α) := match r with
    | .consistent r => [r]
    | .inconsistent l => l.map (·.2)
  (l.filterMap fun r =>
    match r with
    | .error (.provider (.tooFewCycles expected _)) => some expected
    | _ => none).max?

/-- The answer to one call of the EVM RPC canister, with rejected calls turned into errors (evm_rpc_client/src/lib.rs:171-184). -/
def callAnswer (a : Except (Nat × String) (MultiRpcResult α)) : MultiRpcResult α :=
  match a with
  | .ok r => r
  | .error (code, message) => .consistent (.error (.http (.ic code message)))

/-- `call_internal` (evm_rpc_client/src/lib.rs:147-209). `ask n c` is what the EVM RPC canister answers to the `n`-th call
with `c` cycles, `.error` if it rejects; the third argument is the number of retries that are left. The result is the list of the
amounts of cycles attached to the calls, and the answer. -/
def callInternal (ask : Nat → Nat → Except (Nat × String) (MultiRpcResult α)) (n cycles : Nat) :
    Nat → List Nat × MultiRpcResult α
  | 0 => ([cycles], callAnswer (ask n cycles))
  | left + 1 =>
    match maxExpectedTooFewCycles (callAnswer (ask n cycles)) with
    | some expected =>
      let r := callInternal ask (n + 1) (max (min (cycles * 2) (2 ^ 128 - 1)) expected) left
      (cycles :: r.1, r.2)
    | none => ([cycles], callAnswer (ask n cycles))

/-- The client of the minter (rpc_client/mod.rs:52-137, evm_rpc_client/src/lib.rs:245-259): 30 billion cycles, 10 retries. -/
def call (ask : Nat → Nat → Except (Nat × String) (MultiRpcResult α)) : List Nat × MultiRpcResult α :=
  callInternal ask 0 30000000000 10

end Rpc
end EvmMinter
