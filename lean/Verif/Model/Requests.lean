import Verif.Model.Events
import Verif.Model.Providers
import Verif.Model.Rpc
import Verif.Model.Tasks
/-!
# The questions put to the JSON-RPC providers

What the minter asks while a task waits (`ExtTask.requests`), and how the reports of the EVM RPC canister become the answer that the
task is resumed with (`ExtTask.digest`).

Simplifications: the services are computed from the API keys when the call is made (`RpcClient::from_state_*` does so at the call,
except that `scrape_until_block` builds one client for all ranges, deposit.rs:355; the keys do not change while it runs). The
number of bytes that a response may have and the cycles are not part of a request here (cycles: `Rpc.call`). `Hex20`, `Hex32`
and `Nat256` are the numbers and byte strings of the model, as in Model/Rpc.lean. The estimate of the transaction price may be answered
from the cache, without a request (tx.rs:793-803); how it is computed from the fee history is in Model/GasFee.lean.
-/

namespace EvmMinter

/-- `BlockSpec` (rpc_declrations.rs:184-192). -/
inductive BlockSpec where
  | number (n : BlockNumber)
  | tag (t : BlockTag)
deriving DecidableEq

/-- `BlockTag` of evm_rpc_types. -/
inductive EvmBlockTag where
  | latest | finalized | safe | earliest | pending
  | number (n : Nat)
deriving DecidableEq

/-- `into_evm_block_tag` (rpc_client/mod.rs:826-833). -/
def intoEvmBlockTag : BlockSpec → EvmBlockTag
  | .number n => .number n
  | .tag .latest => .latest
  | .tag .safe => .safe
  | .tag .finalized => .finalized

/-- A method of the EVM RPC canister with its argument (evm_rpc_client/src/lib.rs:78-145). -/
inductive RpcMethod where
  | getBlockByNumber (tag : EvmBlockTag)
  | getLogs (fromBlock toBlock : EvmBlockTag) (addresses : List Address) (topics : List (List Word32))
  | feeHistory (blockCount : Nat) (newest : EvmBlockTag) (percentiles : List Nat)
  | getTransactionReceipt (hash : List Char)
  | getTransactionCount (address : Address) (block : EvmBlockTag)
  | sendRawTransaction (hex : List Char)
deriving DecidableEq

/-- A call of the EVM RPC canister (evm_rpc_client/src/lib.rs:174-179). -/
structure RpcRequest where
  canister : Principal
  services : RpcServices
  method : RpcMethod
deriving DecidableEq

/-- `RpcClient::from_state_all_providers` (rpc_client/mod.rs:52-79). -/
def State.askAll (s : State) (keys : ApiKeys) (m : RpcMethod) : RpcRequest := ⟨s.evmCanisterId, getProviders keys s.evmNetwork, m⟩

/-- `RpcClient::from_state_one_provider_public_node` (rpc_client/mod.rs:81-108). -/
def State.askPublicNode (s : State) (keys : ApiKeys) (m : RpcMethod) : RpcRequest :=
  ⟨s.evmCanisterId, getOneProviderPublicNode keys s.evmNetwork, m⟩

/-- `RpcClient::from_state_one_provider_ankr` (rpc_client/mod.rs:110-137). -/
def State.askAnkr (s : State) (keys : ApiKeys) (m : RpcMethod) : RpcRequest :=
  ⟨s.evmCanisterId, getOneProviderAnkr keys s.evmNetwork, m⟩

/-- `get_fee_history` (tx.rs:784-792). -/
def State.feeRequest (s : State) (keys : ApiKeys) : RpcRequest := s.askPublicNode keys (.feeHistory 5 (intoEvmBlockTag (.tag .latest)) [20])

/-- The requests made while the task waits; `self` is the address of the minter (`minter_address`, state.rs:789-791). -/
def ExtTask.requests (s : State) (keys : ApiKeys) (self : Address) : ExtTask → List RpcRequest
  -- deposit.rs:250-253
  | .scrape (.observing _) => [s.askPublicNode keys (.getBlockByNumber (intoEvmBlockTag (.tag s.blockHeight)))]
  -- deposit.rs:390-399, rpc_client/mod.rs:139-155
  | .scrape (.querying q) => [s.askAll keys (.getLogs (intoEvmBlockTag (.number q.current.start)) (intoEvmBlockTag (.number q.current.stop))
      [q.contractAddress] (evmTopics q.topics))]
  | .gas | .retrieveGas | .erc20Gas _ => [s.feeRequest keys]
  -- withdraw.rs:184-199, rpc_client/mod.rs:239-259
  | .retrieveCount _ => [s.askAnkr keys (.getTransactionCount self .latest)]
  -- signed by the management canister
  | .retrieveSign _ _ => []
  -- withdraw.rs:338-347
  | .retrieveSend batch => batch.map fun x => s.askAll keys (.sendRawTransaction (Candid.rawTransactionHex x))
  -- withdraw.rs:444-458, rpc_client/mod.rs:220-237
  | .retrieveFinalizedCount => [s.askPublicNode keys (.getTransactionCount self .finalized)]
  -- withdraw.rs:382-390, rpc_client/mod.rs:182-197
  | .retrieveReceipts f => f.toList.map fun x => s.askAll keys (.getTransactionReceipt (Hash.display x.1))

/-- A report of the EVM RPC canister. -/
inductive RpcReport where
  | block (r : Rpc.MultiRpcResult Rpc.EvmBlock)
  | logs (r : Rpc.MultiRpcResult (List LogEntry))
  | fees (r : Rpc.MultiRpcResult (Option FeeHistory))
  | receipt (r : Rpc.MultiRpcResult (Option Rpc.EvmReceipt))
  | count (r : Rpc.MultiRpcResult TransactionCount)
  | sent (r : Rpc.MultiRpcResult Rpc.SendResult)

/-- The result of an asynchronous call for the receipts (withdraw.rs:385-440): errors are only logged. -/
def RpcReport.receipts : List RpcReport → Option (List Minter.ReceiptResult)
  | [] => some []
  | .receipt r :: t => (RpcReport.receipts t).map fun l =>
      (match Rpc.receipt r with
        | .ok x => .ok x
        | .error _ => .error ()) :: l
  | _ => none

/-- How the reports become the answer: `none` if they are not reports on the requests of the task, or if the task is about the
transaction price or signatures. -/
def ExtTask.digest : ExtTask → List RpcReport → Option (Res ExtAnswer)
  | .scrape (.observing _), [.block r] => some do
    match ← Rpc.blockNumber r with
    | .ok n => return .block (some n)
    | .error _ => return .block none
  | .scrape (.querying _), [.logs r] => some (.ok (.logs (Rpc.logsAnswer (Rpc.logs r))))
  | .retrieveCount _, [.count r] => some do
    match ← Rpc.latestCount r with
    | .ok n => return .count (some n)
    | .error _ => return .count none
  | .retrieveSend _, _ => some (.ok .sent)
  | .retrieveFinalizedCount, [.count r] =>
    match Rpc.finalizedCount r with
    | .ok n => some (.ok (.count (some n)))
    | .error _ => some (.ok (.count none))
  | .retrieveReceipts _, l => (RpcReport.receipts l).map fun x => .ok (.receipts x)
  | _, _ => none

end EvmMinter
