import Verif.Model.Address
import Verif.Model.Tx
import Verif.Model.Storage
/-!
# The endpoint `get_events` (main.rs, endpoints.rs)

Strings are lists of characters, candid numbers are natural numbers, byte strings are lists of bytes. The candid encoding of the answer is not modelled.
-/

namespace EvmMinter
namespace Candid

/-- `EventSource` (endpoints.rs:343-347). -/
structure EventSource where
  transactionHash : List Char
  logIndex : Nat
deriving DecidableEq, Repr

/-- `ReimbursementIndex` (endpoints.rs:349-359). -/
inductive ReimbursementIndex where
  | native (ledgerBurnIndex : Nat)
  | erc20 (nativeLedgerBurnIndex : Nat) (ledgerId : Principal) (erc20LedgerBurnIndex : Nat)
deriving DecidableEq, Repr

/-- `AccessListItem` (endpoints.rs:361-365). -/
structure AccessListItem where
  address : List Char
  storageKeys : List Bytes
deriving DecidableEq, Repr

/-- `UnsignedTransaction` (endpoints.rs:367-378). -/
structure UnsignedTransaction where
  chainId : Nat
  nonce : Nat
  maxPriorityFeePerGas : Nat
  maxFeePerGas : Nat
  gasLimit : Nat
  destination : List Char
  value : Nat
  data : Bytes
  accessList : List AccessListItem
deriving DecidableEq, Repr

/-- `TransactionReceipt` (endpoints.rs:386-394). -/
structure TransactionReceipt where
  blockHash : List Char
  blockNumber : Nat
  effectiveGasPrice : Nat
  gasUsed : Nat
  status : TxStatus
  transactionHash : List Char
deriving DecidableEq, Repr

/-- `EventPayload` (endpoints.rs:396-503), fields in the order of the declaration. -/
inductive EventPayload where
  | init (arg : InitArg)
  | upgrade (arg : UpgradeArg)
  | acceptedDeposit (transactionHash : List Char) (blockNumber logIndex : Nat) (fromAddress : List Char) (value : Nat)
      (principal : Principal) (subaccount : Option Bytes)
  | acceptedErc20Deposit (transactionHash : List Char) (blockNumber logIndex : Nat) (fromAddress : List Char) (value : Nat)
      (principal : Principal) (erc20ContractAddress : List Char) (subaccount : Option Bytes)
  | invalidDeposit (eventSource : EventSource) (reason : String)
  | mintedNative (eventSource : EventSource) (mintBlockIndex : Nat)
  | syncedToBlock (blockNumber : Nat)
  | acceptedNativeWithdrawalRequest (withdrawalAmount : Nat) (destination : List Char) (ledgerBurnIndex : Nat) («from» : Principal)
      (fromSubaccount : Option Bytes) (createdAt : Option Nat)
  | createdTransaction (withdrawalId : Nat) (transaction : UnsignedTransaction)
  | signedTransaction (withdrawalId : Nat) (rawTransaction : List Char)
  | replacedTransaction (withdrawalId : Nat) (transaction : UnsignedTransaction)
  | finalizedTransaction (withdrawalId : Nat) (transactionReceipt : TransactionReceipt)
  | reimbursedNativeWithdrawal (reimbursedInBlock withdrawalId reimbursedAmount : Nat) (transactionHash : Option (List Char))
  | reimbursedErc20Withdrawal (withdrawalId burnInBlock reimbursedInBlock : Nat) (ledgerId : Principal) (reimbursedAmount : Nat)
      (transactionHash : Option (List Char))
  | skippedBlock (blockNumber : Nat)
  | addedErc20Token (chainId : Nat) (address : List Char) (erc20TokenSymbol : String) (erc20LedgerId : Principal)
  | acceptedErc20WithdrawalRequest (maxTransactionFee withdrawalAmount : Nat) (erc20ContractAddress destination : List Char)
      (nativeLedgerBurnIndex : Nat) (erc20LedgerId : Principal) (erc20LedgerBurnIndex : Nat) («from» : Principal)
      (fromSubaccount : Option Bytes) (createdAt : Nat)
  | failedErc20WithdrawalRequest (withdrawalId reimbursedAmount : Nat) (to : Principal) (toSubaccount : Option Bytes)
  | mintedErc20 (eventSource : EventSource) (mintBlockIndex : Nat) (erc20TokenSymbol : String) (erc20ContractAddress : List Char)
  | quarantinedDeposit (eventSource : EventSource)
  | quarantinedReimbursement (index : ReimbursementIndex)
deriving DecidableEq, Repr

/-- `map_event_source` (main.rs:740-750). -/
def mapEventSource (s : EvmMinter.EventSource) : EventSource := ⟨Hash.display s.transactionHash, s.logIndex⟩

/-- `map_reimbursement_index` (main.rs:752-767). -/
def mapReimbursementIndex : ReimbIndex → ReimbursementIndex
  | .native b => .native b
  | .erc20 n l e => .erc20 n l e

/-- `map_unsigned_transaction` (main.rs:769-793). -/
def mapUnsignedTransaction [Keccak] (t : Tx) : UnsignedTransaction where
  chainId := t.chainId
  nonce := t.nonce
  maxPriorityFeePerGas := t.maxPriorityFeePerGas
  maxFeePerGas := t.maxFeePerGas
  gasLimit := t.gasLimit
  destination := t.destination.display
  value := t.amount
  data := t.data
  accessList := t.accessList.map fun i => ⟨i.address.display, i.storageKeys.map (toBE 32)⟩

/-- `map_transaction_receipt` (main.rs:795-808). -/
def mapTransactionReceipt (r : Receipt) : TransactionReceipt where
  blockHash := Hash.display r.blockHash
  blockNumber := r.blockNumber
  effectiveGasPrice := r.effectiveGasPrice
  gasUsed := r.gasUsed
  status := r.status
  transactionHash := Hash.display r.transactionHash

/-- `raw_transaction_hex` (tx.rs:439-442). -/
def rawTransactionHex (t : SignedTx) : List Char := '0' :: 'x' :: hexEncode t.rawBytes

/-- The payload of `map_event` (main.rs:810-999). -/
def mapPayload [Keccak] : Event → EventPayload
  | .init a => .init a
  | .upgrade a => .upgrade a
  | .acceptedDeposit e => .acceptedDeposit (Hash.display e.transactionHash) e.blockNumber e.logIndex e.fromAddress.display e.value
      e.principal (e.subaccount.map (toBE 32))
  | .acceptedErc20Deposit e => .acceptedErc20Deposit (Hash.display e.transactionHash) e.blockNumber e.logIndex e.fromAddress.display
      e.value e.principal e.erc20ContractAddress.display (e.subaccount.map (toBE 32))
  | .invalidDeposit s r => .invalidDeposit (mapEventSource s) r
  | .mintedNative s i => .mintedNative (mapEventSource s) i
  | .syncedToBlock n => .syncedToBlock n
  | .acceptedNativeWithdrawalRequest r => .acceptedNativeWithdrawalRequest r.withdrawalAmount r.destination.display r.ledgerBurnIndex
      r.from (r.fromSubaccount.map (toBE 32)) r.createdAt
  | .createdTransaction i t => .createdTransaction i (mapUnsignedTransaction t)
  | .signedTransaction i t => .signedTransaction i (rawTransactionHex t)
  | .replacedTransaction i t => .replacedTransaction i (mapUnsignedTransaction t)
  | .finalizedTransaction i r => .finalizedTransaction i (mapTransactionReceipt r)
  | .reimbursedNativeWithdrawal r => .reimbursedNativeWithdrawal r.reimbursedInBlock r.burnInBlock r.reimbursedAmount
      (r.transactionHash.map Hash.display)
  | .reimbursedErc20Withdrawal n l r => .reimbursedErc20Withdrawal n r.burnInBlock r.reimbursedInBlock l r.reimbursedAmount
      (r.transactionHash.map Hash.display)
  | .skippedBlock n => .skippedBlock n
  | .addedErc20Token t => .addedErc20Token t.chainId.chainId t.erc20ContractAddress.display t.symbol t.erc20LedgerId
  | .acceptedErc20WithdrawalRequest r => .acceptedErc20WithdrawalRequest r.maxTransactionFee r.withdrawalAmount
      r.erc20ContractAddress.display r.destination.display r.nativeLedgerBurnIndex r.erc20LedgerId r.erc20LedgerBurnIndex r.from
      (r.fromSubaccount.map (toBE 32)) r.createdAt
  | .mintedErc20 s i y c => .mintedErc20 (mapEventSource s) i y c.display
  | .failedErc20WithdrawalRequest r => .failedErc20WithdrawalRequest r.ledgerBurnIndex r.reimbursedAmount r.to
      (r.toSubaccount.map (toBE 32))
  | .quarantinedDeposit s => .quarantinedDeposit (mapEventSource s)
  | .quarantinedReimbursement i => .quarantinedReimbursement (mapReimbursementIndex i)

/-- `map_event` (main.rs:810-999). -/
def mapEvent [Keccak] (e : Nat × Event) : Nat × EventPayload := (e.1, mapPayload e.2)

/-- `GetEventsResult` (endpoints.rs:331-335). -/
structure GetEventsResult where
  events : List (Nat × EventPayload)
  totalEventCount : Nat
deriving DecidableEq, Repr

/-- `as usize` on `wasm32`: the low 32 bits. -/
def asUsize (n : Nat) : Nat := n % 2 ^ 32

/-- `get_events` (main.rs:727-1013), with `MAX_EVENTS_PER_RESPONSE = 100` (main.rs:738). The iterator reads lazily, so the events
after the page are not decoded; those before it are, `Iterator::skip` calls `next` for them. -/
def getEvents [Keccak] (start length : Nat) (l : StableLog) : Res GetEventsResult := do
  let skip := asUsize start
  let take := asUsize (min length 100)
  let es ← StableLog.events (l.take (skip + take))
  return { events := ((es.drop skip).take take).map mapEvent, totalEventCount := l.length }

end Candid
end EvmMinter
