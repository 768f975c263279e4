import Verif.Model.Events
import Verif.Spec.RlpDecode
/-!
# What a reader of `get_events` learns

`readPayload` recovers an event from the answer of the endpoint, field by field and by name: addresses and hashes are parsed from their
hexadecimal form, the signed transaction is read from its raw bytes as a node of the network reads it.
-/

namespace EvmMinter
namespace Candid

/-- The bytes of a string of hexadecimal digits. -/
def hexBytes : List Char → Option Bytes
  | [] => some []
  | a :: b :: rest => do
    let x ← hexDigit a
    let y ← hexDigit b
    let l ← hexBytes rest
    return UInt8.ofNat (16 * x + y) :: l
  | [_] => none

/-- A byte string of the given length as a number. -/
def readWord (w : Nat) (b : Bytes) : Option Nat := if b.length = w then some (beNat b) else none

/-- Reads an optional field. -/
def readOpt {α β : Type} (f : α → Option β) : Option α → Option (Option β)
  | none => some none
  | some a => (f a).map some

/-- Reads all elements of a list. -/
def readAll {α β : Type} (f : α → Option β) : List α → Option (List β)
  | [] => some []
  | a :: l => do
    let b ← f a
    let bs ← readAll f l
    return b :: bs

def readSource (s : EventSource) : Option EvmMinter.EventSource := do
  return { transactionHash := ← Hash.parse s.transactionHash, logIndex := s.logIndex }

def readItem (i : AccessListItem) : Option EvmMinter.AccessListItem := do
  return { address := ← Address.parse i.address, storageKeys := ← readAll (readWord 32) i.storageKeys }

def readTransaction (t : UnsignedTransaction) : Option Tx := do
  return { chainId := t.chainId, nonce := t.nonce, maxPriorityFeePerGas := t.maxPriorityFeePerGas, maxFeePerGas := t.maxFeePerGas,
           gasLimit := t.gasLimit, destination := ← Address.parse t.destination, amount := t.value, data := t.data,
           accessList := ← readAll readItem t.accessList }

def readReceipt (r : TransactionReceipt) : Option Receipt := do
  return { blockHash := ← Hash.parse r.blockHash, blockNumber := r.blockNumber, effectiveGasPrice := r.effectiveGasPrice,
           gasUsed := r.gasUsed, status := r.status, transactionHash := ← Hash.parse r.transactionHash }

def readRaw : List Char → Option SignedTx
  | '0' :: 'x' :: digits => (hexBytes digits).bind Spec.readSigned
  | _ => none

/-- The event that the answer describes. The answer about a failed ERC20 request contains no transaction hash; it is read as one without. -/
def readPayload : EventPayload → Option Event
  | .init a => some (.init a)
  | .upgrade a => some (.upgrade a)
  | .acceptedDeposit transactionHash blockNumber logIndex fromAddress value principal subaccount => do
    return .acceptedDeposit { transactionHash := ← Hash.parse transactionHash, blockNumber, logIndex,
                              fromAddress := ← Address.parse fromAddress, value, principal,
                              subaccount := ← readOpt (readWord 32) subaccount }
  | .acceptedErc20Deposit transactionHash blockNumber logIndex fromAddress value principal erc20ContractAddress subaccount => do
    return .acceptedErc20Deposit { transactionHash := ← Hash.parse transactionHash, blockNumber, logIndex,
                                   fromAddress := ← Address.parse fromAddress, value, principal,
                                   erc20ContractAddress := ← Address.parse erc20ContractAddress,
                                   subaccount := ← readOpt (readWord 32) subaccount }
  | .invalidDeposit eventSource reason => do return .invalidDeposit (← readSource eventSource) reason
  | .mintedNative eventSource mintBlockIndex => do return .mintedNative (← readSource eventSource) mintBlockIndex
  | .syncedToBlock blockNumber => some (.syncedToBlock blockNumber)
  | .acceptedNativeWithdrawalRequest withdrawalAmount destination ledgerBurnIndex «from» fromSubaccount createdAt => do
    return .acceptedNativeWithdrawalRequest { withdrawalAmount, destination := ← Address.parse destination, ledgerBurnIndex, «from»,
                                              fromSubaccount := ← readOpt (readWord 32) fromSubaccount, createdAt }
  | .createdTransaction withdrawalId transaction => do return .createdTransaction withdrawalId (← readTransaction transaction)
  | .signedTransaction withdrawalId rawTransaction => do return .signedTransaction withdrawalId (← readRaw rawTransaction)
  | .replacedTransaction withdrawalId transaction => do return .replacedTransaction withdrawalId (← readTransaction transaction)
  | .finalizedTransaction withdrawalId transactionReceipt => do
    return .finalizedTransaction withdrawalId (← readReceipt transactionReceipt)
  | .reimbursedNativeWithdrawal reimbursedInBlock withdrawalId reimbursedAmount transactionHash => do
    return .reimbursedNativeWithdrawal { reimbursedInBlock, burnInBlock := withdrawalId, reimbursedAmount,
                                         transactionHash := ← readOpt Hash.parse transactionHash }
  | .reimbursedErc20Withdrawal withdrawalId burnInBlock reimbursedInBlock ledgerId reimbursedAmount transactionHash => do
    return .reimbursedErc20Withdrawal withdrawalId ledgerId { reimbursedInBlock, burnInBlock, reimbursedAmount,
                                                              transactionHash := ← readOpt Hash.parse transactionHash }
  | .skippedBlock blockNumber => some (.skippedBlock blockNumber)
  | .addedErc20Token chainId address erc20TokenSymbol erc20LedgerId => do
    return .addedErc20Token { chainId := ← EvmNetwork.ofChainId chainId, erc20ContractAddress := ← Address.parse address,
                              symbol := erc20TokenSymbol, erc20LedgerId }
  | .acceptedErc20WithdrawalRequest maxTransactionFee withdrawalAmount erc20ContractAddress destination nativeLedgerBurnIndex
      erc20LedgerId erc20LedgerBurnIndex «from» fromSubaccount createdAt => do
    return .acceptedErc20WithdrawalRequest { maxTransactionFee, withdrawalAmount, destination := ← Address.parse destination,
                                             nativeLedgerBurnIndex, erc20ContractAddress := ← Address.parse erc20ContractAddress,
                                             erc20LedgerId, erc20LedgerBurnIndex, «from»,
                                             fromSubaccount := ← readOpt (readWord 32) fromSubaccount, createdAt }
  | .failedErc20WithdrawalRequest withdrawalId reimbursedAmount to toSubaccount => do
    return .failedErc20WithdrawalRequest { ledgerBurnIndex := withdrawalId, reimbursedAmount, to,
                                           toSubaccount := ← readOpt (readWord 32) toSubaccount, transactionHash := none }
  | .mintedErc20 eventSource mintBlockIndex erc20TokenSymbol erc20ContractAddress => do
    return .mintedErc20 (← readSource eventSource) mintBlockIndex erc20TokenSymbol (← Address.parse erc20ContractAddress)
  | .quarantinedDeposit eventSource => do return .quarantinedDeposit (← readSource eventSource)
  | .quarantinedReimbursement (.native ledgerBurnIndex) => some (.quarantinedReimbursement (.native ledgerBurnIndex))
  | .quarantinedReimbursement (.erc20 nativeLedgerBurnIndex ledgerId erc20LedgerBurnIndex) =>
    some (.quarantinedReimbursement (.erc20 nativeLedgerBurnIndex ledgerId erc20LedgerBurnIndex))

/-- What of an event the answer contains: all but the transaction hash of a failed ERC20 request. -/
def shown : Event → Event
  | .failedErc20WithdrawalRequest r => .failedErc20WithdrawalRequest { r with transactionHash := none }
  | e => e

end Candid
end EvmMinter
