import Verif.Spec.CborItem
import Verif.Model.EventCbor
/-!
# The stored form of events and memos

What an event, or a memo, is as a CBOR data item. This is the format of what is in stable memory and in the blocks of the ledgers already:
the numbers of the variants, the order of the fields and their representations. Bytes of 20 and 32 bytes are written `toBE 20 a`, `toBE 32 a`.
-/

namespace EvmMinter
namespace Spec

/-- The elements up to the last one that is present; absent ones before it are null. -/
def trim : List (Option Item) → List Item
  | [] => []
  | none :: fs => match trim fs with
    | [] => []
    | i :: l => .null :: i :: l
  | some i :: fs => i :: trim fs

/-- A struct: an array of its fields. -/
def record (fs : List (Option Item)) : Item := .array (trim fs)
/-- A variant of an enum: its number and its fields. -/
def choice (k : Nat) (fs : List (Option Item)) : Item := .array [.number k, record fs]
/-- A field that is always there. -/
def given (i : Item) : Option Item := some i
/-- An optional field that, if null, is left out at the end when `nil`. -/
def perhaps (nil : Bool) (f : α → Item) : Option α → Option Item
  | some a => some (f a)
  | none => if nil then none else some .null

def addressItem (a : Address) : Item := .bytes (toBE 20 a)
def wordItem (h : Nat) : Item := .bytes (toBE 32 h)
def principalItem (p : Principal) : Item := .bytes p.bytes
def subaccountItem (n : Subaccount) : Item := record [given (.number n)]
/-- A network is its chain id. -/
def networkItem : EvmNetwork → Item
  | .ethereum => .number 1
  | .sepolia => .number 11155111
  | .arbitrumOne => .number 42161
  | .bsc => .number 56
  | .bscTestnet => .number 97
  | .polygon => .number 137
  | .optimism => .number 10
  | .base => .number 8453
  | .avalanche => .number 43114
  | .fantom => .number 250
def tagItem : BlockTag → Item
  | .latest => .number 0
  | .safe => .number 1
  | .finalized => .number 2
def charsItem (l : List Char) : Item := .text (String.ofList l)

def EventSource.item (s : EventSource) : Item := record [given (wordItem s.transactionHash), given (.number s.logIndex)]

def NativeDeposit.item (e : NativeDeposit) : Item := record [
  given (wordItem e.transactionHash), given (.number e.blockNumber), given (.number e.logIndex), given (addressItem e.fromAddress),
  given (.number e.value), given (principalItem e.principal), perhaps true subaccountItem e.subaccount]

def Erc20Deposit.item (e : Erc20Deposit) : Item := record [
  given (wordItem e.transactionHash), given (.number e.blockNumber), given (.number e.logIndex), given (addressItem e.fromAddress),
  given (.number e.value), given (principalItem e.principal), given (addressItem e.erc20ContractAddress),
  perhaps true subaccountItem e.subaccount]

def AccessListItem.item (i : AccessListItem) : Item :=
  record [given (addressItem i.address), given (.array (i.storageKeys.map wordItem))]

def Tx.item (t : Tx) : Item := record [
  given (.number t.chainId), given (.number t.nonce), given (.number t.maxPriorityFeePerGas), given (.number t.maxFeePerGas),
  given (.number t.gasLimit), given (addressItem t.destination), given (.number t.amount), given (.bytes t.data),
  given (.array (t.accessList.map AccessListItem.item))]

def Signature.item (s : Signature) : Item := record [given (.bool s.yParity), given (.number s.r), given (.number s.s)]

def SignedTx.item (t : SignedTx) : Item := record [given (Tx.item t.tx), given (Signature.item t.signature)]

def TxStatus.item : TxStatus → Item
  | .success => choice 0 []
  | .failure => choice 1 []

def Receipt.item (r : Receipt) : Item := record [
  given (wordItem r.blockHash), given (.number r.blockNumber), given (.number r.effectiveGasPrice), given (.number r.gasUsed),
  given (TxStatus.item r.status), given (wordItem r.transactionHash)]

def NativeRequest.item (r : NativeRequest) : Item := record [
  given (.number r.withdrawalAmount), given (addressItem r.destination), given (.number r.ledgerBurnIndex), given (principalItem r.from),
  perhaps true wordItem r.fromSubaccount, perhaps true .number r.createdAt]

def Erc20Request.item (r : Erc20Request) : Item := record [
  given (.number r.maxTransactionFee), given (.number r.withdrawalAmount), given (addressItem r.destination),
  given (.number r.nativeLedgerBurnIndex), given (addressItem r.erc20ContractAddress), given (principalItem r.erc20LedgerId),
  given (.number r.erc20LedgerBurnIndex), given (principalItem r.from), perhaps true wordItem r.fromSubaccount,
  given (.number r.createdAt)]

def ReimbIndex.item : ReimbIndex → Item
  | .native b => choice 0 [given (.number b)]
  | .erc20 n l e => choice 1 [given (.number n), given (principalItem l), given (.number e)]

def ReimbRequest.item (r : ReimbRequest) : Item := record [
  given (.number r.ledgerBurnIndex), given (.number r.reimbursedAmount), given (principalItem r.to), perhaps true wordItem r.toSubaccount,
  perhaps true wordItem r.transactionHash]

def Reimbursed.item (r : Reimbursed) : Item := record [
  given (.number r.reimbursedInBlock), given (.number r.burnInBlock), given (.number r.reimbursedAmount),
  perhaps true wordItem r.transactionHash]

def Erc20Token.item (t : Erc20Token) : Item := record [
  given (networkItem t.chainId), given (addressItem t.erc20ContractAddress), given (.text t.symbol), given (principalItem t.erc20LedgerId)]

def InitArg.item (a : InitArg) : Item := record [
  given (networkItem a.evmNetwork), given (charsItem a.ecdsaKeyName), perhaps true charsItem a.helperContractAddress,
  given (principalItem a.nativeLedgerId), given (principalItem a.nativeIndexId), given (.text a.nativeSymbol), given (tagItem a.blockHeight),
  given (.number a.nativeMinimumWithdrawalAmount), given (.number a.nativeLedgerTransferFee), given (.number a.nextTransactionNonce),
  given (.number a.lastScrapedBlockNumber), given (.number a.minMaxPriorityFeePerGas), given (principalItem a.ledgerSuiteManagerId),
  given (.number a.depositNativeFee), given (.number a.withdrawalNativeFee)]

/-- `nil`: whether absent numbers and principals at the end are left out, see `Cbor.optWith`. -/
def UpgradeArg.item (nil : Bool) (a : UpgradeArg) : Item := record [
  perhaps nil .number a.nextTransactionNonce, perhaps nil .number a.nativeMinimumWithdrawalAmount,
  perhaps true charsItem a.helperContractAddress, perhaps true tagItem a.blockHeight, perhaps nil .number a.lastScrapedBlockNumber,
  perhaps nil principalItem a.evmRpcId, perhaps nil .number a.nativeLedgerTransferFee, perhaps nil .number a.minMaxPriorityFeePerGas,
  perhaps nil .number a.depositNativeFee, perhaps nil .number a.withdrawalNativeFee]

/-- The number of the variant (state/event.rs:20-163). -/
def Event.number : Event → Nat
  | .init _ => 0
  | .upgrade _ => 1
  | .acceptedDeposit _ => 2
  | .invalidDeposit _ _ => 4
  | .mintedNative _ _ => 5
  | .syncedToBlock _ => 6
  | .acceptedNativeWithdrawalRequest _ => 7
  | .createdTransaction _ _ => 8
  | .signedTransaction _ _ => 9
  | .replacedTransaction _ _ => 10
  | .finalizedTransaction _ _ => 11
  | .reimbursedNativeWithdrawal _ => 12
  | .addedErc20Token _ => 14
  | .acceptedErc20Deposit _ => 15
  | .acceptedErc20WithdrawalRequest _ => 16
  | .mintedErc20 _ _ _ _ => 17
  | .reimbursedErc20Withdrawal _ _ _ => 19
  | .failedErc20WithdrawalRequest _ => 20
  | .quarantinedDeposit _ => 21
  | .quarantinedReimbursement _ => 22
  | .skippedBlock _ => 23

/-- The fields of the variant. -/
def Event.fields (nil : Bool) : Event → List Item
  | .init a => [InitArg.item a]
  | .upgrade a => [UpgradeArg.item nil a]
  | .acceptedDeposit e => [NativeDeposit.item e]
  | .invalidDeposit s r => [EventSource.item s, .text r]
  | .mintedNative s i => [EventSource.item s, .number i]
  | .syncedToBlock n => [.number n]
  | .acceptedNativeWithdrawalRequest r => [NativeRequest.item r]
  | .createdTransaction i t => [.number i, Tx.item t]
  | .signedTransaction i t => [.number i, SignedTx.item t]
  | .replacedTransaction i t => [.number i, Tx.item t]
  | .finalizedTransaction i r => [.number i, Receipt.item r]
  | .reimbursedNativeWithdrawal r => [Reimbursed.item r]
  | .addedErc20Token t => [Erc20Token.item t]
  | .acceptedErc20Deposit e => [Erc20Deposit.item e]
  | .acceptedErc20WithdrawalRequest r => [Erc20Request.item r]
  | .mintedErc20 s i y c => [EventSource.item s, .number i, .text y, addressItem c]
  | .reimbursedErc20Withdrawal n l r => [.number n, principalItem l, Reimbursed.item r]
  | .failedErc20WithdrawalRequest r => [ReimbRequest.item r]
  | .quarantinedDeposit s => [EventSource.item s]
  | .quarantinedReimbursement i => [ReimbIndex.item i]
  | .skippedBlock n => [.number n]

/-- A stored event: the time, and the number of the variant with its fields. -/
def Event.item (nil : Bool) (time : Nat) (e : Event) : Item :=
  .array [.number time, .array [.number (Event.number e), .array (Event.fields nil e)]]

/-- The memo of a mint (memo.rs:20-51). -/
def MintMemo.item : MintMemo → Item
  | .convert f h i => .array [.number 0, .array [addressItem f, wordItem h, .number i]]
  | .reimburseTransaction w h => .array [.number 1, .array [.number w, wordItem h]]
  | .reimburseWithdrawal w => .array [.number 2, .array [.number w]]

/-- The memo of a burn (memo.rs:59-93). -/
def BurnMemo.item : BurnMemo → Item
  | .convert t => .array [.number 0, .array [addressItem t]]
  | .erc20GasFee y a t => .array [.number 1, .array [.text y, .number a, addressItem t]]
  | .erc20Convert w t => .array [.number 2, .array [.number w, addressItem t]]

end Spec
end EvmMinter
