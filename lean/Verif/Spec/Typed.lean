import Verif.Model.EventCbor
/-!
# Values that exist in the program

Numbers, addresses and hashes of the model are natural numbers. `Typed` says that a value of the model is one of the program:
256-bit amounts, 160-bit addresses, 64-bit indices, principals of at most 29 bytes, and strings and lists of less than `2^64`
bytes or elements.
-/

namespace EvmMinter
namespace Spec

/-- A 256-bit word. -/
def Word (n : Nat) : Prop := n < 2 ^ 256
/-- A 64-bit word. -/
def Word64 (n : Nat) : Prop := n < 2 ^ 64
/-- A 20-byte address. -/
def Addr (n : Nat) : Prop := n < 2 ^ 160
/-- All values of the option. -/
def Each (P : α → Prop) (o : Option α) : Prop := ∀ a, o = some a → P a
/-- An arbitrary-precision number that fits in memory. -/
def Big (n : Nat) : Prop := (Cbor.natBE n).length < 2 ^ 64
def Str (s : String) : Prop := (Cbor.utf8 s).length < 2 ^ 64
def Chars (l : List Char) : Prop := Str (String.ofList l)
def Princ (p : Principal) : Prop := p.bytes.length ≤ 29

def EventSource.Typed (s : EventSource) : Prop := Word s.transactionHash ∧ Word s.logIndex

structure NativeDeposit.Typed (e : NativeDeposit) : Prop where
  hash : Word e.transactionHash
  block : Word e.blockNumber
  index : Word e.logIndex
  sender : Addr e.fromAddress
  value : Word e.value
  principal : Princ e.principal
  subaccount : Each Word e.subaccount

structure Erc20Deposit.Typed (e : Erc20Deposit) : Prop where
  hash : Word e.transactionHash
  block : Word e.blockNumber
  index : Word e.logIndex
  sender : Addr e.fromAddress
  value : Word e.value
  principal : Princ e.principal
  contract : Addr e.erc20ContractAddress
  subaccount : Each Word e.subaccount

def Deposit.Typed : Deposit → Prop
  | .native e => NativeDeposit.Typed e
  | .erc20 e => Erc20Deposit.Typed e

structure AccessListItem.Typed (i : AccessListItem) : Prop where
  address : Addr i.address
  keys : ∀ k ∈ i.storageKeys, Word k
  short : Word64 i.storageKeys.length

structure Tx.Typed (t : Tx) : Prop where
  chain : Word64 t.chainId
  nonce : Word t.nonce
  priority : Word t.maxPriorityFeePerGas
  maxFee : Word t.maxFeePerGas
  gas : Word t.gasLimit
  destination : Addr t.destination
  amount : Word t.amount
  data : Word64 t.data.length
  items : ∀ i ∈ t.accessList, AccessListItem.Typed i
  short : Word64 t.accessList.length

structure SignedTx.Typed (t : SignedTx) : Prop where
  tx : Tx.Typed t.tx
  r : Word t.signature.r
  s : Word t.signature.s

structure Receipt.Typed (r : Receipt) : Prop where
  blockHash : Word r.blockHash
  block : Word r.blockNumber
  price : Word r.effectiveGasPrice
  gas : Word r.gasUsed
  hash : Word r.transactionHash

structure NativeRequest.Typed (r : NativeRequest) : Prop where
  amount : Word r.withdrawalAmount
  destination : Addr r.destination
  burn : Word64 r.ledgerBurnIndex
  sender : Princ r.from
  subaccount : Each Word r.fromSubaccount
  time : Each Word64 r.createdAt

structure Erc20Request.Typed (r : Erc20Request) : Prop where
  fee : Word r.maxTransactionFee
  amount : Word r.withdrawalAmount
  destination : Addr r.destination
  burn : Word64 r.nativeLedgerBurnIndex
  contract : Addr r.erc20ContractAddress
  ledger : Princ r.erc20LedgerId
  tokenBurn : Word64 r.erc20LedgerBurnIndex
  sender : Princ r.from
  subaccount : Each Word r.fromSubaccount
  time : Word64 r.createdAt

def ReimbIndex.Typed : ReimbIndex → Prop
  | .native b => Word64 b
  | .erc20 n l e => Word64 n ∧ Princ l ∧ Word64 e

structure ReimbRequest.Typed (r : ReimbRequest) : Prop where
  burn : Word64 r.ledgerBurnIndex
  amount : Word r.reimbursedAmount
  to : Princ r.to
  subaccount : Each Word r.toSubaccount
  hash : Each Word r.transactionHash

structure Reimbursed.Typed (r : Reimbursed) : Prop where
  block : Word64 r.reimbursedInBlock
  burn : Word64 r.burnInBlock
  amount : Word r.reimbursedAmount
  hash : Each Word r.transactionHash

structure Erc20Token.Typed (t : Erc20Token) : Prop where
  contract : Addr t.erc20ContractAddress
  symbol : Str t.symbol
  ledger : Princ t.erc20LedgerId

structure InitArg.Typed (a : InitArg) : Prop where
  key : Chars a.ecdsaKeyName
  helper : Each Chars a.helperContractAddress
  ledger : Princ a.nativeLedgerId
  index : Princ a.nativeIndexId
  symbol : Str a.nativeSymbol
  minimum : Big a.nativeMinimumWithdrawalAmount
  transferFee : Big a.nativeLedgerTransferFee
  nonce : Big a.nextTransactionNonce
  scraped : Big a.lastScrapedBlockNumber
  priority : Big a.minMaxPriorityFeePerGas
  manager : Princ a.ledgerSuiteManagerId
  depositFee : Big a.depositNativeFee
  withdrawalFee : Big a.withdrawalNativeFee

structure UpgradeArg.Typed (a : UpgradeArg) : Prop where
  nonce : Each Big a.nextTransactionNonce
  minimum : Each Big a.nativeMinimumWithdrawalAmount
  helper : Each Chars a.helperContractAddress
  scraped : Each Big a.lastScrapedBlockNumber
  rpc : Each Princ a.evmRpcId
  transferFee : Each Big a.nativeLedgerTransferFee
  priority : Each Big a.minMaxPriorityFeePerGas
  depositFee : Each Big a.depositNativeFee
  withdrawalFee : Each Big a.withdrawalNativeFee

/-- All values in the event are ones of the program. -/
def Event.Typed : Event → Prop
  | .init a => InitArg.Typed a
  | .upgrade a => UpgradeArg.Typed a
  | .acceptedDeposit e => NativeDeposit.Typed e
  | .invalidDeposit s r => EventSource.Typed s ∧ Str r
  | .mintedNative s i => EventSource.Typed s ∧ Word64 i
  | .syncedToBlock n => Word n
  | .acceptedNativeWithdrawalRequest r => NativeRequest.Typed r
  | .createdTransaction i t => Word64 i ∧ Tx.Typed t
  | .signedTransaction i t => Word64 i ∧ SignedTx.Typed t
  | .replacedTransaction i t => Word64 i ∧ Tx.Typed t
  | .finalizedTransaction i r => Word64 i ∧ Receipt.Typed r
  | .reimbursedNativeWithdrawal r => Reimbursed.Typed r
  | .addedErc20Token t => Erc20Token.Typed t
  | .acceptedErc20Deposit e => Erc20Deposit.Typed e
  | .acceptedErc20WithdrawalRequest r => Erc20Request.Typed r
  | .mintedErc20 s i y c => EventSource.Typed s ∧ Word64 i ∧ Str y ∧ Addr c
  | .reimbursedErc20Withdrawal n l r => Word64 n ∧ Princ l ∧ Reimbursed.Typed r
  | .failedErc20WithdrawalRequest r => ReimbRequest.Typed r
  | .quarantinedDeposit s => EventSource.Typed s
  | .quarantinedReimbursement i => ReimbIndex.Typed i
  | .skippedBlock n => Word n

def MintMemo.Typed : MintMemo → Prop
  | .convert f h i => Addr f ∧ Word h ∧ Word i
  | .reimburseTransaction w h => Word64 w ∧ Word h
  | .reimburseWithdrawal w => Word64 w

def BurnMemo.Typed : BurnMemo → Prop
  | .convert t => Addr t
  | .erc20GasFee y a t => Str y ∧ Word a ∧ Addr t
  | .erc20Convert w t => Word64 w ∧ Addr t

end Spec
end EvmMinter
