import Verif.Model.Cbor
import Verif.Model.Tasks
/-!
# The encoding of events in stable memory, and of memos (minter/src/storage.rs, state/event.rs, memo.rs)

The derived codecs of all types that occur in events and memos. A field written `#[n(k)]` is the element `k` of the array.
-/

namespace EvmMinter
namespace Cbor

/-- `Address` (eth_types/mod.rs:13-21): transparent, 20 bytes. -/
def address (a : Address) : Bytes := fixed 20 a
def readAddress : Dec Address := readFixed 20

/-- `Hash` (rpc_declrations.rs:87-96): transparent, 32 bytes. -/
def hash (h : Hash) : Bytes := fixed 32 h
def readHash : Dec Hash := readFixed 32

/-- `Subaccount` (transactions/mod.rs:28-30) and `StorageKey` (tx.rs:60-62): transparent, 32 bytes. -/
def bytes32 (n : Nat) : Bytes := fixed 32 n
def readBytes32 : Dec Nat := readFixed 32

/-- `LedgerSubaccount` (deposit_logs/mod.rs:246-247): a struct with one number. -/
def ledgerSubaccount (n : Subaccount) : Bytes := struct [req (u256 n)]
def readLedgerSubaccount : Dec Subaccount := readStruct (readReq readU256)

/-- `EvmNetwork` (evm_config.rs:7-44): `index_only`, the indices are the chain ids. -/
def network (n : EvmNetwork) : Bytes :=
  u64 (match n with
    | .ethereum => 1
    | .sepolia => 11155111
    | .arbitrumOne => 42161
    | .bsc => 56
    | .bscTestnet => 97
    | .polygon => 137
    | .optimism => 10
    | .base => 8453
    | .avalanche => 43114
    | .fantom => 250)
def readNetwork : Dec EvmNetwork := do
  match ← readU32 with
  | 1 => pure .ethereum
  | 11155111 => pure .sepolia
  | 42161 => pure .arbitrumOne
  | 56 => pure .bsc
  | 97 => pure .bscTestnet
  | 137 => pure .polygon
  | 10 => pure .optimism
  | 8453 => pure .base
  | 43114 => pure .avalanche
  | 250 => pure .fantom
  | _ => fail .other

/-- `CandidBlockTag` (endpoints.rs:123-142): `index_only`. -/
def blockTag (t : BlockTag) : Bytes :=
  u64 (match t with
    | .latest => 0
    | .safe => 1
    | .finalized => 2)
def readBlockTag : Dec BlockTag := do
  match ← readU32 with
  | 0 => pure .latest
  | 1 => pure .safe
  | 2 => pure .finalized
  | _ => fail .other

/-- A string that is a character list in the model. -/
def chars (l : List Char) : Bytes := text (String.ofList l)
def readChars : Dec (List Char) := do return (← readText).toList

/-- `EventSource` (deposit_logs/mod.rs:111-117). -/
def eventSource (s : EventSource) : Bytes := struct [req (hash s.transactionHash), req (u256 s.logIndex)]
def readEventSource : Dec EventSource := readStruct do
  let h ← readReq readHash
  let i ← readReq readU256
  return ⟨h, i⟩

/-- `ReceivedNativeEvent` (deposit_logs/mod.rs:25-41). -/
def nativeDeposit (e : NativeDeposit) : Bytes := struct [req (hash e.transactionHash), req (u256 e.blockNumber), req (u256 e.logIndex),
  req (address e.fromAddress), req (u256 e.value), req (principal e.principal), opt ledgerSubaccount e.subaccount]
def readNativeDeposit : Dec NativeDeposit := readStruct do
  let transactionHash ← readReq readHash
  let blockNumber ← readReq readU256
  let logIndex ← readReq readU256
  let fromAddress ← readReq readAddress
  let value ← readReq readU256
  let principal ← readReq readPrincipal
  let subaccount ← readOpt readLedgerSubaccount
  return { transactionHash, blockNumber, logIndex, fromAddress, value, principal, subaccount }

/-- `ReceivedErc20Event` (deposit_logs/mod.rs:42-61). -/
def erc20Deposit (e : Erc20Deposit) : Bytes := struct [req (hash e.transactionHash), req (u256 e.blockNumber), req (u256 e.logIndex),
  req (address e.fromAddress), req (u256 e.value), req (principal e.principal), req (address e.erc20ContractAddress),
  opt ledgerSubaccount e.subaccount]
def readErc20Deposit : Dec Erc20Deposit := readStruct do
  let transactionHash ← readReq readHash
  let blockNumber ← readReq readU256
  let logIndex ← readReq readU256
  let fromAddress ← readReq readAddress
  let value ← readReq readU256
  let principal ← readReq readPrincipal
  let erc20ContractAddress ← readReq readAddress
  let subaccount ← readOpt readLedgerSubaccount
  return { transactionHash, blockNumber, logIndex, fromAddress, value, principal, erc20ContractAddress, subaccount }

/-- `AccessListItem` (tx.rs:66-74). -/
def accessListItem (i : AccessListItem) : Bytes := struct [req (address i.address), req (vec bytes32 i.storageKeys)]
def readAccessListItem : Dec AccessListItem := readStruct do
  let address ← readReq readAddress
  let storageKeys ← readReq (readVec readBytes32)
  return { address, storageKeys }

/-- `Eip1559TransactionRequest` (tx.rs:97-117). -/
def tx (t : Tx) : Bytes := struct [req (u64 t.chainId), req (u256 t.nonce), req (u256 t.maxPriorityFeePerGas), req (u256 t.maxFeePerGas),
  req (u256 t.gasLimit), req (address t.destination), req (u256 t.amount), req (bytes t.data), req (vec accessListItem t.accessList)]
def readTx : Dec Tx := readStruct do
  let chainId ← readReq readU64
  let nonce ← readReq readU256
  let maxPriorityFeePerGas ← readReq readU256
  let maxFeePerGas ← readReq readU256
  let gasLimit ← readReq readU256
  let destination ← readReq readAddress
  let amount ← readReq readU256
  let data ← readReq readBytes
  let accessList ← readReq (readVec readAccessListItem)
  return { chainId, nonce, maxPriorityFeePerGas, maxFeePerGas, gasLimit, destination, amount, data, accessList }

/-- `Eip1559Signature` (tx.rs:246-259). -/
def signature (s : Signature) : Bytes := struct [req (bool s.yParity), req (u256 s.r), req (u256 s.s)]
def readSignature : Dec Signature := readStruct do
  let yParity ← readReq readBool
  let r ← readReq readU256
  let s ← readReq readU256
  return { yParity, r, s }

/-- `SignedEip1559TransactionRequest` (tx.rs:290-343): the inner struct; the memoized hash is computed anew. -/
def signedTx (t : SignedTx) : Bytes := struct [req (tx t.tx), req (signature t.signature)]
def readSignedTx : Dec SignedTx := readStruct do
  let tx ← readReq readTx
  let signature ← readReq readSignature
  return { tx, signature }

/-- `TransactionStatus` (rpc_declrations.rs:354-368). -/
def status : TxStatus → Bytes
  | .success => variant 0 []
  | .failure => variant 1 []
def readStatus : Dec TxStatus := readVariant >>= fun i =>
  match i with
  | 0 => do return (fun _ : Unit => .success) (← readStruct (pure ()))
  | 1 => do return (fun _ : Unit => .failure) (← readStruct (pure ()))
  | _ => fail .other

/-- `TransactionReceipt` (rpc_declrations.rs:318-344). -/
def receipt (r : Receipt) : Bytes := struct [req (hash r.blockHash), req (u256 r.blockNumber), req (u256 r.effectiveGasPrice),
  req (u256 r.gasUsed), req (status r.status), req (hash r.transactionHash)]
def readReceipt : Dec Receipt := readStruct do
  let blockHash ← readReq readHash
  let blockNumber ← readReq readU256
  let effectiveGasPrice ← readReq readU256
  let gasUsed ← readReq readU256
  let status ← readReq readStatus
  let transactionHash ← readReq readHash
  return { blockHash, blockNumber, effectiveGasPrice, gasUsed, status, transactionHash }

/-- `NativeWithdrawalRequest` (transactions/mod.rs:39-59). -/
def nativeRequest (r : NativeRequest) : Bytes := struct [req (u256 r.withdrawalAmount), req (address r.destination),
  req (id r.ledgerBurnIndex), req (principal r.from), opt bytes32 r.fromSubaccount, opt u64 r.createdAt]
def readNativeRequest : Dec NativeRequest := readStruct do
  let withdrawalAmount ← readReq readU256
  let destination ← readReq readAddress
  let ledgerBurnIndex ← readReq readId
  let p ← readReq readPrincipal
  let fromSubaccount ← readOpt readBytes32
  let createdAt ← readOpt readU64
  return { withdrawalAmount, destination, ledgerBurnIndex, «from» := p, fromSubaccount, createdAt }

/-- `Erc20WithdrawalRequest` (transactions/mod.rs:62-94). -/
def erc20Request (r : Erc20Request) : Bytes := struct [req (u256 r.maxTransactionFee), req (u256 r.withdrawalAmount),
  req (address r.destination), req (id r.nativeLedgerBurnIndex), req (address r.erc20ContractAddress), req (principal r.erc20LedgerId),
  req (id r.erc20LedgerBurnIndex), req (principal r.from), opt bytes32 r.fromSubaccount, req (u64 r.createdAt)]
def readErc20Request : Dec Erc20Request := readStruct do
  let maxTransactionFee ← readReq readU256
  let withdrawalAmount ← readReq readU256
  let destination ← readReq readAddress
  let nativeLedgerBurnIndex ← readReq readId
  let erc20ContractAddress ← readReq readAddress
  let erc20LedgerId ← readReq readPrincipal
  let erc20LedgerBurnIndex ← readReq readId
  let p ← readReq readPrincipal
  let fromSubaccount ← readOpt readBytes32
  let createdAt ← readReq readU64
  return { maxTransactionFee, withdrawalAmount, destination, nativeLedgerBurnIndex, erc20ContractAddress, erc20LedgerId,
           erc20LedgerBurnIndex, «from» := p, fromSubaccount, createdAt }

/-- `ReimbursementIndex` (transactions/mod.rs:246-265). -/
def reimbIndex : ReimbIndex → Bytes
  | .native b => variant 0 [req (id b)]
  | .erc20 n l e => variant 1 [req (id n), req (principal l), req (id e)]
def readReimbIndex : Dec ReimbIndex := readVariant >>= fun i =>
  match i with
  | 0 => do return .native (← readStruct (readReq readId))
  | 1 => do return (fun x : Nat × Principal × Nat => .erc20 x.1 x.2.1 x.2.2) (← readStruct do
      let n ← readReq readId
      let l ← readReq readPrincipal
      let e ← readReq readId
      return (n, l, e))
  | _ => fail .other

/-- `ReimbursementRequest` (transactions/mod.rs:303-320). -/
def reimbRequest (r : ReimbRequest) : Bytes := struct [req (id r.ledgerBurnIndex), req (u256 r.reimbursedAmount), req (principal r.to),
  opt bytes32 r.toSubaccount, opt hash r.transactionHash]
def readReimbRequest : Dec ReimbRequest := readStruct do
  let ledgerBurnIndex ← readReq readId
  let reimbursedAmount ← readReq readU256
  let to ← readReq readPrincipal
  let toSubaccount ← readOpt readBytes32
  let transactionHash ← readOpt readHash
  return { ledgerBurnIndex, reimbursedAmount, to, toSubaccount, transactionHash }

/-- `Reimbursed` (transactions/mod.rs:322-333). -/
def reimbursed (r : Reimbursed) : Bytes := struct [req (id r.reimbursedInBlock), req (id r.burnInBlock), req (u256 r.reimbursedAmount),
  opt hash r.transactionHash]
def readReimbursed : Dec Reimbursed := readStruct do
  let reimbursedInBlock ← readReq readId
  let burnInBlock ← readReq readId
  let reimbursedAmount ← readReq readU256
  let transactionHash ← readOpt readHash
  return { reimbursedInBlock, burnInBlock, reimbursedAmount, transactionHash }

/-- `ERC20Token` (erc20.rs:12-22). -/
def erc20Token (t : Erc20Token) : Bytes := struct [req (network t.chainId), req (address t.erc20ContractAddress), req (text t.symbol),
  req (principal t.erc20LedgerId)]
def readErc20Token : Dec Erc20Token := readStruct do
  let chainId ← readReq readNetwork
  let erc20ContractAddress ← readReq readAddress
  let symbol ← readReq readText
  let erc20LedgerId ← readReq readPrincipal
  return { chainId, erc20ContractAddress, symbol, erc20LedgerId }

/-- `InitArg` (lifecycle.rs:19-51). -/
def initArg (a : InitArg) : Bytes := struct [req (network a.evmNetwork), req (chars a.ecdsaKeyName), opt chars a.helperContractAddress,
  req (principal a.nativeLedgerId), req (principal a.nativeIndexId), req (text a.nativeSymbol), req (blockTag a.blockHeight),
  req (nat a.nativeMinimumWithdrawalAmount), req (nat a.nativeLedgerTransferFee), req (nat a.nextTransactionNonce),
  req (nat a.lastScrapedBlockNumber), req (nat a.minMaxPriorityFeePerGas), req (principal a.ledgerSuiteManagerId),
  req (nat a.depositNativeFee), req (nat a.withdrawalNativeFee)]
def readInitArg : Dec InitArg := readStruct do
  let evmNetwork ← readReq readNetwork
  let ecdsaKeyName ← readReq readChars
  let helperContractAddress ← readOpt readChars
  let nativeLedgerId ← readReq readPrincipal
  let nativeIndexId ← readReq readPrincipal
  let nativeSymbol ← readReq readText
  let blockHeight ← readReq readBlockTag
  let nativeMinimumWithdrawalAmount ← readReq readNat
  let nativeLedgerTransferFee ← readReq readNat
  let nextTransactionNonce ← readReq readNat
  let lastScrapedBlockNumber ← readReq readNat
  let minMaxPriorityFeePerGas ← readReq readNat
  let ledgerSuiteManagerId ← readReq readPrincipal
  let depositNativeFee ← readReq readNat
  let withdrawalNativeFee ← readReq readNat
  return { evmNetwork, ecdsaKeyName, helperContractAddress, nativeLedgerId, nativeIndexId, nativeSymbol, blockHeight,
           nativeMinimumWithdrawalAmount, nativeLedgerTransferFee, nextTransactionNonce, lastScrapedBlockNumber,
           minMaxPriorityFeePerGas, ledgerSuiteManagerId, depositNativeFee, withdrawalNativeFee }

/-- `UpgradeArg` (lifecycle.rs:170-192); `nil` as in `optWith`. -/
def upgradeArg (nil : Bool) (a : UpgradeArg) : Bytes := struct [optWith nil nat a.nextTransactionNonce,
  optWith nil nat a.nativeMinimumWithdrawalAmount, opt chars a.helperContractAddress, opt blockTag a.blockHeight,
  optWith nil nat a.lastScrapedBlockNumber, optWith nil principal a.evmRpcId, optWith nil nat a.nativeLedgerTransferFee,
  optWith nil nat a.minMaxPriorityFeePerGas, optWith nil nat a.depositNativeFee, optWith nil nat a.withdrawalNativeFee]
def readUpgradeArg : Dec UpgradeArg := readStruct do
  let nextTransactionNonce ← readOpt readNat
  let nativeMinimumWithdrawalAmount ← readOpt readNat
  let helperContractAddress ← readOpt readChars
  let blockHeight ← readOpt readBlockTag
  let lastScrapedBlockNumber ← readOpt readNat
  let evmRpcId ← readOpt readPrincipal
  let nativeLedgerTransferFee ← readOpt readNat
  let minMaxPriorityFeePerGas ← readOpt readNat
  let depositNativeFee ← readOpt readNat
  let withdrawalNativeFee ← readOpt readNat
  return { nextTransactionNonce, nativeMinimumWithdrawalAmount, helperContractAddress, blockHeight, lastScrapedBlockNumber, evmRpcId,
           nativeLedgerTransferFee, minMaxPriorityFeePerGas, depositNativeFee, withdrawalNativeFee }

/-- `EventType` (state/event.rs:20-163). -/
def payload (nil : Bool) : Event → Bytes
  | .init a => variant 0 [req (initArg a)]
  | .upgrade a => variant 1 [req (upgradeArg nil a)]
  | .acceptedDeposit e => variant 2 [req (nativeDeposit e)]
  | .invalidDeposit s r => variant 4 [req (eventSource s), req (text r)]
  | .mintedNative s i => variant 5 [req (eventSource s), req (id i)]
  | .syncedToBlock n => variant 6 [req (u256 n)]
  | .acceptedNativeWithdrawalRequest r => variant 7 [req (nativeRequest r)]
  | .createdTransaction i t => variant 8 [req (id i), req (tx t)]
  | .signedTransaction i t => variant 9 [req (id i), req (signedTx t)]
  | .replacedTransaction i t => variant 10 [req (id i), req (tx t)]
  | .finalizedTransaction i r => variant 11 [req (id i), req (receipt r)]
  | .reimbursedNativeWithdrawal r => variant 12 [req (reimbursed r)]
  | .addedErc20Token t => variant 14 [req (erc20Token t)]
  | .acceptedErc20Deposit e => variant 15 [req (erc20Deposit e)]
  | .acceptedErc20WithdrawalRequest r => variant 16 [req (erc20Request r)]
  | .mintedErc20 s i y c => variant 17 [req (eventSource s), req (id i), req (text y), req (address c)]
  | .reimbursedErc20Withdrawal n l r => variant 19 [req (id n), req (principal l), req (reimbursed r)]
  | .failedErc20WithdrawalRequest r => variant 20 [req (reimbRequest r)]
  | .quarantinedDeposit s => variant 21 [req (eventSource s)]
  | .quarantinedReimbursement i => variant 22 [req (reimbIndex i)]
  | .skippedBlock n => variant 23 [req (u256 n)]

/-- Two required fields. -/
def readPair (a : Dec α) (b : Dec β) : FieldDec (α × β) := do
  let x ← readReq a
  let y ← readReq b
  return (x, y)

def readPayload : Dec Event := readVariant >>= fun i =>
  match i with
  | 0 => do return .init (← readStruct (readReq readInitArg))
  | 1 => do return .upgrade (← readStruct (readReq readUpgradeArg))
  | 2 => do return .acceptedDeposit (← readStruct (readReq readNativeDeposit))
  | 4 => do return (fun x => .invalidDeposit x.1 x.2) (← readStruct (readPair readEventSource readText))
  | 5 => do return (fun x => .mintedNative x.1 x.2) (← readStruct (readPair readEventSource readId))
  | 6 => do return .syncedToBlock (← readStruct (readReq readU256))
  | 7 => do return .acceptedNativeWithdrawalRequest (← readStruct (readReq readNativeRequest))
  | 8 => do return (fun x => .createdTransaction x.1 x.2) (← readStruct (readPair readId readTx))
  | 9 => do return (fun x => .signedTransaction x.1 x.2) (← readStruct (readPair readId readSignedTx))
  | 10 => do return (fun x => .replacedTransaction x.1 x.2) (← readStruct (readPair readId readTx))
  | 11 => do return (fun x => .finalizedTransaction x.1 x.2) (← readStruct (readPair readId readReceipt))
  | 12 => do return .reimbursedNativeWithdrawal (← readStruct (readReq readReimbursed))
  | 14 => do return .addedErc20Token (← readStruct (readReq readErc20Token))
  | 15 => do return .acceptedErc20Deposit (← readStruct (readReq readErc20Deposit))
  | 16 => do return .acceptedErc20WithdrawalRequest (← readStruct (readReq readErc20Request))
  | 17 => do return (fun x : EventSource × Nat × String × Nat => .mintedErc20 x.1 x.2.1 x.2.2.1 x.2.2.2) (← readStruct do
      let s ← readReq readEventSource
      let i ← readReq readId
      let y ← readReq readText
      let c ← readReq readAddress
      return (s, i, y, c))
  | 19 => do return (fun x : Nat × Principal × Reimbursed => .reimbursedErc20Withdrawal x.1 x.2.1 x.2.2) (← readStruct do
      let n ← readReq readId
      let l ← readReq readPrincipal
      let r ← readReq readReimbursed
      return (n, l, r))
  | 20 => do return .failedErc20WithdrawalRequest (← readStruct (readReq readReimbRequest))
  | 21 => do return .quarantinedDeposit (← readStruct (readReq readEventSource))
  | 22 => do return .quarantinedReimbursement (← readStruct (readReq readReimbIndex))
  | 23 => do return .skippedBlock (← readStruct (readReq readU256))
  | _ => fail .other

/-- `Event` with its timestamp (state/event.rs:174-182), `Storable::to_bytes` (storage.rs:23-27). -/
def event (nil : Bool) (timestamp : Nat) (e : Event) : Bytes := struct [req (u64 timestamp), req (payload nil e)]
def readEvent : Dec (Nat × Event) := readStruct (readPair readU64 readPayload)

/-- `Storable::from_bytes` (storage.rs:29-32): `minicbor::decode` ignores what follows the value. -/
def decodeEvent (l : Bytes) : Except Err (Nat × Event) :=
  match readEvent l with
  | .ok r => .ok r.1
  | .error e => .error e

/-- `MintMemo` (memo.rs:20-51). -/
def mintMemo : MintMemo → Bytes
  | .convert f h i => variant 0 [req (address f), req (hash h), req (u256 i)]
  | .reimburseTransaction w h => variant 1 [req (u64 w), req (hash h)]
  | .reimburseWithdrawal w => variant 2 [req (u64 w)]
def readMintMemo : Dec MintMemo := readVariant >>= fun i =>
  match i with
  | 0 => do return (fun x : Nat × Nat × Nat => .convert x.1 x.2.1 x.2.2) (← readStruct do
      let f ← readReq readAddress
      let h ← readReq readHash
      let i ← readReq readU256
      return (f, h, i))
  | 1 => do return (fun x => .reimburseTransaction x.1 x.2) (← readStruct (readPair readU64 readHash))
  | 2 => do return .reimburseWithdrawal (← readStruct (readReq readU64))
  | _ => fail .other

/-- `BurnMemo` (memo.rs:59-93). -/
def burnMemo : BurnMemo → Bytes
  | .convert t => variant 0 [req (address t)]
  | .erc20GasFee y a t => variant 1 [req (text y), req (u256 a), req (address t)]
  | .erc20Convert w t => variant 2 [req (u64 w), req (address t)]
def readBurnMemo : Dec BurnMemo := readVariant >>= fun i =>
  match i with
  | 0 => do return .convert (← readStruct (readReq readAddress))
  | 1 => do return (fun x : String × Nat × Nat => .erc20GasFee x.1 x.2.1 x.2.2) (← readStruct do
      let y ← readReq readText
      let a ← readReq readU256
      let t ← readReq readAddress
      return (y, a, t))
  | 2 => do return (fun x => .erc20Convert x.1 x.2) (← readStruct (readPair readU64 readAddress))
  | _ => fail .other

end Cbor

/-- `Memo::from` (memo.rs:53-57, 95-99). -/
def Memo.bytes : Memo → Bytes
  | .mint m => Cbor.mintMemo m
  | .burn m => Cbor.burnMemo m

end EvmMinter
