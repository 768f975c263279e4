import Verif.Base.FMap
import Verif.Base.Res
import Verif.Base.Checked
import Verif.Base.Bytes
/-!
# Basic types

Field-by-field models of the data types of the minter. 256-bit amounts, addresses (160 bit) and hashes
(256 bit) are natural numbers. Principals are byte strings.
-/

namespace EvmMinter

abbrev Wei := Nat
abbrev WeiPerGas := Nat
abbrev GasAmount := Nat
abbrev Erc20Value := Nat
abbrev BlockNumber := Nat
abbrev LogIndex := Nat
abbrev TransactionNonce := Nat
abbrev TransactionCount := Nat
abbrev LedgerBurnIndex := Nat
abbrev LedgerMintIndex := Nat
/-- Big-endian value of the 20 bytes (eth_types/mod.rs:15-21); the derived order agrees. -/
abbrev Address := Nat
/-- Big-endian value of the 32 bytes. -/
abbrev Hash := Nat

/-- `Address::ZERO` (eth_types/mod.rs:29). -/
def Address.zero : Address := 0

/-- `candid::Principal`: at most 29 bytes, ordered by length and then bytes. -/
structure Principal where
  bytes : Bytes
deriving DecidableEq, Repr

instance : TOrd Principal :=
  TOrd.ofInj (fun p => (p.bytes.length, p.bytes.map UInt8.toNat)) (by
    intro a b h
    cases a; cases b
    simp only [Prod.mk.injEq] at h
    have := List.map_inj_right (f := UInt8.toNat) (fun x y h => UInt8.toNat.inj h) |>.1 h.2
    simp only [Principal.mk.injEq]
    exact this)

/-- `Principal::anonymous()`. -/
def Principal.anonymous : Principal := ⟨[4]⟩
/-- `Principal::management_canister()`. -/
def Principal.management : Principal := ⟨[]⟩

/-- A 32-byte subaccount, as its big-endian value (deposit_logs/mod.rs:247, transactions/mod.rs:30). -/
abbrev Subaccount := Nat

/-- `EvmNetwork` (evm_config.rs:23-45). -/
inductive EvmNetwork where
  | ethereum | sepolia | arbitrumOne | bsc | bscTestnet | polygon | optimism | base | avalanche | fantom
deriving DecidableEq, Repr

/-- `EvmNetwork::chain_id` (evm_config.rs:48-62). -/
def EvmNetwork.chainId : EvmNetwork → Nat
  | .ethereum => 1
  | .sepolia => 11155111
  | .arbitrumOne => 42161
  | .bsc => 56
  | .polygon => 137
  | .optimism => 10
  | .base => 8453
  | .avalanche => 43114
  | .fantom => 250
  | .bscTestnet => 97

/-- `TryFrom<u64> for EvmNetwork` (evm_config.rs:65-83). -/
def EvmNetwork.ofChainId (n : Nat) : Option EvmNetwork :=
  match n with
  | 1 => some .ethereum
  | 11155111 => some .sepolia
  | 42161 => some .arbitrumOne
  | 56 => some .bsc
  | 137 => some .polygon
  | 10 => some .optimism
  | 8453 => some .base
  | 43114 => some .avalanche
  | 250 => some .fantom
  | 97 => some .bscTestnet
  | _ => none

/-- `BlockTag` / `CandidBlockTag` (rpc_declrations.rs:140-152). -/
inductive BlockTag where
  | latest | safe | finalized
deriving DecidableEq, Repr

/-- `EventSource` (deposit_logs/mod.rs:112-117). -/
structure EventSource where
  transactionHash : Hash
  logIndex : LogIndex
deriving DecidableEq, Repr

instance : TOrd EventSource :=
  TOrd.ofInj (fun e => (e.transactionHash, e.logIndex)) (by
    intro a b h; cases a; cases b; simpa using h)

/-- `ReceivedNativeEvent` (deposit_logs/mod.rs:26-42). -/
structure NativeDeposit where
  transactionHash : Hash
  blockNumber : BlockNumber
  logIndex : LogIndex
  fromAddress : Address
  value : Wei
  principal : Principal
  subaccount : Option Subaccount
deriving DecidableEq, Repr

/-- `ReceivedErc20Event` (deposit_logs/mod.rs:43-61). -/
structure Erc20Deposit where
  transactionHash : Hash
  blockNumber : BlockNumber
  logIndex : LogIndex
  fromAddress : Address
  value : Erc20Value
  principal : Principal
  erc20ContractAddress : Address
  subaccount : Option Subaccount
deriving DecidableEq, Repr

/-- `ReceivedDepositEvent` (deposit_logs/mod.rs:63-67). -/
inductive Deposit where
  | native (e : NativeDeposit)
  | erc20 (e : Erc20Deposit)
deriving DecidableEq, Repr

/-- `ReceivedDepositEvent::source` (deposit_logs/mod.rs:125-160). -/
def Deposit.source : Deposit → EventSource
  | .native e => ⟨e.transactionHash, e.logIndex⟩
  | .erc20 e => ⟨e.transactionHash, e.logIndex⟩

def Deposit.value : Deposit → Nat
  | .native e => e.value
  | .erc20 e => e.value

def Deposit.principal : Deposit → Principal
  | .native e => e.principal
  | .erc20 e => e.principal

def Deposit.subaccount : Deposit → Option Subaccount
  | .native e => e.subaccount
  | .erc20 e => e.subaccount

def Deposit.fromAddress : Deposit → Address
  | .native e => e.fromAddress
  | .erc20 e => e.fromAddress

/-- `AccessListItem` (tx.rs:67-74). -/
structure AccessListItem where
  address : Address
  storageKeys : List Nat
deriving DecidableEq, Repr

/-- `Eip1559TransactionRequest` (tx.rs:98-117). -/
structure Tx where
  chainId : Nat
  nonce : TransactionNonce
  maxPriorityFeePerGas : WeiPerGas
  maxFeePerGas : WeiPerGas
  gasLimit : GasAmount
  destination : Address
  amount : Wei
  data : Bytes
  accessList : List AccessListItem
deriving DecidableEq, Repr

/-- `Eip1559Signature` (tx.rs:247-259). -/
structure Signature where
  yParity : Bool
  r : Nat
  s : Nat
deriving DecidableEq, Repr

/-- `SignedEip1559TransactionRequest` (tx.rs:274-297); the memoized hash is a function of the rest. -/
structure SignedTx where
  tx : Tx
  signature : Signature
deriving DecidableEq, Repr

/-- `TransactionStatus` (rpc_declrations.rs:354-368). -/
inductive TxStatus where
  | success | failure
deriving DecidableEq, Repr

/-- `TransactionReceipt` (rpc_declrations.rs:320-344). -/
structure Receipt where
  blockHash : Hash
  blockNumber : BlockNumber
  effectiveGasPrice : WeiPerGas
  gasUsed : GasAmount
  status : TxStatus
  transactionHash : Hash
deriving DecidableEq, Repr

/-- `FinalizedEip1559Transaction` (tx.rs:346-352). -/
structure FinalizedTx where
  signed : SignedTx
  receipt : Receipt
deriving DecidableEq, Repr

/-- `ResubmissionStrategy` (tx.rs:160-163). -/
inductive Strategy where
  | reduceEthAmount (withdrawalAmount : Wei)
  | guaranteeEthAmount (allowedMaxTransactionFee : Wei)
deriving DecidableEq, Repr

/-- `ResubmissionStrategy::allowed_max_transaction_fee` (tx.rs:167-174). -/
def Strategy.allowedMaxFee : Strategy → Wei
  | .reduceEthAmount a => a
  | .guaranteeEthAmount a => a

/-- `Resubmittable<T>` (tx.rs:129-132). -/
structure Resubmittable (T : Type) where
  transaction : T
  resubmission : Strategy
deriving DecidableEq, Repr

/-- `NativeWithdrawalRequest` (transactions/mod.rs:40-59). -/
structure NativeRequest where
  withdrawalAmount : Wei
  destination : Address
  ledgerBurnIndex : LedgerBurnIndex
  «from» : Principal
  fromSubaccount : Option Subaccount
  createdAt : Option Nat
deriving DecidableEq, Repr

/-- `Erc20WithdrawalRequest` (transactions/mod.rs:63-94). -/
structure Erc20Request where
  maxTransactionFee : Wei
  withdrawalAmount : Erc20Value
  destination : Address
  nativeLedgerBurnIndex : LedgerBurnIndex
  erc20ContractAddress : Address
  erc20LedgerId : Principal
  erc20LedgerBurnIndex : LedgerBurnIndex
  «from» : Principal
  fromSubaccount : Option Subaccount
  createdAt : Nat
deriving DecidableEq, Repr

/-- `WithdrawalRequest` (transactions/mod.rs:162-165). -/
inductive Request where
  | native (r : NativeRequest)
  | erc20 (r : Erc20Request)
deriving DecidableEq, Repr

namespace Request
/-- transactions/mod.rs:168-173. -/
def burnIndex : Request → LedgerBurnIndex
  | .native r => r.ledgerBurnIndex
  | .erc20 r => r.nativeLedgerBurnIndex
/-- transactions/mod.rs:175-180. -/
def createdAt : Request → Option Nat
  | .native r => r.createdAt
  | .erc20 r => some r.createdAt
/-- transactions/mod.rs:183-188. -/
def payee : Request → Address
  | .native r => r.destination
  | .erc20 r => r.destination
/-- transactions/mod.rs:191-196. -/
def destination : Request → Address
  | .native r => r.destination
  | .erc20 r => r.erc20ContractAddress
/-- transactions/mod.rs:198-203. -/
def «from» : Request → Principal
  | .native r => r.from
  | .erc20 r => r.from
/-- transactions/mod.rs:205-210. -/
def fromSubaccount : Request → Option Subaccount
  | .native r => r.fromSubaccount
  | .erc20 r => r.fromSubaccount
end Request

/-- `ReimbursementIndex` (transactions/mod.rs:247-265). -/
inductive ReimbIndex where
  | native (ledgerBurnIndex : LedgerBurnIndex)
  | erc20 (nativeLedgerBurnIndex : LedgerBurnIndex) (ledgerId : Principal)
      (erc20LedgerBurnIndex : LedgerBurnIndex)
deriving DecidableEq, Repr

instance : TOrd ReimbIndex :=
  TOrd.ofInj
    (fun i => match i with
      | .native b => (0, b, Principal.management, 0)
      | .erc20 n l e => (1, n, l, e))
    (by intro a b h; cases a <;> cases b <;> simp_all)

namespace ReimbIndex
/-- `From<&WithdrawalRequest>` (transactions/mod.rs:267-280). -/
def ofRequest : Request → ReimbIndex
  | .native r => .native r.ledgerBurnIndex
  | .erc20 r => .erc20 r.nativeLedgerBurnIndex r.erc20LedgerId r.erc20LedgerBurnIndex
/-- transactions/mod.rs:283-291. -/
def withdrawalId : ReimbIndex → LedgerBurnIndex
  | .native b => b
  | .erc20 n _ _ => n
/-- transactions/mod.rs:292-300. -/
def burnInBlock : ReimbIndex → LedgerBurnIndex
  | .native b => b
  | .erc20 _ _ e => e
end ReimbIndex

/-- `ReimbursementRequest` (transactions/mod.rs:304-320). -/
structure ReimbRequest where
  ledgerBurnIndex : LedgerBurnIndex
  reimbursedAmount : Nat
  to : Principal
  toSubaccount : Option Subaccount
  transactionHash : Option Hash
deriving DecidableEq, Repr

/-- `Reimbursed` (transactions/mod.rs:323-333). -/
structure Reimbursed where
  reimbursedInBlock : LedgerMintIndex
  burnInBlock : LedgerBurnIndex
  reimbursedAmount : Nat
  transactionHash : Option Hash
deriving DecidableEq, Repr

/-- `ReimbursedResult` (transactions/mod.rs:335-344). -/
inductive ReimbResult where
  | ok (r : Reimbursed)
  | quarantined
deriving DecidableEq, Repr

/-- `ERC20Token` (erc20.rs:13-23). -/
structure Erc20Token where
  chainId : EvmNetwork
  erc20ContractAddress : Address
  symbol : String
  erc20LedgerId : Principal
deriving DecidableEq, Repr

/-- `InvalidEventReason` (state.rs:47-58). -/
inductive InvalidReason where
  | invalidDeposit (reason : String)
  | quarantinedDeposit
deriving DecidableEq, Repr

/-- `MintedEvent` (state.rs:86-91). -/
structure MintedEvent where
  deposit : Deposit
  mintBlockIndex : LedgerMintIndex
  tokenSymbol : String
  erc20ContractAddress : Option Address
deriving DecidableEq, Repr

/-- `InitArg` (lifecycle.rs:20-51). Strings that are parsed are character lists. -/
structure InitArg where
  evmNetwork : EvmNetwork
  ecdsaKeyName : List Char
  helperContractAddress : Option (List Char)
  nativeLedgerId : Principal
  nativeIndexId : Principal
  nativeSymbol : String
  blockHeight : BlockTag
  nativeMinimumWithdrawalAmount : Nat
  nativeLedgerTransferFee : Nat
  nextTransactionNonce : Nat
  lastScrapedBlockNumber : Nat
  minMaxPriorityFeePerGas : Nat
  ledgerSuiteManagerId : Principal
  depositNativeFee : Nat
  withdrawalNativeFee : Nat
deriving DecidableEq, Repr

/-- `UpgradeArg` (lifecycle.rs:171-192). -/
structure UpgradeArg where
  nextTransactionNonce : Option Nat := none
  nativeMinimumWithdrawalAmount : Option Nat := none
  helperContractAddress : Option (List Char) := none
  blockHeight : Option BlockTag := none
  lastScrapedBlockNumber : Option Nat := none
  evmRpcId : Option Principal := none
  nativeLedgerTransferFee : Option Nat := none
  minMaxPriorityFeePerGas : Option Nat := none
  depositNativeFee : Option Nat := none
  withdrawalNativeFee : Option Nat := none
deriving DecidableEq, Repr

/-- `EventType` (state/event.rs:21-163). -/
inductive Event where
  | init (arg : InitArg)
  | upgrade (arg : UpgradeArg)
  | acceptedDeposit (e : NativeDeposit)
  | invalidDeposit (source : EventSource) (reason : String)
  | mintedNative (source : EventSource) (mintBlockIndex : LedgerMintIndex)
  | syncedToBlock (blockNumber : BlockNumber)
  | acceptedNativeWithdrawalRequest (r : NativeRequest)
  | createdTransaction (withdrawalId : LedgerBurnIndex) (tx : Tx)
  | signedTransaction (withdrawalId : LedgerBurnIndex) (tx : SignedTx)
  | replacedTransaction (withdrawalId : LedgerBurnIndex) (tx : Tx)
  | finalizedTransaction (withdrawalId : LedgerBurnIndex) (receipt : Receipt)
  | reimbursedNativeWithdrawal (r : Reimbursed)
  | addedErc20Token (t : Erc20Token)
  | acceptedErc20Deposit (e : Erc20Deposit)
  | acceptedErc20WithdrawalRequest (r : Erc20Request)
  | mintedErc20 (source : EventSource) (mintBlockIndex : LedgerMintIndex) (symbol : String)
      (contract : Address)
  | reimbursedErc20Withdrawal (nativeLedgerBurnIndex : LedgerBurnIndex) (erc20LedgerId : Principal)
      (r : Reimbursed)
  | failedErc20WithdrawalRequest (r : ReimbRequest)
  | quarantinedDeposit (source : EventSource)
  | quarantinedReimbursement (index : ReimbIndex)
  | skippedBlock (blockNumber : BlockNumber)
deriving DecidableEq, Repr

/-- `ReceivedDepositEvent::into_deposit` (state/event.rs:165-172). -/
def Deposit.intoEvent : Deposit → Event
  | .native e => .acceptedDeposit e
  | .erc20 e => .acceptedErc20Deposit e

/-- `WithdrawalRequest::into_accepted_withdrawal_request_event` (transactions/mod.rs:212-219). -/
def Request.intoEvent : Request → Event
  | .native r => .acceptedNativeWithdrawalRequest r
  | .erc20 r => .acceptedErc20WithdrawalRequest r

end EvmMinter
