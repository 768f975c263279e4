import Verif.Model.State
/-!
# A concrete history

Used only to exhibit concrete, non-trivial cases that meet the hypotheses of the theorems.
-/

namespace EvmMinter.Example

/-- A concrete hash function (the number written in big-endian by the bytes). -/
instance keccak : Keccak := ⟨beNat⟩

def ledger : Principal := ⟨[1, 1]⟩
def manager : Principal := ⟨[2, 1]⟩
def usdcLedger : Principal := ⟨[3, 1]⟩
def alice : Principal := ⟨[7, 7]⟩

def initArg : InitArg where
  evmNetwork := .sepolia
  ecdsaKeyName := "key_1".toList
  helperContractAddress := some "0x000000000000000000000000000000000000cafe".toList
  nativeLedgerId := ledger
  nativeIndexId := ⟨[1, 2]⟩
  nativeSymbol := "ckETH"
  blockHeight := .finalized
  nativeMinimumWithdrawalAmount := 1000000000
  nativeLedgerTransferFee := 10
  nextTransactionNonce := 5
  lastScrapedBlockNumber := 100
  minMaxPriorityFeePerGas := 1
  ledgerSuiteManagerId := manager
  depositNativeFee := 50
  withdrawalNativeFee := 100

def usdc : Address := 0xa0b8

def deposit1 : NativeDeposit where
  transactionHash := 0x11
  blockNumber := 101
  logIndex := 0
  fromAddress := 0xabc
  value := 5000000000000
  principal := alice
  subaccount := none

def deposit2 : Erc20Deposit where
  transactionHash := 0x12
  blockNumber := 102
  logIndex := 3
  fromAddress := 0xabc
  value := 700
  principal := alice
  erc20ContractAddress := usdc
  subaccount := some 9

def request1 : NativeRequest where
  withdrawalAmount := 3000000000
  destination := 0xdead
  ledgerBurnIndex := 20
  «from» := alice
  fromSubaccount := none
  createdAt := some 1

def request2 : Erc20Request where
  maxTransactionFee := 65000 * 1000
  withdrawalAmount := 200
  destination := 0xbeef
  nativeLedgerBurnIndex := 21
  erc20ContractAddress := usdc
  erc20LedgerId := usdcLedger
  erc20LedgerBurnIndex := 4
  «from» := alice
  fromSubaccount := none
  createdAt := 2

def tx1 : Tx where
  chainId := 11155111
  nonce := 5
  maxPriorityFeePerGas := 10
  maxFeePerGas := 1000
  gasLimit := 21000
  destination := 0xdead
  amount := 3000000000 - 21000 * 1000
  data := []
  accessList := []

/-- Resubmission of `tx1` with a higher priority fee. -/
def tx1' : Tx := { tx1 with maxPriorityFeePerGas := 11 }

def tx2 : Tx where
  chainId := 11155111
  nonce := 6
  maxPriorityFeePerGas := 10
  maxFeePerGas := 1000
  gasLimit := 65000
  destination := usdc
  amount := 0
  data := Erc20Transfer.encode ⟨0xbeef, 200⟩
  accessList := []

def sig : Signature := ⟨true, 77, 88⟩

def receipt1 : Receipt where
  blockHash := 1
  blockNumber := 200
  effectiveGasPrice := 900
  gasUsed := 21000
  status := .failure
  transactionHash := (SignedTx.mk tx1' sig).hash

def receipt2 : Receipt where
  blockHash := 1
  blockNumber := 200
  effectiveGasPrice := 900
  gasUsed := 60000
  status := .success
  transactionHash := (SignedTx.mk tx2 sig).hash

/-- Deposits, token registration, two withdrawals (one resubmitted, failed and reimbursed), an upgrade. -/
def log : List Event :=
  [ .init initArg,
    .acceptedDeposit deposit1,
    .addedErc20Token ⟨.sepolia, usdc, "ckUSDC", usdcLedger⟩,
    .acceptedErc20Deposit deposit2,
    .invalidDeposit ⟨0x13, 1⟩ "bad principal",
    .mintedNative ⟨0x11, 0⟩ 1,
    .mintedErc20 ⟨0x12, 3⟩ 0 "ckUSDC" usdc,
    .acceptedNativeWithdrawalRequest request1,
    .acceptedErc20WithdrawalRequest request2,
    .createdTransaction 20 tx1,
    .createdTransaction 21 tx2,
    .signedTransaction 20 ⟨tx1, sig⟩,
    .signedTransaction 21 ⟨tx2, sig⟩,
    .syncedToBlock 150,
    .upgrade { nativeMinimumWithdrawalAmount := some 2000000000 },
    .replacedTransaction 20 tx1',
    .signedTransaction 20 ⟨tx1', sig⟩,
    .finalizedTransaction 21 receipt2,
    .finalizedTransaction 20 receipt1,
    .reimbursedNativeWithdrawal ⟨30, 20, 3000000000 - 21000 * 1000, some receipt1.transactionHash⟩,
    .skippedBlock 160 ]

/-- Replaying `l` succeeds in a state that satisfies `p`. -/
def checkLog (l : List Event) (p : State → Bool) : Bool :=
  match replay l with
  | .ok s => p s
  | .error _ => false

theorem of_checkLog {l : List Event} {p : State → Bool} (h : checkLog l p = true) :
    ∃ s, replay l = .ok s ∧ p s = true := by
  unfold checkLog at h
  cases hr : replay l with
  | ok s => rw [hr] at h; exact ⟨s, rfl, h⟩
  | error e => rw [hr] at h; cases h

/-- The log is accepted. -/
theorem log_ok : ∃ s, replay log = .ok s := by
  have h : checkLog log (fun _ => true) = true := by decide +kernel
  obtain ⟨s, hs, _⟩ := of_checkLog h
  exact ⟨s, hs⟩

end EvmMinter.Example
