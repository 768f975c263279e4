import Verif.Model.Address
import Verif.Model.GasFee
/-!
# What the minter tells about itself (main.rs: `smart_contract_address`, `get_minter_info`)

The fields of `State` that are not part of the modelled state are arguments: the public key (its 64 bytes after decoding, as in
`addressOfKey`), the last observed block and the cached estimate.
-/

namespace EvmMinter

/-- `Erc20Token` (endpoints.rs:48-53). -/
structure TokenInfo where
  symbol : String
  contract : List Char
  ledger : Principal
deriving DecidableEq

/-- `From<ERC20Token> for Erc20Token` (endpoints.rs:55-63). -/
def TokenInfo.ofToken [Keccak] (t : Erc20Token) : TokenInfo := ⟨t.symbol, t.erc20ContractAddress.display, t.erc20LedgerId⟩

/-- `Erc20Balance` (endpoints.rs:65-69). -/
structure BalanceInfo where
  contract : List Char
  balance : Nat
deriving DecidableEq

/-- `GasFeeEstimate` (endpoints.rs). -/
structure EstimateInfo where
  maxFeePerGas : Nat
  maxPriorityFeePerGas : Nat
  timestamp : Nat
deriving DecidableEq

/-- `MinterInfo` (endpoints.rs:71-88). Fields that are always `Some` are without the `Option`. -/
structure MinterInfo where
  minterAddress : Option (List Char)
  helperContractAddress : Option (List Char)
  supportedErc20Tokens : List TokenInfo
  minimumWithdrawalAmount : Nat
  depositNativeFee : Option Nat
  withdrawalNativeFee : Option Nat
  blockHeight : BlockTag
  lastObservedBlockNumber : Option Nat
  nativeBalance : Nat
  lastGasFeeEstimate : Option EstimateInfo
  erc20Balances : List BalanceInfo
  lastScrapedBlockNumber : Nat
  nativeTwinTokenLedgerId : Principal
  ledgerSuiteManagerId : Option Principal
  swapCanisterId : Option Principal
deriving DecidableEq

namespace State

/-- `Erc20Balances::balance_of` (state.rs:697-702). -/
def balanceOf (s : State) (contract : Address) : Erc20Value := (s.erc20Balances.get contract).getD 0

/-- `smart_contract_address` (main.rs:154-159). -/
def smartContractAddress [Keccak] (s : State) : List Char :=
  (s.helperContractAddress.map Address.display).getD "N/A".toList

/-- `get_minter_info` (main.rs:198-243). -/
def minterInfo [Keccak] (s : State) (key : Option Bytes) (observed : Option BlockNumber) (cache : CachedEstimate) : Res MinterInfo := do
  let toks ← s.supportedErc20Tokens
  let erc20Balances := toks.map fun t => ⟨t.erc20ContractAddress.display, s.balanceOf t.erc20ContractAddress⟩
  let toks ← s.supportedErc20Tokens
  let supportedErc20Tokens := toks.map TokenInfo.ofToken
  return {
    minterAddress := key.map fun k => (addressOfKey k).display
    helperContractAddress := s.helperContractAddress.map Address.display
    supportedErc20Tokens
    minimumWithdrawalAmount := s.nativeMinimumWithdrawalAmount
    depositNativeFee := s.depositNativeFee
    withdrawalNativeFee := s.withdrawalNativeFee
    blockHeight := s.blockHeight
    lastObservedBlockNumber := observed
    nativeBalance := s.nativeBalance.balance
    lastGasFeeEstimate := cache.map fun (ts, g) => ⟨g.maxFeePerGas, g.maxPriorityFeePerGas, ts⟩
    erc20Balances
    lastScrapedBlockNumber := s.lastScrapedBlockNumber
    nativeTwinTokenLedgerId := s.nativeLedgerId
    ledgerSuiteManagerId := s.ledgerSuiteManagerId
    swapCanisterId := s.swapCanisterId }

end State
end EvmMinter
