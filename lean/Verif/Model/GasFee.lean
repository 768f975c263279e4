import Verif.Model.Withdraw
import Verif.Model.State
/-!
# Gas fee estimates (tx.rs, main.rs: eip_1559_transaction_price)
-/

namespace EvmMinter

/-- `FeeHistory` (rpc_declrations.rs:440-450). -/
structure FeeHistory where
  oldestBlock : BlockNumber
  baseFeePerGas : List WeiPerGas
  reward : List (List WeiPerGas)
deriving DecidableEq, Repr

/-- `TransactionFeeEstimationError` (tx.rs:807-810), without the messages. -/
inductive FeeEstimationError where
  | invalidFeeHistory
  | overflow
deriving DecidableEq, Repr

/-- `median` (tx.rs:870-876). `select_nth_unstable(k)` returns the element that is at position `k` after sorting. -/
def median (l : List Nat) : Option Nat := (l.mergeSort fun a b => decide (a ≤ b))[l.length / 2]?

/-- `estimate_transaction_fee` (tx.rs:824-861). `minimum` is the field `min_max_priority_fee_per_gas` of the state. -/
def estimateTransactionFee (minimum : WeiPerGas) (h : FeeHistory) : Except FeeEstimationError GasFeeEstimate :=
  match h.baseFeePerGas.getLast? with
  | none => .error .invalidFeeHistory
  | some base =>
    match median h.reward.flatten with
    | none => .error .invalidFeeHistory
    | some historic =>
      let g : GasFeeEstimate := ⟨base, max historic minimum⟩
      if g.checkedMaxFeePerGas.isNone then .error .overflow else .ok g

/-- `last_transaction_price_estimate` (state.rs): the last estimate and when it was made. -/
abbrev CachedEstimate := Option (Nat × GasFeeEstimate)

/-- Largest `u64`. -/
def u64Max : Nat := 2 ^ 64 - 1

/-- `lazy_refresh_gas_fee_estimate` (tx.rs:734-806), the part before the call: the estimate if it is recent enough. -/
def cachedEstimate (cache : CachedEstimate) (now : Nat) : Option GasFeeEstimate :=
  match cache with
  | some (ts, g) => if now < min (ts + 30000000000) u64Max then some g else none
  | none => none

/-- The part after the call (tx.rs:757-780): `history` is the answer, `none` if there is none. Returns the new cache too. -/
def refreshEstimate (cache : CachedEstimate) (minimum : WeiPerGas) (now : Nat) (history : Option FeeHistory) :
    CachedEstimate × Option GasFeeEstimate :=
  match history with
  | none => (cache, none)
  | some h =>
    match estimateTransactionFee minimum h with
    | .ok g => (some (now, g), some g)
    | .error _ => (cache, none)

/-- `Eip1559TransactionPrice` (endpoints.rs:28-34). -/
structure PriceReply where
  gasLimit : Nat
  maxFeePerGas : Nat
  maxPriorityFeePerGas : Nat
  maxTransactionFee : Nat
  timestamp : Option Nat
deriving DecidableEq, Repr

/-- `From<TransactionPrice>` (endpoints.rs:36-46). -/
def PriceReply.ofPrice (p : TxPrice) : PriceReply := ⟨p.gasLimit, p.maxFeePerGas, p.maxPriorityFeePerGas, p.maxTransactionFee, none⟩

/-- `eip_1559_transaction_price` (main.rs:164-193). -/
def transactionPrice (s : State) (cache : CachedEstimate) (token : Option Principal) : Res PriceReply := do
  let gasLimit ← match token with
    | none => .ok nativeGasLimit
    | some ledger =>
      match s.findErc20TokenByLedgerId ledger with
      | some _ => .ok erc20GasLimit
      | none => if ledger = s.nativeLedgerId then .ok nativeGasLimit else .error "ERROR: Unsupported ckERC20 token ledger"
  match cache with
  | some (ts, g) => .ok { PriceReply.ofPrice (g.toPrice gasLimit) with timestamp := some ts }
  | none => .error "ERROR: last transaction price estimate is not available"

end EvmMinter
