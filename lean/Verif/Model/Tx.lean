import Verif.Model.Types
import Verif.Model.Rlp
/-!
# Transactions, prices and resubmission (minter/src/tx.rs, minter/src/numeric/mod.rs)
-/

namespace EvmMinter

/-- The Keccak-256 hash function, uninterpreted (`ic_sha3::Keccak256::hash`, tx.rs:432, 525). -/
class Keccak where
  hash : Bytes → Hash

/-! ## RLP of transactions -/

/-- RLP item of an access list entry (tx.rs:79-92). -/
def AccessListItem.rlp (i : AccessListItem) : Rlp :=
  .list [.str (toBE 20 i.address), .list (i.storageKeys.map fun k => .str (toBE 32 k))]

/-- `rlp_inner` (tx.rs:508-518). `chain_id` is a `u64`, the amounts are `u256` without leading zeros
(checked_amount/mod.rs:305-310), the destination is always 20 bytes. -/
def Tx.rlpInner (t : Tx) : List Rlp :=
  [.str (minBE 8 t.chainId), .str (minBE 32 t.nonce), .str (minBE 32 t.maxPriorityFeePerGas),
   .str (minBE 32 t.maxFeePerGas), .str (minBE 32 t.gasLimit), .str (toBE 20 t.destination),
   .str (minBE 32 t.amount), .str t.data, .list (t.accessList.map AccessListItem.rlp)]

/-- `Eip1559Signature::rlp_append` (tx.rs:263-269); `false` is the empty string, `true` is `0x01`. -/
def Signature.rlp (s : Signature) : List Rlp :=
  [.str (if s.yParity then [1] else []), .str (minBE 32 s.r), .str (minBE 32 s.s)]

/-- The bytes signed: type byte and RLP list (tx.rs:521-526, `EIP1559_TX_ID = 2` at tx.rs:24). -/
def Tx.signingBytes (t : Tx) : Bytes := 2 :: Rlp.encode (.list t.rlpInner)

/-- `Eip1559TransactionRequest::hash` (tx.rs:521-526). -/
def Tx.hash [Keccak] (t : Tx) : Hash := Keccak.hash t.signingBytes

/-- `InnerSignedTransactionRequest::raw_bytes` (tx.rs:300-318). -/
def SignedTx.rawBytes (t : SignedTx) : Bytes :=
  2 :: Rlp.encode (.list (t.tx.rlpInner ++ t.signature.rlp))

/-- `SignedEip1559TransactionRequest::hash` (tx.rs:427-447). -/
def SignedTx.hash [Keccak] (t : SignedTx) : Hash := Keccak.hash t.rawBytes

/-- `try_finalize` (tx.rs:461-490). -/
def SignedTx.tryFinalize [Keccak] (t : SignedTx) (r : Receipt) : Except String FinalizedTx :=
  if t.hash ≠ r.transactionHash then .error "transaction hash mismatch"
  else if t.tx.maxFeePerGas < r.effectiveGasPrice then
    .error "transaction max_fee_per_gas is smaller than effective_gas_price"
  else if t.tx.gasLimit < r.gasUsed then .error "transaction gas limit is smaller than gas used"
  else .ok ⟨t, r⟩

/-- `WeiPerGas::transaction_cost` (numeric/mod.rs:62-67). -/
def transactionCost (p : WeiPerGas) (gas : GasAmount) : Option Wei := cmul p gas

/-- `Wei::into_wei_per_gas` (numeric/mod.rs:70-74). -/
def intoWeiPerGas (w : Wei) (gas : GasAmount) : Option WeiPerGas := cdivFloor w gas

/-- `TransactionReceipt::effective_transaction_fee` (rpc_declrations.rs:346-352). -/
def Receipt.effectiveFee (r : Receipt) : Res Wei :=
  expect (transactionCost r.effectiveGasPrice r.gasUsed)
    "ERROR: overflow during transaction fee calculation"

/-! ## Prices -/

/-- `GasFeeEstimate` (tx.rs:609-612). -/
structure GasFeeEstimate where
  baseFeePerGas : WeiPerGas
  maxPriorityFeePerGas : WeiPerGas
deriving DecidableEq, Repr

/-- `TransactionPrice` (tx.rs:667-671). -/
structure TxPrice where
  gasLimit : GasAmount
  maxFeePerGas : WeiPerGas
  maxPriorityFeePerGas : WeiPerGas
deriving DecidableEq, Repr

namespace GasFeeEstimate
/-- `checked_estimate_max_fee_per_gas` (tx.rs:619-625). -/
def checkedMaxFeePerGas (e : GasFeeEstimate) : Option WeiPerGas :=
  (cmul e.baseFeePerGas 2).bind fun b => cadd b e.maxPriorityFeePerGas
/-- `estimate_max_fee_per_gas` (tx.rs:631-634). -/
def maxFeePerGas (e : GasFeeEstimate) : WeiPerGas := e.checkedMaxFeePerGas.getD u256Max
/-- `to_price` (tx.rs:643-649). -/
def toPrice (e : GasFeeEstimate) (gasLimit : GasAmount) : TxPrice :=
  ⟨gasLimit, e.maxFeePerGas, e.maxPriorityFeePerGas⟩
/-- `min_max_fee_per_gas` (tx.rs:656-660). -/
def minMaxFeePerGas (e : GasFeeEstimate) : WeiPerGas :=
  (cadd e.baseFeePerGas e.maxPriorityFeePerGas).getD u256Max
end GasFeeEstimate

/-- The closure `plus_10_percent` (tx.rs:695-703): add a tenth, rounded up, saturating.
`checked_div_ceil(10)` never fails on a `u256`. -/
def plus10Percent (a : WeiPerGas) : WeiPerGas :=
  ((cdivCeil a 10).bind fun t => cadd a t).getD u256Max

namespace TxPrice
/-- `max_transaction_fee` (tx.rs:678-682). -/
def maxTransactionFee (p : TxPrice) : Wei := (transactionCost p.maxFeePerGas p.gasLimit).getD u256Max

/-- `resubmit_transaction_price` (tx.rs:694-725). -/
def resubmit (p : TxPrice) (g : GasFeeEstimate) : TxPrice :=
  if p.maxFeePerGas ≥ g.minMaxFeePerGas ∧ p.maxPriorityFeePerGas ≥ g.maxPriorityFeePerGas then p
  else
    let prio := max (plus10Percent p.maxPriorityFeePerGas) g.maxPriorityFeePerGas
    let g' : GasFeeEstimate := { g with maxPriorityFeePerGas := prio }
    ⟨p.gasLimit, max g'.minMaxFeePerGas p.maxFeePerGas, prio⟩
end TxPrice

/-- `Eip1559TransactionRequest::transaction_price` (tx.rs:529-535). -/
def Tx.price (t : Tx) : TxPrice := ⟨t.gasLimit, t.maxFeePerGas, t.maxPriorityFeePerGas⟩

/-- Outcome of `SignedTransactionRequest::resubmit`. -/
inductive ResubmitOutcome where
  | unchanged
  | replaced (tx : Tx)
  | insufficientFee (allowed actual : Wei)
deriving DecidableEq, Repr

/-- `SignedTransactionRequest::resubmit` (tx.rs:188-230). -/
def Resubmittable.resubmit (t : Resubmittable SignedTx) (g : GasFeeEstimate) : Res ResubmitOutcome :=
  let last := t.transaction.tx
  let newPrice := last.price.resubmit g
  if newPrice = last.price then .ok .unchanged
  else if newPrice.maxTransactionFee > t.resubmission.allowedMaxFee then
    .ok (.insufficientFee t.resubmission.allowedMaxFee newPrice.maxTransactionFee)
  else do
    let newAmount ← (match t.resubmission with
      | .reduceEthAmount w =>
        expect (csub w newPrice.maxTransactionFee)
          "BUG: withdrawal_amount covers new transaction fee because it was checked before"
      | .guaranteeEthAmount _ => .ok last.amount : Res Wei)
    return .replaced { last with
      maxPriorityFeePerGas := newPrice.maxPriorityFeePerGas
      maxFeePerGas := newPrice.maxFeePerGas
      gasLimit := newPrice.gasLimit
      amount := newAmount }

end EvmMinter
