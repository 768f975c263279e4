import Verif.Model.Tx
import Verif.Model.CallData
import Verif.Model.MultiKeyMap
/-!
# Withdrawal pipeline (minter/src/state/transactions/mod.rs)
-/

namespace EvmMinter

/-- `WithdrawalTransactions` (transactions/mod.rs:364-380). -/
structure Transactions where
  pending : List Request
  processed : FMap LedgerBurnIndex Request
  created : MKM TransactionNonce LedgerBurnIndex (Resubmittable Tx)
  sent : MKM TransactionNonce LedgerBurnIndex (List (Resubmittable SignedTx))
  finalized : MKM TransactionNonce LedgerBurnIndex FinalizedTx
  nextNonce : TransactionNonce
  maybeReimburse : FSet LedgerBurnIndex
  reimbursementRequests : FMap ReimbIndex ReimbRequest
  reimbursed : FMap ReimbIndex ReimbResult
deriving DecidableEq

namespace Transactions

/-- `WithdrawalTransactions::new` (transactions/mod.rs:402-414). -/
def new (nextNonce : TransactionNonce) : Transactions :=
  { pending := [], processed := ∅, created := ∅, sent := ∅, finalized := ∅, nextNonce,
    maybeReimburse := ∅, reimbursementRequests := ∅, reimbursed := ∅ }

/-- `update_next_transaction_nonce` (transactions/mod.rs:420-422). -/
def updateNextNonce (t : Transactions) (n : TransactionNonce) : Transactions := { t with nextNonce := n }

/-- `record_withdrawal_request` (transactions/mod.rs:456-470). -/
def recordWithdrawalRequest (t : Transactions) (r : Request) : Res Transactions := do
  ensure (!(t.pending.any (fun r' => r'.burnIndex == r.burnIndex)
      || t.created.containsAlt r.burnIndex
      || t.sent.containsAlt r.burnIndex
      || t.finalized.containsAlt r.burnIndex)) "BUG: duplicate Native ledger burn index"
  return { t with pending := t.pending ++ [r] }

/-- `remove_withdrawal_request` (transactions/mod.rs:1035-1037). -/
def removeWithdrawalRequest (t : Transactions) (r : Request) : Transactions :=
  { t with pending := t.pending.filter (fun r' => !(r' == r)) }

/-- `reschedule_withdrawal_request` (transactions/mod.rs:473-486). -/
def reschedule (t : Transactions) (r : Request) : Res Transactions := do
  ensure ((t.pending.filter (fun r' => r'.burnIndex == r.burnIndex)).length == 1)
    "BUG: expected exactly one withdrawal request with Native ledger burn index"
  (t.removeWithdrawalRequest r).recordWithdrawalRequest r

/-- The resubmission strategy attached to the transactions of a request (transactions/mod.rs:533-540). -/
def strategyOf : Request → Strategy
  | .native r => .reduceEthAmount r.withdrawalAmount
  | .erc20 r => .guaranteeEthAmount r.maxTransactionFee

/-- The amount assertion of `record_created_transaction` (transactions/mod.rs:509-523). -/
def amountOk : Request → Tx → Bool
  | .native r, tx => decide (r.withdrawalAmount > tx.amount)
  | .erc20 _, tx => tx.amount == 0

/-- `record_created_transaction` (transactions/mod.rs:488-556). The assertion at 499-503 that the request
just found in the queue is contained in the queue is omitted. -/
def recordCreatedTransaction (t : Transactions) (withdrawalId : LedgerBurnIndex) (tx : Tx) :
    Res Transactions := do
  let r ← expect (t.pending.find? (fun r => r.burnIndex == withdrawalId))
    "BUG: withdrawal request not found"
  ensure (r.destination == tx.destination)
    "BUG: withdrawal request and transaction destination mismatch"
  ensure (amountOk r tx) "BUG: transaction amount"
  ensure (tx.nonce == t.nextNonce) "BUG: transaction nonce mismatch"
  let nextNonce ← expect (cinc t.nextNonce) "Transaction nonce overflow"
  let t := t.removeWithdrawalRequest r
  match t.created.tryInsert tx.nonce r.burnIndex ⟨tx, strategyOf r⟩ with
  | .error _ => .error "created_tx.try_insert"
  | .ok created =>
    ensure (!t.processed.contains withdrawalId) "processed_withdrawal_requests.insert"
    ensure (!t.maybeReimburse.contains withdrawalId) "maybe_reimburse.insert"
    return { t with
      nextNonce, created,
      processed := t.processed.insert withdrawalId r
      maybeReimburse := t.maybeReimburse.insert withdrawalId () }

/-- `record_signed_transaction` (transactions/mod.rs:558-585). -/
def recordSignedTransaction (t : Transactions) (stx : SignedTx) : Res Transactions := do
  let c ← expect (t.created.get stx.tx.nonce) "BUG: missing created transaction"
  ensure (c.transaction == stx.tx) "BUG: mismatch between sent transaction and created transaction"
  let (e, created) ← t.created.removeEntry stx.tx.nonce
  let (nonce, burnIndex, _) ← expect e "BUG: missing created transaction"
  let signed : Resubmittable SignedTx := ⟨stx, c.resubmission⟩
  match t.sent.modify nonce (fun l => l ++ [signed]) with
  | some sent => return { t with created, sent }
  | none =>
    match t.sent.tryInsert nonce burnIndex [signed] with
    | .error _ => .error "sent_tx.try_insert"
    | .ok sent => return { t with created, sent }

/-- `equal_ignoring_fee_and_amount` (transactions/mod.rs:1234-1244). -/
def equalIgnoringFeeAndAmount (lhs rhs : Tx) : Bool :=
  lhs == { rhs with
    maxFeePerGas := lhs.maxFeePerGas
    maxPriorityFeePerGas := lhs.maxPriorityFeePerGas
    amount := lhs.amount }

/-- `cleanup_failed_resubmitted_transactions` (transactions/mod.rs:1050-1060). -/
def cleanupFailedResubmitted (created : MKM TransactionNonce LedgerBurnIndex (Resubmittable Tx))
    (nonce : TransactionNonce) : Res (MKM TransactionNonce LedgerBurnIndex (Resubmittable Tx)) := do
  let (_, created) ← created.removeEntry nonce
  return created

/-- `expect_last_sent_tx_entry` (transactions/mod.rs:1039-1048). -/
def expectLastSent (t : Transactions) (nonce : TransactionNonce) :
    Res (LedgerBurnIndex × Resubmittable SignedTx) := do
  let (i, l) ← expect (t.sent.getEntry nonce) "BUG: sent transaction not found"
  let last ← expect l.getLast? "BUG: empty sent transactions list"
  return (i, last)

/-- `record_resubmit_transaction` (transactions/mod.rs:640-653). -/
def recordResubmitTransaction (t : Transactions) (newTx : Tx) : Res Transactions := do
  let (burnIndex, last) ← t.expectLastSent newTx.nonce
  ensure (equalIgnoringFeeAndAmount last.transaction.tx newTx)
    "BUG: mismatch between last sent transaction and the transaction to resubmit"
  let created ← cleanupFailedResubmitted t.created newTx.nonce
  match created.tryInsert newTx.nonce burnIndex ⟨newTx, last.resubmission⟩ with
  | .error _ => .error "created_tx.try_insert"
  | .ok created => return { t with created }

/-- `record_reimbursement_request` (transactions/mod.rs:747-767). -/
def recordReimbursementRequest (t : Transactions) (index : ReimbIndex) (r : ReimbRequest) :
    Res Transactions := do
  ensure (!t.maybeReimburse.contains index.withdrawalId)
    "BUG: withdrawal request still in maybe_reimburse could lead to double minting!"
  ensure (!t.reimbursed.contains index) "BUG: reimbursement request was already processed"
  ensure (!t.reimbursementRequests.contains index) "BUG: reimbursement request already exists"
  return { t with reimbursementRequests := t.reimbursementRequests.insert index r }

/-- The reimbursement owed for a failed withdrawal (transactions/mod.rs:715-744). -/
def failureReimbursement (burnIndex : LedgerBurnIndex) (r : Request) (f : FinalizedTx) : ReimbRequest :=
  match r with
  | .native q =>
    { ledgerBurnIndex := burnIndex, to := q.from, toSubaccount := q.fromSubaccount,
      reimbursedAmount := f.signed.tx.amount, transactionHash := some f.receipt.transactionHash }
  | .erc20 q =>
    { ledgerBurnIndex := q.erc20LedgerBurnIndex, to := q.from, toSubaccount := q.fromSubaccount,
      reimbursedAmount := q.withdrawalAmount, transactionHash := some f.receipt.transactionHash }

/-- `record_finalized_transaction` (transactions/mod.rs:677-745). -/
def recordFinalizedTransaction [Keccak] (t : Transactions) (burnIndex : LedgerBurnIndex)
    (receipt : Receipt) : Res Transactions := do
  let l ← expect (t.sent.getAlt burnIndex) "BUG: missing sent transactions"
  let stx ← expect (l.find? (fun s => s.transaction.hash == receipt.transactionHash))
    "ERROR: no transaction matching receipt"
  match stx.transaction.tryFinalize receipt with
  | .error _ => .error "ERROR: invalid transaction receipt"
  | .ok fin =>
    let nonce := stx.transaction.tx.nonce
    let (_, sent) ← t.sent.removeEntry nonce
    let created ← cleanupFailedResubmitted t.created nonce
    match t.finalized.tryInsert nonce burnIndex fin with
    | .error _ => .error "finalized_tx.try_insert"
    | .ok finalized =>
      ensure (t.maybeReimburse.contains burnIndex) "failed to remove entry from maybe_reimburse"
      let r ← expect (t.processed.get burnIndex) "failed to find entry from processed_withdrawal_requests"
      let t := { t with sent, created, finalized, maybeReimburse := t.maybeReimburse.erase burnIndex }
      if receipt.status = .failure then
        t.recordReimbursementRequest (.ofRequest r) (failureReimbursement burnIndex r fin)
      else return t

/-- `record_quarantined_reimbursement` (transactions/mod.rs:772-776). -/
def recordQuarantinedReimbursement (t : Transactions) (index : ReimbIndex) : Transactions :=
  { t with
    reimbursementRequests := t.reimbursementRequests.erase index
    reimbursed := t.reimbursed.insert index .quarantined }

/-- `record_finalized_reimbursement` (transactions/mod.rs:778-800). -/
def recordFinalizedReimbursement (t : Transactions) (index : ReimbIndex) (block : LedgerMintIndex) :
    Res Transactions := do
  let r ← expect (t.reimbursementRequests.get index) "BUG: missing reimbursement request"
  ensure (!t.reimbursed.contains index) "reimbursed.insert"
  return { t with
    reimbursementRequests := t.reimbursementRequests.erase index
    reimbursed := t.reimbursed.insert index (.ok
      { burnInBlock := index.burnInBlock, reimbursedInBlock := block,
        reimbursedAmount := r.reimbursedAmount, transactionHash := r.transactionHash }) }

end Transactions

end EvmMinter
