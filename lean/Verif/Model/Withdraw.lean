import Verif.Model.State
/-!
# Creating, resubmitting, sending and finalizing withdrawals
(minter/src/state/transactions/mod.rs, minter/src/withdraw.rs)
-/

namespace EvmMinter

/-- `CreateTransactionError::InsufficientTransactionFee` (transactions/mod.rs:383-389). -/
structure InsufficientFee where
  burnIndex : LedgerBurnIndex
  allowed : Wei
  actual : Wei
deriving DecidableEq, Repr

/-- `NATIVE_WITHDRAWAL_TRANSACTION_GAS_LIMIT` (withdraw.rs:32). -/
def nativeGasLimit : GasAmount := 21000
/-- `ERC20_WITHDRAWAL_TRANSACTION_GAS_LIMIT` (withdraw.rs:33). -/
def erc20GasLimit : GasAmount := 65000

/-- `estimate_gas_limit` (withdraw.rs:450-455). -/
def estimateGasLimit : Request → GasAmount
  | .native _ => nativeGasLimit
  | .erc20 _ => erc20GasLimit

/-- `create_transaction` (transactions/mod.rs:1104-1180). -/
def createTransaction (r : Request) (nonce : TransactionNonce) (g : GasFeeEstimate) (gasLimit : GasAmount)
    (network : EvmNetwork) : Res (Except InsufficientFee Tx) := do
  ensure (decide (gasLimit > 0)) "BUG: gas limit should be non-zero"
  match r with
  | .native q =>
    let price := g.toPrice gasLimit
    match csub q.withdrawalAmount price.maxTransactionFee with
    | none => return .error ⟨q.ledgerBurnIndex, q.withdrawalAmount, price.maxTransactionFee⟩
    | some amount =>
      return .ok {
        chainId := network.chainId
        nonce
        maxPriorityFeePerGas := price.maxPriorityFeePerGas
        maxFeePerGas := price.maxFeePerGas
        gasLimit := price.gasLimit
        destination := q.destination
        amount
        data := []
        accessList := [] }
  | .erc20 q =>
    let requestMaxFee ← expect (intoWeiPerGas q.maxTransactionFee gasLimit) "BUG: gas_limit should be non-zero"
    if g.minMaxFeePerGas > requestMaxFee then
      return .error ⟨q.nativeLedgerBurnIndex, q.maxTransactionFee,
        (transactionCost g.minMaxFeePerGas gasLimit).getD u256Max⟩
    else
      return .ok {
        chainId := network.chainId
        nonce
        maxPriorityFeePerGas := g.maxPriorityFeePerGas
        maxFeePerGas := requestMaxFee
        gasLimit
        destination := q.erc20ContractAddress
        amount := 0
        data := Erc20Transfer.encode ⟨q.destination, q.withdrawalAmount⟩
        accessList := [] }

/-- `Transaction`/`TxFinalizedStatus`/`RetrieveWithdrawalStatus` (endpoints.rs:153-173), with hashes as numbers
instead of strings. -/
inductive Status where
  | notFound
  | pending
  | txCreated
  | txSent (hash : Hash)
  | success (hash : Hash) (effectiveFee : Wei)
  | pendingReimbursement (hash : Hash)
  | reimbursed (hash : Hash) (amount : Nat) (block : LedgerMintIndex)
deriving DecidableEq, Repr

/-- `WithdrawalSearchParameter` (transactions/mod.rs:154-159). -/
inductive SearchParameter where
  | byWithdrawalId (i : LedgerBurnIndex)
  | byRecipient (a : Address)
  | bySenderAccount (owner : Principal) (subaccount : Option Subaccount)
deriving DecidableEq, Repr

/-- `WithdrawalRequest::match_parameter` (transactions/mod.rs:221-230). -/
def Request.matchParameter (r : Request) : SearchParameter → Bool
  | .byWithdrawalId i => r.burnIndex == i
  | .byRecipient a => r.payee == a
  | .bySenderAccount o s => r.from == o && r.fromSubaccount == s

namespace Transactions

/-- The loop of `create_resubmit_transactions` (transactions/mod.rs:608-637) over the entries of `sent_tx` with
nonce at least the given one: stops after the first transaction whose fee would be insufficient. -/
def resubmitLoop (g : GasFeeEstimate) : List (TransactionNonce × LedgerBurnIndex × List (Resubmittable SignedTx)) →
    Res (List (Except InsufficientFee (LedgerBurnIndex × Tx)))
  | [] => .ok []
  | (_, i, l) :: t => do
    let last ← expect l.getLast? "BUG: empty sent transactions list"
    match ← last.resubmit g with
    | .replaced tx => do
      let r ← resubmitLoop g t
      return .ok (i, tx) :: r
    | .unchanged => resubmitLoop g t
    | .insufficientFee allowed actual => return [.error ⟨i, allowed, actual⟩]

/-- `create_resubmit_transactions` (transactions/mod.rs:596-638). -/
def createResubmit (t : Transactions) (latestCount : TransactionCount) (g : GasFeeEstimate) :
    Res (List (Except InsufficientFee (LedgerBurnIndex × Tx))) := do
  let l ← t.sent.iter
  resubmitLoop g (l.filter fun x => decide (x.1 ≥ latestCount))

/-- The inner loops of `sent_transactions_to_finalize` (transactions/mod.rs:661-673). -/
def toFinalizeLoop [Keccak] (acc : FMap Hash LedgerBurnIndex) : List (LedgerBurnIndex × SignedTx) →
    Res (FMap Hash LedgerBurnIndex)
  | [] => .ok acc
  | (i, x) :: t => do
    match acc.get x.hash with
    | some prev => ensure (prev == i) "BUG: duplicate transaction hash"
    | none => pure ()
    toFinalizeLoop (acc.insert x.hash i) t

/-- `sent_transactions_to_finalize` (transactions/mod.rs:655-675). -/
def sentToFinalize [Keccak] (t : Transactions) (finalizedCount : TransactionCount) :
    Res (FMap Hash LedgerBurnIndex) := do
  let l ← t.sent.iter
  toFinalizeLoop ∅ ((l.filter fun x => decide (x.1 < finalizedCount)).flatMap fun x =>
    x.2.2.map fun s => (x.2.1, s.transaction))

/-- `withdrawal_requests_batch` (transactions/mod.rs:903-920). -/
def requestsBatch (t : Transactions) (requested : Nat) : List Request :=
  let pendingNonces : FSet TransactionNonce :=
    (t.created.keys ++ t.sent.keys).foldl (fun m k => m.insert k ()) ∅
  t.pending.take (min (1000 - pendingNonces.size) requested)

/-- `maybe_reimburse_requests_iter` (transactions/mod.rs:930-941), in the order of the burn indices. -/
def maybeReimburseRequests (t : Transactions) : List Request :=
  t.processed.toList.filterMap fun x => if t.maybeReimburse.contains x.1 then some x.2 else none

/-- `Iterator::min` of numbers. -/
def minOf : List Nat → Option Nat
  | [] => none
  | a :: l => some (l.foldl min a)

/-- `oldest_incomplete_withdrawal_timestamp` (transactions/mod.rs:1090-1095). -/
def oldestIncomplete (t : Transactions) : Option Nat :=
  minOf ((t.pending ++ t.maybeReimburseRequests).filterMap Request.createdAt)

/-- `transactions_to_sign_batch` (transactions/mod.rs:956-964). -/
def toSignBatch (t : Transactions) (size : Nat) : Res (List (LedgerBurnIndex × Tx)) := do
  let l ← t.created.iter
  return (l.take size).map fun x => (x.2.1, x.2.2.transaction)

/-- `transactions_to_send_batch` (transactions/mod.rs:966-983). -/
def toSendBatch (t : Transactions) (latestCount : TransactionCount) (size : Nat) : Res (List SignedTx) := do
  let l ← t.sent.iter
  return ((l.filterMap fun x =>
    (x.2.2.getLast?.map fun y => (x.1, x.2.1, y)).filter fun z => decide (z.1 ≥ latestCount)).take size).map
      fun z => z.2.2.transaction

/-- `is_sent_tx_empty` (transactions/mod.rs:1025-1027). -/
def isSentEmpty (t : Transactions) : Bool := t.sent.byKey.isEmpty

/-- `has_pending_requests` (transactions/mod.rs:1029-1033). -/
def hasPending (t : Transactions) : Bool :=
  !t.pending.isEmpty || !t.created.byKey.isEmpty || !t.sent.byKey.isEmpty

/-- `find_reimbursed_transaction_by_native_token_ledger_burn_index` (transactions/mod.rs:436-454). -/
def findReimbursed (t : Transactions) (i : LedgerBurnIndex) : Option ReimbResult :=
  (t.reimbursed.toList.find? fun x => match x.1 with
    | .native j => j == i
    | .erc20 j _ _ => j == i).map (·.2)

/-- `processed_transaction_status` (transactions/mod.rs:852-901). -/
def processedStatus [Keccak] (t : Transactions) (i : LedgerBurnIndex) : Res (Status × Option Tx) :=
  match t.created.getAlt i with
  | some c => .ok (.txCreated, some c.transaction)
  | none =>
    match (t.sent.getAlt i).bind List.getLast? with
    | some x => .ok (.txSent x.transaction.hash, some x.transaction.tx)
    | none =>
      match t.finalized.getAlt i with
      | none => .ok (.notFound, none)
      | some f =>
        match t.findReimbursed i with
        | some (.ok r) => .ok (.reimbursed f.receipt.transactionHash r.reimbursedAmount r.reimbursedInBlock,
            some f.signed.tx)
        | _ =>
          if f.receipt.status = .failure then
            .ok (.pendingReimbursement f.receipt.transactionHash, some f.signed.tx)
          else do
            let fee ← f.receipt.effectiveFee
            return (.success f.receipt.transactionHash fee, some f.signed.tx)

/-- `transaction_status` (transactions/mod.rs:841-850), the answer of `retrieve_witdrawal_status`
(main.rs:412-418). -/
def transactionStatus [Keccak] (t : Transactions) (i : LedgerBurnIndex) : Res Status :=
  if t.pending.any (fun r => r.burnIndex == i) then .ok .pending
  else do
    let x ← t.processedStatus i
    return x.1

/-- The closure on processed requests in `withdrawal_status` (transactions/mod.rs:821-836). -/
def processedDetail [Keccak] (t : Transactions) (r : Request) : Res (Request × Status × Option Tx) := do
  match ← t.processedStatus r.burnIndex with
  | (.notFound, _) | (.pending, _) | (_, none) => .error "Status of processed request is not found"
  | (st, some tx) => return (r, st, some tx)

/-- `withdrawal_status` (transactions/mod.rs:802-839). -/
def withdrawalStatus [Keccak] (t : Transactions) (p : SearchParameter) :
    Res (List (Request × Status × Option Tx)) := do
  let processed ← (t.processed.values.filter (fun r => r.matchParameter p)).mapM t.processedDetail
  return ((t.pending.filter (fun r => r.matchParameter p)).map fun r => (r, .pending, none)) ++ processed

end Transactions

/-- `WithdrawalDetail` (endpoints.rs:285-294), with the recipient as a number. -/
structure WithdrawalDetail where
  withdrawalId : LedgerBurnIndex
  recipient : Address
  tokenSymbol : String
  withdrawalAmount : Nat
  maxTransactionFee : Option Wei
  «from» : Principal
  fromSubaccount : Option Subaccount
  status : Status
deriving DecidableEq, Repr

/-- The detail of one request in the endpoint `withdrawal_status` (main.rs:428-457). -/
def State.withdrawalDetail (s : State) (x : Request × Status × Option Tx) : Res WithdrawalDetail := do
  let symbol ← (match x.1 with
    | .native _ => .ok s.nativeSymbol
    | .erc20 q => expect (s.erc20Tokens.getAlt q.erc20ContractAddress)
        "called `Option::unwrap()` on a `None` value" : Res String)
  return {
    withdrawalId := x.1.burnIndex
    recipient := x.1.payee
    tokenSymbol := symbol
    withdrawalAmount := (match x.1 with
      | .native q => q.withdrawalAmount
      | .erc20 q => q.withdrawalAmount)
    maxTransactionFee := (match x.1, x.2.2 with
      | .native _, none => none
      | .native q, some tx => csub q.withdrawalAmount tx.amount
      | .erc20 q, _ => some q.maxTransactionFee)
    «from» := x.1.from
    fromSubaccount := x.1.fromSubaccount
    status := x.2.1 }

/-- The query endpoint `withdrawal_status` (main.rs:421-459), on a parsed search parameter. -/
def State.withdrawalStatus [Keccak] (s : State) (p : SearchParameter) : Res (List WithdrawalDetail) := do
  let l ← s.txs.withdrawalStatus p
  l.mapM s.withdrawalDetail

/-! ## The canister memory and the batches -/

/-- The persistent part of the canister: the in-memory state and the audit log in stable memory. -/
structure Minter where
  st : State
  log : List Event
deriving DecidableEq

namespace Minter

/-- `process_event` (state/audit.rs:155-158). -/
def processEvent [Keccak] (m : Minter) (e : Event) : Res Minter := do
  let s ← applyEvent m.st e
  return ⟨s, m.log ++ [e]⟩

/-- Process events in order. -/
def processEvents [Keccak] (m : Minter) : List Event → Res Minter
  | [] => .ok m
  | e :: t => do
    let m' ← m.processEvent e
    m'.processEvents t

/-- `resubmit_transactions_batch` (withdraw.rs:197-236). -/
def resubmitBatch [Keccak] (m : Minter) (latestCount : Option TransactionCount) (g : GasFeeEstimate) :
    Res Minter :=
  if m.st.txs.isSentEmpty then .ok m
  else
    match latestCount with
    | none => .ok m
    | some c => do
      let l ← m.st.txs.createResubmit c g
      m.processEvents (l.filterMap fun x => match x with
        | .ok (i, tx) => some (.replacedTransaction i tx)
        | .error _ => none)

/-- One iteration of `create_transactions_batch` (withdraw.rs:243-284). -/
def createOne [Keccak] (m : Minter) (g : GasFeeEstimate) (r : Request) : Res Minter := do
  match ← createTransaction r m.st.txs.nextNonce g (estimateGasLimit r) m.st.evmNetwork with
  | .ok tx => m.processEvent (.createdTransaction r.burnIndex tx)
  | .error _ => do
    let t ← m.st.txs.reschedule r
    return { m with st := { m.st with txs := t } }

/-- Iterate `createOne`. -/
def createLoop [Keccak] (m : Minter) (g : GasFeeEstimate) : List Request → Res Minter
  | [] => .ok m
  | r :: t => do
    let m' ← m.createOne g r
    m'.createLoop g t

/-- `create_transactions_batch` (withdraw.rs:238-286), batch size 5 (withdraw.rs:26). -/
def createBatch [Keccak] (m : Minter) (g : GasFeeEstimate) : Res Minter :=
  m.createLoop g (m.st.txs.requestsBatch 5)

/-- The processing of the signing results in `sign_transactions_batch` (withdraw.rs:300-313): failed signatures are
skipped. -/
def recordSigned [Keccak] (m : Minter) (results : List (LedgerBurnIndex × Tx × Option Signature)) : Res Minter :=
  m.processEvents (results.filterMap fun x => x.2.2.map fun sig => .signedTransaction x.1 ⟨x.2.1, sig⟩)

/-- Outcome of `get_transaction_receipt`: a call error, or the optional receipt. -/
abbrev ReceiptResult := Except Unit (Option Receipt)

/-- Collecting the receipts in `finalize_transactions_batch` (withdraw.rs:389-419); `none` is an early return. -/
def collectReceipts (acc : FMap LedgerBurnIndex Receipt) :
    List ((Hash × LedgerBurnIndex) × ReceiptResult) → Option (FMap LedgerBurnIndex Receipt)
  | [] => some acc
  | ((_, i), .ok (some r)) :: t =>
    match acc.get i with
    | some _ => none
    | none => collectReceipts (acc.insert i r) t
  | (_, .ok none) :: t => collectReceipts acc t
  | (_, .error _) :: _ => none

/-- The last message of `finalize_transactions_batch` (withdraw.rs:389-435): `toFinalize` was computed before the
receipts were requested. -/
def recordReceipts [Keccak] (m : Minter) (toFinalize : FMap Hash LedgerBurnIndex)
    (results : List ReceiptResult) : Res Minter :=
  match collectReceipts ∅ (toFinalize.toList.zip results) with
  | none => .ok m
  | some receipts => do
    let expected : FSet LedgerBurnIndex := toFinalize.values.foldl (fun s i => s.insert i ()) ∅
    ensure (expected.keys == receipts.keys) "ERROR: unexpected transaction receipts for some withdrawal IDs"
    m.processEvents (receipts.toList.map fun x => .finalizedTransaction x.1 x.2)

end Minter

end EvmMinter
