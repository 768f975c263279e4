import Verif.Model.Registration
import Verif.Model.Scrape
/-!
# Asynchronous tasks (minter/src/deposit.rs, withdraw.rs, main.rs, ledger_client.rs, guard/mod.rs)

An `async` task runs atomically from one `await` to the next. A suspended task is a value of `Task` that holds the local
variables which are still needed, `resume` runs the code from the answer of the awaited call to the next `await`, and
`cleanup` drops the future after a trap, which runs the destructors of the guards it holds.

Simplifications:
* the texts of errors, and the ledger and amount that accompany them, are left out;
* awaits between which nothing is changed are merged: the public key and the call after it (`minter_address().await`), and
  the calls of one `join_all`;
* the cache of the gas fee estimate is not modelled: whether a recent estimate exists, and which, is an argument of the code
  that looks at it;
* the timers that start a task are left out: a task may be started at any time;
* ghost values that only serve specifications are marked so.
-/

namespace EvmMinter

/-! ## Ledgers -/

/-- `icrc_ledger_types::icrc1::account::Account`. -/
structure Account where
  owner : Principal
  subaccount : Option Subaccount
deriving DecidableEq, Repr

/-- `MintMemo` (memo.rs:20-51). -/
inductive MintMemo where
  | convert (fromAddress : Address) (txHash : Hash) (logIndex : LogIndex)
  | reimburseTransaction (withdrawalId : LedgerBurnIndex) (txHash : Hash)
  | reimburseWithdrawal (withdrawalId : LedgerBurnIndex)
deriving DecidableEq, Repr

/-- `BurnMemo` (memo.rs:59-93). -/
inductive BurnMemo where
  | convert (to : Address)
  | erc20GasFee (symbol : String) (amount : Erc20Value) (to : Address)
  | erc20Convert (withdrawalId : LedgerBurnIndex) (to : Address)
deriving DecidableEq, Repr

/-- The memo of a ledger transaction before its encoding. -/
inductive Memo where
  | mint (m : MintMemo)
  | burn (m : BurnMemo)
deriving DecidableEq, Repr

/-- `From<&ReceivedDepositEvent> for Memo` (memo.rs:101-109). -/
def Deposit.memo (d : Deposit) : Memo :=
  .mint (.convert d.fromAddress d.source.transactionHash d.source.logIndex)

/-- `From<ReimbursementRequest> for Memo` (memo.rs:111-129). -/
def ReimbRequest.memo (r : ReimbRequest) : Memo :=
  match r.transactionHash with
  | some h => .mint (.reimburseTransaction r.ledgerBurnIndex h)
  | none => .mint (.reimburseWithdrawal r.ledgerBurnIndex)

/-- What a ledger transaction does. The minter's default account is the minting account of every twin ledger: a transfer
from it is a mint and a transfer to it is a burn. -/
inductive LedgerOp where
  | mint (to : Account) (amount : Nat)
  | burn («from» : Account) (amount : Nat)
  | transfer («from» to : Account) (amount : Nat)
deriving DecidableEq, Repr

/-- A call to a ledger: `icrc1_transfer` or `icrc2_transfer_from`. -/
structure LedgerCall where
  ledger : Principal
  op : LedgerOp
  memo : Option Memo
deriving DecidableEq, Repr

/-- `TransferFromError` of the ledger; for `icrc1_transfer` only the fact that there is an error matters. -/
inductive TransferError where
  | badFee | badBurn | insufficientFunds (balance : Nat) | insufficientAllowance (allowance : Nat) | tooOld
  | createdInFuture | duplicate | temporarilyUnavailable | generic
deriving DecidableEq, Repr

/-- The answer to a ledger call: the index of the new block, an error, or a rejected call. -/
inductive LedgerAnswer where
  | block (i : Nat)
  | refused (e : TransferError)
  | rejected
deriving DecidableEq, Repr

/-- `LedgerBurnError` and `FeeTransferError` (ledger_client.rs:29-72). -/
inductive LedgerError where
  | temporarilyUnavailable | amountTooLow | insufficientFunds (balance : Nat) | insufficientAllowance (allowance : Nat)
deriving DecidableEq, Repr

/-- `block_index.0.to_u64().expect(...)` (deposit.rs:105, withdraw.rs:88, ledger_client.rs:117). -/
def toU64 (i : Nat) : Res Nat :=
  if i < 2 ^ 64 then .ok i else .error "nat does not fit into u64"

/-- The result of `burn_from` (ledger_client.rs:115-190). -/
def burnResult : LedgerAnswer → Res (Except LedgerError LedgerBurnIndex)
  | .block i => do
    let i ← toU64 i
    return .ok i
  | .refused e =>
    match e with
    | .badFee => .error "BUG: bad fee"
    | .badBurn => .ok (.error .amountTooLow)
    | .insufficientFunds b => .ok (.error (.insufficientFunds b))
    | .insufficientAllowance a => .ok (.error (.insufficientAllowance a))
    | .tooOld => .error "BUG: transfer too old"
    | .createdInFuture => .error "BUG: created in future"
    | .duplicate => .error "BUG: duplicate transfer"
    | .temporarilyUnavailable => .ok (.error .temporarilyUnavailable)
    | .generic => .ok (.error .temporarilyUnavailable)
  | .rejected => .ok (.error .temporarilyUnavailable)

/-- The result of `trasnfer_withdrawal_fee` (ledger_client.rs:216-287) and `refund_withdrawal_fee`
(ledger_client.rs:313-384). -/
def transferResult : LedgerAnswer → Res (Except LedgerError Nat)
  | .block i => do
    let i ← toU64 i
    return .ok i
  | .refused e =>
    match e with
    | .badFee => .error "BUG: bad fee"
    | .badBurn => .error "BUG: expected transfer"
    | .insufficientFunds b => .ok (.error (.insufficientFunds b))
    | .insufficientAllowance a => .ok (.error (.insufficientAllowance a))
    | .tooOld => .error "BUG: transfer too old"
    | .createdInFuture => .error "BUG: created in future"
    | .duplicate => .error "BUG: duplicate transfer"
    | .temporarilyUnavailable => .ok (.error .temporarilyUnavailable)
    | .generic => .ok (.error .temporarilyUnavailable)
  | .rejected => .ok (.error .temporarilyUnavailable)

/-- `FEES_SUBACCOUNT` (lib.rs:40-43): the last two bytes are `0x0f`, `0xee`. -/
def feesSubaccount : Subaccount := 0x0fee

/-! ## Memory and guards -/

/-- `TaskType` (state.rs:741-749); `MintErc20` is not used. -/
inductive TaskType where
  | mint | retrieveEth | scrapLogs | refreshGasFeeEstimate | reimbursement
deriving DecidableEq, Repr

/-- The canister's memory: the state, the log and the fields of `State` that are not restored by a replay (state.rs:100-166).
`id` is the principal of the canister. -/
structure Mem where
  id : Principal
  m : Minter
  lastObserved : Option BlockNumber
  lastObservedTime : Option Nat
  active : List TaskType
  principals : List Principal

/-- `GuardError` (guard/mod.rs:14-19). -/
inductive GuardError where
  | alreadyProcessing | tooManyConcurrentRequests | tooManyPendingRequests
deriving DecidableEq, Repr

namespace Mem

/-- `TimerGuard::new` (guard/mod.rs:94-103); `none` is `AlreadyProcessing`. -/
def acquire (c : Mem) (t : TaskType) : Option Mem :=
  if t ∈ c.active then none else some { c with active := t :: c.active }

/-- `Drop for TimerGuard` (guard/mod.rs:106-112). -/
def release (c : Mem) (t : TaskType) : Mem := { c with active := c.active.filter (· != t) }

/-- `Guard::new` (guard/mod.rs:51-70) for withdrawals. -/
def enter (c : Mem) (p : Principal) : Except GuardError Mem :=
  if c.m.st.txs.pending.length ≥ 100 then .error .tooManyPendingRequests
  else if p ∈ c.principals then .error .alreadyProcessing
  else if c.principals.length ≥ 100 then .error .tooManyConcurrentRequests
  else .ok { c with principals := p :: c.principals }

/-- `Drop for Guard` (guard/mod.rs:73-77). -/
def leave (c : Mem) (p : Principal) : Mem := { c with principals := c.principals.filter (· != p) }

/-- `process_event` (state/audit.rs:155-158). -/
def process [Keccak] (c : Mem) (e : Event) : Res Mem := do
  let m ← c.m.processEvent e
  return { c with m := m }

end Mem

/-! ## Tasks -/

/-- What `mint` reads before its loop (deposit.rs:38-41). -/
structure MintEnv where
  ledger : Principal
  fee : Option Nat
deriving DecidableEq, Repr

/-- `withdraw_native_token` (main.rs:277-409): the caller, the amount as given, the validated destination, and the fees
read at the start. -/
structure NativeCall where
  caller : Principal
  amount : Wei
  destination : Address
  fee : Option Wei
  transferFee : Wei
deriving DecidableEq, Repr

/-- `withdraw_erc20` (main.rs:462-674) up to the fee estimate: the caller, the amount, the validated destination, the token,
and the transfer fee and native ledger read at the start. -/
structure Erc20Call where
  caller : Principal
  amount : Erc20Value
  destination : Address
  token : Erc20Token
  transferFee : Wei
  nativeLedger : Principal
deriving DecidableEq, Repr

/-- `withdraw_erc20` from the fee estimate on: the fee to burn, and the withdrawal fee read then (main.rs:503). -/
structure Erc20Charged extends Erc20Call where
  txFee : Wei
  fee : Option Wei
deriving DecidableEq, Repr

/-- `WithdrawalError` (endpoints.rs:210-216). -/
inductive WithdrawalError where
  | amountTooLow (min : Nat) | insufficientFunds (balance : Nat) | insufficientAllowance (allowance : Nat)
  | temporarilyUnavailable | invalidDestination
deriving DecidableEq, Repr

/-- `WithdrawErc20Error` (endpoints.rs:545-566). -/
inductive WithdrawErc20Error where
  | tokenNotSupported
  | nativeLedgerError (e : LedgerError)
  | nativeFeeTransferError (e : LedgerError)
  | erc20LedgerError (nativeBlockIndex : LedgerBurnIndex) (e : LedgerError)
  | temporarilyUnavailable
  | invalidDestination
deriving DecidableEq, Repr

/-- The result of an endpoint: `RetrieveNativeRequest` (endpoints.rs:144-150) or `RetrieveErc20Request`
(endpoints.rs:526-531), or an error. -/
inductive Reply where
  | native (r : Except WithdrawalError LedgerBurnIndex)
  | erc20 (r : Except WithdrawErc20Error (LedgerBurnIndex × LedgerBurnIndex))
deriving DecidableEq

/-- A task that waits for a ledger. -/
inductive LedgerTask where
  /-- deposit.rs:91-103: minting `amount` for deposit `d`; `rest` are the deposits after it. -/
  | mintUser (env : MintEnv) (d : Deposit) (symbol : String) (ledger : Principal) (amount : Nat) (rest : List Deposit)
  /-- deposit.rs:135-146: minting the fee for deposit `d`, minted in block `block`. -/
  | mintFee (env : MintEnv) (d : Deposit) (symbol : String) (ledger : Principal) (fee : Nat) (block : LedgerMintIndex)
      (rest : List Deposit)
  /-- withdraw.rs:84: reimbursing `r`; `rest` are the reimbursements after it. -/
  | reimburse (x : ReimbIndex) (r : ReimbRequest) (ledger : Principal) (rest : List (ReimbIndex × ReimbRequest))
  /-- main.rs:326-328: transferring the withdrawal fee `fee`. -/
  | nativeFee (q : NativeCall) (ledger : Principal) (fee transferAmount : Wei)
  /-- main.rs:352-360: burning `amount`. -/
  | nativeBurn (q : NativeCall) (ledger : Principal) (amount : Wei) (now : Nat)
  /-- main.rs:399-401: refunding, after the burn failed with `e`. -/
  | nativeRefund (q : NativeCall) (ledger : Principal) (amount : Wei) (e : LedgerError)
  /-- main.rs:518-520: transferring the withdrawal fee. -/
  | erc20Fee (q : Erc20Charged) (transferAmount : Wei)
  /-- main.rs:541-551: burning the transaction fee. -/
  | erc20NativeBurn (q : Erc20Charged) (now : Nat)
  /-- main.rs:560-569: burning the tokens, after the fee was burnt in block `nativeIndex`. -/
  | erc20TokenBurn (q : Erc20Charged) (now : Nat) (nativeIndex : LedgerBurnIndex)
  /-- main.rs:635-637, 662-664: refunding before returning the error `e`. -/
  | erc20Refund (q : Erc20Charged) (amount : Wei) (e : WithdrawErc20Error)
deriving DecidableEq

/-- A task that waits for the EVM RPC canister or the management canister. -/
inductive ExtTask where
  /-- deposit.rs:210-246 -/
  | scrape (t : ScrapeTask)
  /-- tx.rs:749, called from the timer (main.rs:71-76) -/
  | gas
  /-- withdraw.rs:159 -/
  | retrieveGas
  /-- withdraw.rs:171, with the estimate -/
  | retrieveCount (g : GasFeeEstimate)
  /-- withdraw.rs:294-299, with the latest transaction count -/
  | retrieveSign (count : Option TransactionCount) (batch : List (LedgerBurnIndex × Tx))
  /-- withdraw.rs:342-347, with the transactions sent to the RPC providers -/
  | retrieveSend (batch : List SignedTx)
  /-- withdraw.rs:376 -/
  | retrieveFinalizedCount
  /-- withdraw.rs:385-390 -/
  | retrieveReceipts (toFinalize : FMap Hash LedgerBurnIndex)
  /-- main.rs:498, 677 -/
  | erc20Gas (q : Erc20Call)

inductive Task where
  | ledger (t : LedgerTask)
  | ext (t : ExtTask)

/-- What a task does next: wait, or end with the reply of an endpoint or with nothing. -/
inductive Next where
  | await (t : Task)
  | finish (r : Option Reply)

/-- The call that the task waits for. `self` is the minter's principal. -/
def LedgerTask.call (self : Principal) : LedgerTask → LedgerCall
  -- deposit.rs:92-102
  | .mintUser _ d _ ledger amount _ => ⟨ledger, .mint ⟨d.principal, d.subaccount⟩ amount, some d.memo⟩
  -- deposit.rs:136-146
  | .mintFee _ _ _ ledger fee _ _ => ⟨ledger, .mint ⟨self, some feesSubaccount⟩ fee, none⟩
  -- withdraw.rs:70-83
  | .reimburse _ r ledger _ => ⟨ledger, .mint ⟨r.to, r.toSubaccount⟩ r.reimbursedAmount, some r.memo⟩
  -- ledger_client.rs:202-215
  | .nativeFee q ledger _ amount => ⟨ledger, .transfer ⟨q.caller, none⟩ ⟨self, some feesSubaccount⟩ amount, none⟩
  -- ledger_client.rs:102-112
  | .nativeBurn q ledger amount _ => ⟨ledger, .burn ⟨q.caller, none⟩ amount, some (.burn (.convert q.destination))⟩
  -- ledger_client.rs:298-311
  | .nativeRefund q ledger amount _ => ⟨ledger, .transfer ⟨self, some feesSubaccount⟩ ⟨q.caller, none⟩ amount, none⟩
  | .erc20Fee q amount => ⟨q.nativeLedger, .transfer ⟨q.caller, none⟩ ⟨self, some feesSubaccount⟩ amount, none⟩
  | .erc20NativeBurn q _ => ⟨q.nativeLedger, .burn ⟨q.caller, none⟩ q.txFee,
      some (.burn (.erc20GasFee q.token.symbol q.amount q.destination))⟩
  | .erc20TokenBurn q _ i => ⟨q.token.erc20LedgerId, .burn ⟨q.caller, none⟩ q.amount,
      some (.burn (.erc20Convert i q.destination))⟩
  | .erc20Refund q amount _ => ⟨q.nativeLedger, .transfer ⟨self, some feesSubaccount⟩ ⟨q.caller, none⟩ amount, none⟩

/-! ## Minting (deposit.rs:29-208) -/

/-- `calculate_deposit_amount_deducting_fee` (deposit.rs:505-520); subtraction of `Nat`s panics below zero. -/
def Deposit.mintAmount (d : Deposit) (fee : Option Nat) : Res Nat :=
  match d, fee with
  | .native e, some f => if f ≤ e.value then .ok (e.value - f) else .error "attempt to subtract with overflow"
  | d, _ => .ok d.value

/-- The symbol and ledger of a deposit (deposit.rs:57-77). -/
def Mem.mintTarget (c : Mem) (env : MintEnv) : Deposit → Res (String × Principal)
  | .native _ => .ok ("Native", env.ledger)
  | .erc20 e => do
    let x ← expect (c.m.st.erc20Tokens.getEntryAlt e.erc20ContractAddress)
      "Failed to mint ERC20: Unsupported ERC20 contract address"
    return (x.2, x.1)

/-- The `for` loop of `mint` (deposit.rs:45-103) up to the next ledger call, and the end of `mint` (deposit.rs:201-208). -/
def Mem.mintLoop (c : Mem) (env : MintEnv) : List Deposit → Res (Mem × Next)
  | [] => .ok (c.release .mint, .finish none)
  | d :: rest => do
    let x ← c.mintTarget env d
    let amount ← d.mintAmount env.fee
    return (c, .await (.ledger (.mintUser env d x.1 x.2 amount rest)))

/-- The event recorded for a minted deposit (deposit.rs:176-188). -/
def Deposit.mintedEvent (d : Deposit) (symbol : String) (block : LedgerMintIndex) : Event :=
  match d with
  | .native e => .mintedNative (Deposit.native e).source block
  | .erc20 e => .mintedErc20 (Deposit.erc20 e).source block symbol e.erc20ContractAddress

/-- The end of an iteration (deposit.rs:172-198). -/
def Mem.mintRecord [Keccak] (c : Mem) (env : MintEnv) (d : Deposit) (symbol : String) (block : LedgerMintIndex)
    (rest : List Deposit) : Res (Mem × Next) := do
  let c ← c.process (d.mintedEvent symbol block)
  c.mintLoop env rest

/-- After the answer to the user's mint (deposit.rs:104-131). -/
def Mem.onMintUser [Keccak] (c : Mem) (env : MintEnv) (d : Deposit) (symbol : String) (ledger : Principal)
    (rest : List Deposit) (a : LedgerAnswer) : Res (Mem × Next) :=
  match a with
  | .block i => do
    let block ← toU64 i
    match d, env.fee with
    | .native _, some fee => return (c, .await (.ledger (.mintFee env d symbol ledger fee block rest)))
    | _, _ => c.mintRecord env d symbol block rest
  | _ => c.mintLoop env rest

/-- `mint` up to the first ledger call (deposit.rs:33-45). -/
def Mem.startMint (c : Mem) : Res (Mem × Next) :=
  match c.acquire .mint with
  | none => .ok (c, .finish none)
  | some c => c.mintLoop ⟨c.m.st.nativeLedgerId, c.m.st.depositNativeFee⟩ c.m.st.eventsToMint.values

/-! ## Reimbursement (withdraw.rs:35-140) -/

/-- withdraw.rs:62-65 -/
def Mem.reimbursementLedger (c : Mem) : ReimbIndex → Principal
  | .native _ => c.m.st.nativeLedgerId
  | .erc20 _ l _ => l

/-- The loop up to the next ledger call (withdraw.rs:56-84), and the end. -/
def Mem.reimburseLoop (c : Mem) : List (ReimbIndex × ReimbRequest) → Res (Mem × Next)
  | [] => .ok (c.release .reimbursement, .finish none)
  | (x, r) :: rest => .ok (c, .await (.ledger (.reimburse x r (c.reimbursementLedger x) rest)))

/-- The event recorded for a reimbursement (withdraw.rs:109-129). -/
def reimbursedEvent (x : ReimbIndex) (r : ReimbRequest) (block : LedgerMintIndex) : Event :=
  let q : Reimbursed := ⟨block, r.ledgerBurnIndex, r.reimbursedAmount, r.transactionHash⟩
  match x with
  | .native _ => .reimbursedNativeWithdrawal q
  | .erc20 n l _ => .reimbursedErc20Withdrawal n l q

/-- After the answer of the ledger (withdraw.rs:84-132). -/
def Mem.onReimburse [Keccak] (c : Mem) (x : ReimbIndex) (r : ReimbRequest) (rest : List (ReimbIndex × ReimbRequest))
    (a : LedgerAnswer) : Res (Mem × Next) :=
  match a with
  | .block i => do
    let block ← toU64 i
    let c ← c.process (reimbursedEvent x r block)
    c.reimburseLoop rest
  | _ => c.reimburseLoop rest

/-- `process_reimbursement` up to the first ledger call (withdraw.rs:36-56). -/
def Mem.startReimbursement (c : Mem) : Res (Mem × Next) :=
  match c.acquire .reimbursement with
  | none => .ok (c, .finish none)
  | some c => c.reimburseLoop c.m.st.txs.reimbursementRequests.toList

/-! ## Sending withdrawals (withdraw.rs:142-435) -/

/-- The end of `process_retrieve_tokens_requests`: the timer guard is dropped (withdraw.rs:178-185). -/
def Mem.retrieveEnd (c : Mem) : Mem × Next := (c.release .retrieveEth, .finish none)

/-- `finalize_transactions_batch` up to its call (withdraw.rs:371-376). -/
def Mem.retrieveFinalize (c : Mem) : Mem × Next :=
  if c.m.st.txs.isSentEmpty then c.retrieveEnd else (c, .await (.ext .retrieveFinalizedCount))

/-- `send_transactions_batch` up to its calls (withdraw.rs:327-347). Joining no calls does not suspend. -/
def Mem.retrieveSend (c : Mem) (count : Option TransactionCount) : Res (Mem × Next) :=
  match count with
  | none => .ok c.retrieveFinalize
  | some n => do
    let batch ← c.m.st.txs.toSendBatch n 5
    if batch.isEmpty then return c.retrieveFinalize else return (c, .await (.ext (.retrieveSend batch)))

/-- `resubmit_transactions_batch`, `create_transactions_batch`, `sign_transactions_batch` up to the signatures
(withdraw.rs:172-174, 197-299). -/
def Mem.retrieveCreate [Keccak] (c : Mem) (g : GasFeeEstimate) (count : Option TransactionCount) : Res (Mem × Next) := do
  let m ← c.m.resubmitBatch count g
  let m ← m.createBatch g
  let c := { c with m := m }
  let batch ← m.st.txs.toSignBatch 5
  if batch.isEmpty then c.retrieveSend count else return (c, .await (.ext (.retrieveSign count batch)))

/-- After the signatures (withdraw.rs:300-324); a missing signature is an error of the signing call. -/
def Mem.onSignatures [Keccak] (c : Mem) (count : Option TransactionCount) (batch : List (LedgerBurnIndex × Tx))
    (sigs : List (Option Signature)) : Res (Mem × Next) := do
  let m ← c.m.recordSigned ((batch.zip sigs).map fun x => (x.1.1, x.1.2, x.2))
  ({ c with m := m }).retrieveSend count

/-- After the receipts (withdraw.rs:391-435). -/
def Mem.onReceipts [Keccak] (c : Mem) (toFinalize : FMap Hash LedgerBurnIndex) (results : List Minter.ReceiptResult) :
    Res (Mem × Next) := do
  let m ← c.m.recordReceipts toFinalize results
  return ({ c with m := m }).retrieveEnd

/-- After the finalized transaction count (withdraw.rs:376-390, 437-441). -/
def Mem.onFinalizedCount [Keccak] (c : Mem) (count : Option TransactionCount) : Res (Mem × Next) :=
  match count with
  | none => .ok c.retrieveEnd
  | some n => do
    let toFinalize ← c.m.st.txs.sentToFinalize n
    if toFinalize.toList.isEmpty then c.onReceipts toFinalize []
    else return (c, .await (.ext (.retrieveReceipts toFinalize)))

/-- After the gas fee estimate (withdraw.rs:159-171). -/
def Mem.onRetrieveGas (c : Mem) (g : Option GasFeeEstimate) : Mem × Next :=
  match g with
  | none => c.retrieveEnd
  | some g => (c, .await (.ext (.retrieveCount g)))

/-- `process_retrieve_tokens_requests` up to its first call (withdraw.rs:143-159) and `lazy_refresh_gas_fee_estimate` up
to its call (tx.rs:737-747, 793-803), with the cached estimate if it is recent. -/
def Mem.startRetrieve (c : Mem) (cached : Option GasFeeEstimate) : Res (Mem × Next) :=
  match c.acquire .retrieveEth with
  | none => .ok (c, .finish none)
  | some c =>
    if !c.m.st.txs.hasPending then .ok c.retrieveEnd
    else
      match cached with
      | some g => .ok (c.onRetrieveGas (some g))
      | none =>
        match c.acquire .refreshGasFeeEstimate with
        | none => .ok (c.onRetrieveGas none)
        | some c => .ok (c, .await (.ext .retrieveGas))

/-! ## `withdraw_native_token` (main.rs:277-409) -/

/-- `validate_address_as_destination` (address.rs:44-52). -/
def validateDestination (s : List Char) : Option Address :=
  (Address.parse s).filter fun a => a != Address.zero

/-- `WithdrawalError::from` (endpoints.rs:218-262). -/
def WithdrawalError.ofLedger : LedgerError → Res WithdrawalError
  | .temporarilyUnavailable => .ok .temporarilyUnavailable
  | .insufficientFunds b => .ok (.insufficientFunds b)
  | .insufficientAllowance a => .ok (.insufficientAllowance a)
  | .amountTooLow => .error "BUG: withdrawal amount on the Native ledger should always be higher"

/-- The refunded part of the withdrawal fee (main.rs:391-398, 627-634, 654-661). -/
def refundAmount (fee transferFee : Wei) : Wei := (csub fee ((cmul transferFee 2).getD fee)).getD 0

/-- Returning from `withdraw_native_token`: the guard is dropped. -/
def Mem.nativeReturn (c : Mem) (caller : Principal) (r : Except WithdrawalError LedgerBurnIndex) : Mem × Next :=
  (c.leave caller, .finish (some (.native r)))

/-- main.rs:349-360 -/
def Mem.nativeStartBurn (c : Mem) (q : NativeCall) (amount : Wei) (now : Nat) : Mem × Next :=
  (c, .await (.ledger (.nativeBurn q c.m.st.nativeLedgerId amount now)))

/-- After the transfer of the withdrawal fee (main.rs:329-360). -/
def Mem.onNativeFee (c : Mem) (q : NativeCall) (fee : Wei) (a : LedgerAnswer) (now : Nat) : Res (Mem × Next) := do
  match ← transferResult a with
  | .ok _ =>
    let amount ← expect (csub q.amount fee) "Failed calculating witdrawal amount"
    return c.nativeStartBurn q amount now
  | .error e =>
    let e ← WithdrawalError.ofLedger e
    return c.nativeReturn q.caller (.error e)

/-- After the burn (main.rs:362-408). -/
def Mem.onNativeBurn [Keccak] (c : Mem) (q : NativeCall) (ledger : Principal) (amount : Wei) (now : Nat)
    (a : LedgerAnswer) : Res (Mem × Next) := do
  match ← burnResult a with
  | .ok i =>
    let c ← c.process (.acceptedNativeWithdrawalRequest ⟨amount, q.destination, i, q.caller, none, some now⟩)
    return c.nativeReturn q.caller (.ok i)
  | .error e =>
    match q.fee with
    | some fee => return (c, .await (.ledger (.nativeRefund q ledger (refundAmount fee q.transferFee) e)))
    | none =>
      let e ← WithdrawalError.ofLedger e
      return c.nativeReturn q.caller (.error e)

/-- After the refund, whose result is ignored (main.rs:399-407). -/
def Mem.onNativeRefund (c : Mem) (q : NativeCall) (e : LedgerError) (a : LedgerAnswer) : Res (Mem × Next) := do
  let _ ← transferResult a
  let e ← WithdrawalError.ofLedger e
  return c.nativeReturn q.caller (.error e)

/-- `validate_caller_not_anonymous` and the guard (main.rs:280-287, 469-475). -/
def Mem.lockCaller (c : Mem) (caller : Principal) : Res Mem :=
  if caller = Principal.anonymous then .error "anonymous principal is not allowed"
  else
    match c.enter caller with
    | .error _ => .error "Failed retrieving guard for principal"
    | .ok c => .ok c

/-- `withdraw_native_token` up to its first ledger call (main.rs:280-361). -/
def Mem.startNative (c : Mem) (caller : Principal) (amount : Nat) (recipient : List Char) (now : Nat) :
    Res (Mem × Next) := do
  let c ← c.lockCaller caller
  match validateDestination recipient with
  | none => return c.nativeReturn caller (.error .invalidDestination)
  | some destination =>
    let amount ← expect (u256OfNat amount) "failed to convert Nat to u256"
    if amount < c.m.st.nativeMinimumWithdrawalAmount then
      return c.nativeReturn caller (.error (.amountTooLow c.m.st.nativeMinimumWithdrawalAmount))
    else
      let q : NativeCall := ⟨caller, amount, destination, c.m.st.withdrawalNativeFee, c.m.st.nativeLedgerTransferFee⟩
      match q.fee with
      | some fee =>
        let t ← expect (csub fee q.transferFee) "Failed to calculate withdrawal fee"
        return (c, .await (.ledger (.nativeFee q c.m.st.nativeLedgerId fee t)))
      | none => return c.nativeStartBurn q amount now

/-! ## `withdraw_erc20` (main.rs:462-674) -/

/-- Returning from `withdraw_erc20`: the guard is dropped. -/
def Mem.erc20Return (c : Mem) (caller : Principal) (r : Except WithdrawErc20Error (LedgerBurnIndex × LedgerBurnIndex)) :
    Mem × Next := (c.leave caller, .finish (some (.erc20 r)))

/-- Refund the withdrawal fee if there is one, then return an error (main.rs:623-645, 650-671). -/
def Mem.erc20Fail (c : Mem) (q : Erc20Charged) (e : WithdrawErc20Error) : Mem × Next :=
  match q.fee with
  | some fee => (c, .await (.ledger (.erc20Refund q (refundAmount fee q.transferFee) e)))
  | none => c.erc20Return q.caller (.error e)

/-- After the fee estimate (main.rs:498-551). -/
def Mem.onErc20Gas (c : Mem) (q : Erc20Call) (g : Option GasFeeEstimate) (now : Nat) : Res (Mem × Next) :=
  match g with
  | none => .ok (c.erc20Return q.caller (.error .temporarilyUnavailable))
  | some g => do
    let q : Erc20Charged := ⟨q, (g.toPrice erc20GasLimit).maxTransactionFee, c.m.st.withdrawalNativeFee⟩
    match q.fee with
    | some fee =>
      let t ← expect (csub fee q.transferFee) "Failed to calculate withdrawal fee"
      return (c, .await (.ledger (.erc20Fee q t)))
    | none => return (c, .await (.ledger (.erc20NativeBurn q now)))

/-- After the transfer of the withdrawal fee (main.rs:522-551). -/
def Mem.onErc20Fee (c : Mem) (q : Erc20Charged) (a : LedgerAnswer) (now : Nat) : Res (Mem × Next) := do
  match ← transferResult a with
  | .ok _ => return (c, .await (.ledger (.erc20NativeBurn q now)))
  | .error e => return c.erc20Return q.caller (.error (.nativeFeeTransferError e))

/-- After the burn of the transaction fee (main.rs:553-569, 649-672). -/
def Mem.onErc20NativeBurn (c : Mem) (q : Erc20Charged) (now : Nat) (a : LedgerAnswer) : Res (Mem × Next) := do
  match ← burnResult a with
  | .ok i => return (c, .await (.ledger (.erc20TokenBurn q now i)))
  | .error e => return c.erc20Fail q (.nativeLedgerError e)

/-- The amount reimbursed when the burn of the tokens fails (main.rs:598-605). -/
def erc20ReimbursedAmount (txFee transferFee : Wei) : LedgerError → Wei
  | .temporarilyUnavailable => txFee
  | _ => (csub txFee transferFee).getD 0

/-- Scheduling the reimbursement (main.rs:607-621). -/
def Mem.erc20Reimburse [Keccak] (c : Mem) (q : Erc20Charged) (nativeIndex : LedgerBurnIndex) (amount : Wei) : Res Mem :=
  if amount > 0 then c.process (.failedErc20WithdrawalRequest ⟨nativeIndex, amount, q.caller, none, none⟩) else .ok c

/-- After the burn of the tokens (main.rs:571-646). -/
def Mem.onErc20TokenBurn [Keccak] (c : Mem) (q : Erc20Charged) (now : Nat) (nativeIndex : LedgerBurnIndex)
    (a : LedgerAnswer) : Res (Mem × Next) := do
  match ← burnResult a with
  | .ok i =>
    let c ← c.process (.acceptedErc20WithdrawalRequest {
      maxTransactionFee := q.txFee
      withdrawalAmount := q.amount
      destination := q.destination
      nativeLedgerBurnIndex := nativeIndex
      erc20ContractAddress := q.token.erc20ContractAddress
      erc20LedgerId := q.token.erc20LedgerId
      erc20LedgerBurnIndex := i
      «from» := q.caller
      fromSubaccount := none
      createdAt := now })
    return c.erc20Return q.caller (.ok (nativeIndex, i))
  | .error e =>
    let c ← c.erc20Reimburse q nativeIndex (erc20ReimbursedAmount q.txFee q.transferFee e)
    return c.erc20Fail q (.erc20LedgerError nativeIndex e)

/-- After the refund, whose result is ignored. -/
def Mem.onErc20Refund (c : Mem) (q : Erc20Charged) (e : WithdrawErc20Error) (a : LedgerAnswer) : Res (Mem × Next) := do
  let _ ← transferResult a
  return c.erc20Return q.caller (.error e)

/-- `withdraw_erc20` up to its first call (main.rs:469-500), with the cached estimate if it is recent. -/
def Mem.startErc20 (c : Mem) (caller : Principal) (amount : Nat) (ledger : Principal) (recipient : List Char)
    (cached : Option GasFeeEstimate) (now : Nat) : Res (Mem × Next) := do
  let c ← c.lockCaller caller
  match validateDestination recipient with
  | none => return c.erc20Return caller (.error .invalidDestination)
  | some destination =>
    let amount ← expect (u256OfNat amount) "ERROR: failed to convert Nat to u256"
    match c.m.st.findErc20TokenByLedgerId ledger with
    | none => return c.erc20Return caller (.error .tokenNotSupported)
    | some token =>
      let q : Erc20Call := ⟨caller, amount, destination, token, c.m.st.nativeLedgerTransferFee, c.m.st.nativeLedgerId⟩
      match cached with
      | some g => c.onErc20Gas q (some g) now
      | none =>
        match c.acquire .refreshGasFeeEstimate with
        | none => c.onErc20Gas q none now
        | some c => return (c, .await (.ext (.erc20Gas q)))

/-! ## Messages -/

/-- What starts a task or runs on its own: timers and endpoints. -/
inductive Message where
  | mint
  | reimbursement
  | retrieve (cached : Option GasFeeEstimate)
  | scrape
  /-- `lazy_refresh_gas_fee_estimate` without a recent estimate -/
  | gas
  | withdrawNative (caller : Principal) (amount : Nat) (recipient : List Char)
  | withdrawErc20 (caller : Principal) (amount : Nat) (ledger : Principal) (recipient : List Char)
      (cached : Option GasFeeEstimate)
  | addToken (caller : Principal) (arg : AddErc20TokenArg)

/-- The first part of a message. -/
def Message.run [Keccak] (c : Mem) (now : Nat) : Message → Res (Mem × Next)
  | .mint => c.startMint
  | .reimbursement => c.startReimbursement
  | .retrieve cached => c.startRetrieve cached
  | .scrape =>
    match c.acquire .scrapLogs with
    | none => .ok (c, .finish none)
    | some c => .ok ({ c with lastObservedTime := some now }, .await (.ext (.scrape (.observing 0))))
  | .gas =>
    match c.acquire .refreshGasFeeEstimate with
    | none => .ok (c, .finish none)
    | some c => .ok (c, .await (.ext .gas))
  | .withdrawNative caller amount recipient => c.startNative caller amount recipient now
  | .withdrawErc20 caller amount ledger recipient cached => c.startErc20 caller amount ledger recipient cached now
  | .addToken caller arg => do
    let x ← addErc20Token c.m.st caller arg
    return ({ c with m := ⟨x.2, c.m.log ++ [x.1]⟩ }, .finish none)

/-- The code after the answer of a ledger. -/
def LedgerTask.resume [Keccak] (c : Mem) (a : LedgerAnswer) (now : Nat) : LedgerTask → Res (Mem × Next)
  | .mintUser env d symbol ledger _ rest => c.onMintUser env d symbol ledger rest a
  | .mintFee env d symbol _ _ block rest => c.mintRecord env d symbol block rest
  | .reimburse x r _ rest => c.onReimburse x r rest a
  | .nativeFee q _ fee _ => c.onNativeFee q fee a now
  | .nativeBurn q ledger amount at' => c.onNativeBurn q ledger amount at' a
  | .nativeRefund q _ _ e => c.onNativeRefund q e a
  | .erc20Fee q _ => c.onErc20Fee q a now
  | .erc20NativeBurn q at' => c.onErc20NativeBurn q at' a
  | .erc20TokenBurn q at' i => c.onErc20TokenBurn q at' i a
  | .erc20Refund q _ e => c.onErc20Refund q e a

/-- Answers of the other canisters; `none` is a failed call. -/
inductive ExtAnswer where
  | gas (g : Option GasFeeEstimate)
  | block (n : Option BlockNumber)
  | logs (a : LogsAnswer)
  | count (n : Option TransactionCount)
  | signatures (l : List (Option Signature))
  | sent
  | receipts (l : List Minter.ReceiptResult)

/-- A step of the scraping task inside the memory: `Scraper` (Model/Scrape.lean) is the part of the memory it uses. -/
def Mem.scraperStep (c : Mem) (w : Scraper) : Mem × Next :=
  let c := { c with m := w.m, lastObserved := w.lastObserved, lastObservedTime := w.lastObservedTime }
  match w.task with
  | some t => (c, .await (.ext (.scrape t)))
  | none => (c.release .scrapLogs, .finish none)

/-- The part of the memory that scraping uses, with the task it is in. -/
def Mem.scraper (c : Mem) (t : ScrapeTask) : Scraper := ⟨c.m, c.lastObserved, c.lastObservedTime, some t⟩

/-- The code after an answer of another canister; `none` if the answer is not one to the call of the task. -/
def ExtTask.resume [Keccak] (c : Mem) (now : Nat) : ExtTask → ExtAnswer → Option (Res (Mem × Next))
  | .scrape (.observing n), .block b => some do
    let w ← (c.scraper (.observing n)).onBlock n b
    return c.scraperStep w
  | .scrape (.querying q), .logs a => some do
    let w ← (c.scraper (.querying q)).onLogs q a
    return c.scraperStep w
  | .gas, .gas _ => some (.ok (c.release .refreshGasFeeEstimate, .finish none))
  | .retrieveGas, .gas g => some (.ok ((c.release .refreshGasFeeEstimate).onRetrieveGas g))
  | .retrieveCount g, .count n => some (c.retrieveCreate g n)
  | .retrieveSign count batch, .signatures l => some (c.onSignatures count batch l)
  | .retrieveSend _, .sent => some (.ok c.retrieveFinalize)
  | .retrieveFinalizedCount, .count n => some (c.onFinalizedCount n)
  | .retrieveReceipts f, .receipts l => some (c.onReceipts f l)
  | .erc20Gas q, .gas g => some ((c.release .refreshGasFeeEstimate).onErc20Gas q g now)
  | _, _ => none

/-! ## Traps -/

/-- Dropping a suspended task after a trap: the guards of the current deposit or reimbursement record that it is
quarantined (deposit.rs:48-57, withdraw.rs:59-61), then the locks are released. -/
def Task.cleanup [Keccak] (c : Mem) : Task → Res Mem
  | .ledger t =>
    match t with
    | .mintUser _ d _ _ _ _ | .mintFee _ d _ _ _ _ _ => do
      let c ← c.process (.quarantinedDeposit d.source)
      return c.release .mint
    | .reimburse x _ _ _ => do
      let c ← c.process (.quarantinedReimbursement x)
      return c.release .reimbursement
    | .nativeFee q _ _ _ | .nativeBurn q _ _ _ | .nativeRefund q _ _ _ => .ok (c.leave q.caller)
    | .erc20Fee q _ | .erc20NativeBurn q _ | .erc20TokenBurn q _ _ | .erc20Refund q _ _ => .ok (c.leave q.caller)
  | .ext t =>
    match t with
    | .scrape _ => .ok (c.release .scrapLogs)
    | .gas => .ok (c.release .refreshGasFeeEstimate)
    | .retrieveGas => .ok ((c.release .refreshGasFeeEstimate).release .retrieveEth)
    | .retrieveCount _ | .retrieveSign _ _ | .retrieveSend _ | .retrieveFinalizedCount | .retrieveReceipts _ =>
      .ok (c.release .retrieveEth)
    | .erc20Gas q => .ok ((c.release .refreshGasFeeEstimate).leave q.caller)

end EvmMinter
