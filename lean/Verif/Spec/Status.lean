import Verif.Model.Withdraw
/-!
# The status of a withdrawal, told by the history alone
-/

namespace EvmMinter

/-- A withdrawal awaiting reimbursement is paid `amount` in ledger block `block`. -/
def Status.pay (amount : Nat) (block : LedgerMintIndex) : Status → Status
  | .pendingReimbursement hash => .reimbursed hash amount block
  | st => st

namespace Spec

/-- The new status of the withdrawal with native burn index `i` when the event is recorded. -/
def statusStep [Keccak] (i : LedgerBurnIndex) (st : Status) : Event → Status
  | .acceptedNativeWithdrawalRequest r => if r.ledgerBurnIndex = i then .pending else st
  | .acceptedErc20WithdrawalRequest r => if r.nativeLedgerBurnIndex = i then .pending else st
  | .createdTransaction j _ => if j = i then .txCreated else st
  | .replacedTransaction j _ => if j = i then .txCreated else st
  | .signedTransaction j stx => if j = i then .txSent stx.hash else st
  | .finalizedTransaction j receipt =>
    if j = i then
      match receipt.status with
      | .success => .success receipt.transactionHash (receipt.effectiveGasPrice * receipt.gasUsed)
      | .failure => .pendingReimbursement receipt.transactionHash
    else st
  | .reimbursedNativeWithdrawal q =>
    if q.burnInBlock = i then st.pay q.reimbursedAmount q.reimbursedInBlock else st
  | .reimbursedErc20Withdrawal j _ q =>
    if j = i then st.pay q.reimbursedAmount q.reimbursedInBlock else st
  | _ => st

/-- The status of the withdrawal with native burn index `i` after a history. -/
def statusOf [Keccak] (log : List Event) (i : LedgerBurnIndex) : Status := log.foldl (statusStep i) .notFound

end Spec

end EvmMinter
