import Verif.Spec.Trace
/-!
# Vocabulary on the withdrawal pipeline used in property statements
-/

namespace EvmMinter.Spec

/-- Where a burn index is visible: how often in the queue of pending requests, and whether in the created, sent
and finalized transactions. -/
structure Profile where
  queued : Nat
  created : Bool
  sent : Bool
  finalized : Bool
deriving DecidableEq, Repr

/-- The profile of burn index `i`. -/
def profile (t : Transactions) (i : LedgerBurnIndex) : Profile where
  queued := t.pending.countP (fun r => r.burnIndex == i)
  created := t.created.containsAlt i
  sent := t.sent.containsAlt i
  finalized := t.finalized.containsAlt i

/-- The stages of a withdrawal. A sent transaction may at the same time have a replacement being created. -/
inductive Stage where
  | pending | created | sent | resubmitted | finalized
deriving DecidableEq, Repr

/-- The profile of a burn index in a stage. -/
def Stage.profile : Stage → Profile
  | .pending => ⟨1, false, false, false⟩
  | .created => ⟨0, true, false, false⟩
  | .sent => ⟨0, false, true, false⟩
  | .resubmitted => ⟨0, true, true, false⟩
  | .finalized => ⟨0, false, false, true⟩

/-- The two transactions differ at most in the fees and the amount of native currency. -/
structure SameCall (a b : Tx) : Prop where
  chainId : a.chainId = b.chainId
  nonce : a.nonce = b.nonce
  gasLimit : a.gasLimit = b.gasLimit
  destination : a.destination = b.destination
  data : a.data = b.data
  accessList : a.accessList = b.accessList

/-- The log justifies that `rr` is to be reimbursed under index `x`: the only transaction outcome recorded for an
accepted withdrawal is a failure, or the burn of the ERC-20 tokens failed after the fee was burned. -/
inductive OwedBy [Keccak] (log : List Event) : ReimbIndex → ReimbRequest → Prop where
  | failedNative (r : NativeRequest) (receipt : Receipt) (j : LedgerBurnIndex) (stx : SignedTx) :
      .acceptedNativeWithdrawalRequest r ∈ log → .finalizedTransaction r.ledgerBurnIndex receipt ∈ log →
      receipt.status = .failure → .signedTransaction j stx ∈ log → stx.hash = receipt.transactionHash →
      OwedBy log (.native r.ledgerBurnIndex)
        { ledgerBurnIndex := r.ledgerBurnIndex, reimbursedAmount := stx.tx.amount, to := r.from,
          toSubaccount := r.fromSubaccount, transactionHash := some receipt.transactionHash }
  | failedErc20 (r : Erc20Request) (receipt : Receipt) :
      .acceptedErc20WithdrawalRequest r ∈ log → .finalizedTransaction r.nativeLedgerBurnIndex receipt ∈ log →
      receipt.status = .failure →
      OwedBy log (.erc20 r.nativeLedgerBurnIndex r.erc20LedgerId r.erc20LedgerBurnIndex)
        { ledgerBurnIndex := r.erc20LedgerBurnIndex, reimbursedAmount := r.withdrawalAmount, to := r.from,
          toSubaccount := r.fromSubaccount, transactionHash := some receipt.transactionHash }
  | failedBurn (rr : ReimbRequest) :
      .failedErc20WithdrawalRequest rr ∈ log → OwedBy log (.native rr.ledgerBurnIndex) rr

end EvmMinter.Spec
