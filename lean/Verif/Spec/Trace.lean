import Verif.Model.State
/-!
# Vocabulary on audit logs used in property statements
-/

namespace EvmMinter.Spec

/-- The event records that the deposit `src` was minted. -/
def isMintOf (src : EventSource) : Event → Bool
  | .mintedNative s _ => s == src
  | .mintedErc20 s _ _ _ => s == src
  | _ => false

/-- The event records that the deposit `src` was accepted. -/
def isAcceptOf (src : EventSource) : Event → Bool
  | .acceptedDeposit d => (⟨d.transactionHash, d.logIndex⟩ : EventSource) == src
  | .acceptedErc20Deposit d => (⟨d.transactionHash, d.logIndex⟩ : EventSource) == src
  | _ => false

/-- The event records that the deposit `src` was found invalid or was quarantined. -/
def isRejectOf (src : EventSource) : Event → Bool
  | .invalidDeposit s _ => s == src
  | .quarantinedDeposit s => s == src
  | _ => false

/-- The withdrawal request accepted by the event. -/
def requestOf : Event → Option Request
  | .acceptedNativeWithdrawalRequest r => some (.native r)
  | .acceptedErc20WithdrawalRequest r => some (.erc20 r)
  | _ => none

/-- The transaction recorded by the event: created, replaced or signed. -/
def recordedTx : Event → Option Tx
  | .createdTransaction _ tx => some tx
  | .replacedTransaction _ tx => some tx
  | .signedTransaction _ stx => some stx.tx
  | _ => none

/-- The withdrawal and the transaction recorded by the event: created, replaced or signed. -/
def recordedFor : Event → Option (LedgerBurnIndex × Tx)
  | .createdTransaction i tx => some (i, tx)
  | .replacedTransaction i tx => some (i, tx)
  | .signedTransaction i stx => some (i, stx.tx)
  | _ => none

/-- The event creates the first transaction of withdrawal `i`. -/
def isCreateOf (i : LedgerBurnIndex) : Event → Bool
  | .createdTransaction j _ => j == i
  | _ => false

/-- The event accepts a withdrawal with native burn index `i`. -/
def isRequestOf (i : LedgerBurnIndex) : Event → Bool
  | .acceptedNativeWithdrawalRequest r => r.ledgerBurnIndex == i
  | .acceptedErc20WithdrawalRequest r => r.nativeLedgerBurnIndex == i
  | _ => false

/-- The event finalizes withdrawal `i`. -/
def isFinalizeOf (i : LedgerBurnIndex) : Event → Bool
  | .finalizedTransaction j _ => j == i
  | _ => false

/-- The transactions signed with a nonce, in the order of the log. -/
def signedWith (n : TransactionNonce) (log : List Event) : List SignedTx :=
  log.filterMap fun
    | .signedTransaction _ x => if x.tx.nonce = n then some x else none
    | _ => none

/-- The event records the payment of reimbursement `x`. -/
def isReimburseOf (x : ReimbIndex) : Event → Bool
  | .reimbursedNativeWithdrawal r => x == .native r.burnInBlock
  | .reimbursedErc20Withdrawal n l r => x == .erc20 n l r.burnInBlock
  | _ => false

/-- The nonces of the first transactions of the withdrawals, in the order of creation. -/
def createdNonces : List Event → List TransactionNonce
  | [] => []
  | .createdTransaction _ tx :: t => tx.nonce :: createdNonces t
  | _ :: t => createdNonces t

/-- The next nonce to use after the event. -/
def nonceAfter (n : Nat) : Event → Nat
  | .init a => a.nextTransactionNonce
  | .upgrade a => a.nextTransactionNonce.getD n
  | .createdTransaction _ _ => n + 1
  | _ => n

/-- The next nonce to use after a history: set by init and upgrades, one more for each creation. -/
def expectedNonce (log : List Event) : Nat := log.foldl nonceAfter 0

/-- No upgrade sets the next transaction nonce to a value below the current one. -/
def NonceNeverLowered (log : List Event) : Prop :=
  ∀ l₁ a l₂ n, log = l₁ ++ .upgrade a :: l₂ → a.nextTransactionNonce = some n → expectedNonce l₁ ≤ n

/-- Number of events of the log satisfying `p`. -/
abbrev count (p : Event → Bool) (log : List Event) : Nat := log.countP p

end EvmMinter.Spec
