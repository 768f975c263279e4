import Verif.Spec.Mint
import Verif.Spec.Account
/-!
# Backing

What the tokens on the ledgers are worth: everything that was minted and burned on a ledger, and what the minter still owes
to users whose tokens it has burned.
-/

namespace EvmMinter
namespace Spec

/-- The amount that a call burns. -/
def _root_.EvmMinter.LedgerCall.burns (c : LedgerCall) : Nat :=
  match c.op with
  | .burn _ a => a
  | _ => 0

/-- Everything minted on the ledger. -/
def World.minted (w : World) (ledger : Principal) : Nat :=
  ((w.blocks.filter fun b => b.call.ledger == ledger).map fun b => b.call.mints).sum

/-- Everything burned on the ledger. -/
def World.burned (w : World) (ledger : Principal) : Nat :=
  ((w.blocks.filter fun b => b.call.ledger == ledger).map fun b => b.call.burns).sum

/-- The call gives back the burn with index `k`: a mint, recognised by its memo. -/
def _root_.EvmMinter.LedgerCall.GivesBack (c : LedgerCall) (k : LedgerBurnIndex) : Prop :=
  match c.op, c.memo with
  | .mint _ _, some (.mint (.reimburseTransaction i _)) => i = k
  | .mint _ _, some (.mint (.reimburseWithdrawal i)) => i = k
  | _, _ => False

instance (c : LedgerCall) (k : LedgerBurnIndex) : Decidable (c.GivesBack k) := by
  unfold LedgerCall.GivesBack
  split <;> infer_instance

/-- The ledger has a block that gives back the burn with index `k`. -/
def World.GaveBack (w : World) (ledger : Principal) (k : LedgerBurnIndex) : Prop :=
  ∃ b ∈ w.blocks, b.call.ledger = ledger ∧ b.call.GivesBack k

instance (w : World) (ledger : Principal) (k : LedgerBurnIndex) : Decidable (w.GaveBack ledger k) := by
  unfold World.GaveBack
  infer_instance

/-- A transaction for the withdrawal has succeeded. -/
def World.paid (w : World) (i : LedgerBurnIndex) : Bool :=
  (w.mem.m.st.txs.finalized.getAlt i).any fun f => f.receipt.status == .success

/-- What the minter owes in tokens of an ERC-20 ledger to the user of a withdrawal: the withdrawn amount, unless a transaction
for it has succeeded or the burn was given back. -/
def World.tokenOwed (w : World) (ledger : Principal) : Event → Nat
  | .acceptedErc20WithdrawalRequest r =>
    if r.erc20LedgerId = ledger ∧ ¬ w.paid r.nativeLedgerBurnIndex ∧ ¬ w.GaveBack ledger r.erc20LedgerBurnIndex then r.withdrawalAmount else 0
  | _ => 0

/-- What the minter owes in native tokens for a withdrawal: as long as there is no transaction with a receipt, everything that
was burned; after a failed transaction the amount of that transaction, until it is given back. -/
def World.nativeOwed (w : World) : Event → Nat
  | .acceptedNativeWithdrawalRequest r =>
    match w.mem.m.st.txs.finalized.getAlt r.ledgerBurnIndex with
    | none => r.withdrawalAmount
    | some f => if f.receipt.status = .failure ∧ ¬ w.GaveBack w.mem.m.st.nativeLedgerId r.ledgerBurnIndex then f.signed.tx.amount else 0
  | .acceptedErc20WithdrawalRequest r =>
    match w.mem.m.st.txs.finalized.getAlt r.nativeLedgerBurnIndex with
    | none => r.maxTransactionFee
    | some _ => 0
  | .failedErc20WithdrawalRequest r =>
    if w.GaveBack w.mem.m.st.nativeLedgerId r.ledgerBurnIndex then 0 else r.reimbursedAmount
  | _ => 0

end Spec
end EvmMinter
