import Verif.Spec.Calls
/-!
# True records

What an event of the log says about the ledgers, in terms of their blocks.
-/

namespace EvmMinter
namespace Spec

/-- The memo of the mint for a reimbursement: it names the burn, and the transaction that failed if there was one. -/
def reimbursementMemo (burn : LedgerBurnIndex) (tx : Option Hash) : Memo :=
  .mint (match tx with
    | some h => .reimburseTransaction burn h
    | none => .reimburseWithdrawal burn)

/-- The blocks that an event names exist on the ledgers and are what the event says. -/
def _root_.EvmMinter.Event.Truthful (w : World) : Event → Prop
  | .mintedNative src i => ∃ b, w.blockAt w.mem.m.st.nativeLedgerId i = some b ∧ b.call.credits src = true
  | .mintedErc20 src i symbol contract => ∃ l b, w.mem.m.st.erc20Tokens.getEntryAlt contract = some (l, symbol) ∧
      w.blockAt l i = some b ∧ b.call.credits src = true
  | .acceptedNativeWithdrawalRequest r => ∃ b, w.blockAt w.mem.m.st.nativeLedgerId r.ledgerBurnIndex = some b ∧
      b.call.op = .burn ⟨r.from, r.fromSubaccount⟩ r.withdrawalAmount ∧ b.call.memo = some (.burn (.convert r.destination))
  | .acceptedErc20WithdrawalRequest r =>
      (∃ b symbol, w.mem.m.st.erc20Tokens.getEntryAlt r.erc20ContractAddress = some (r.erc20LedgerId, symbol) ∧
        w.blockAt w.mem.m.st.nativeLedgerId r.nativeLedgerBurnIndex = some b ∧
        b.call.op = .burn ⟨r.from, r.fromSubaccount⟩ r.maxTransactionFee ∧
        b.call.memo = some (.burn (.erc20GasFee symbol r.withdrawalAmount r.destination))) ∧
      ∃ b, w.blockAt r.erc20LedgerId r.erc20LedgerBurnIndex = some b ∧
        b.call.op = .burn ⟨r.from, r.fromSubaccount⟩ r.withdrawalAmount ∧
        b.call.memo = some (.burn (.erc20Convert r.nativeLedgerBurnIndex r.destination))
  | .failedErc20WithdrawalRequest r => ∃ b fee symbol amount to, w.blockAt w.mem.m.st.nativeLedgerId r.ledgerBurnIndex = some b ∧
      b.call.op = .burn ⟨r.to, r.toSubaccount⟩ fee ∧ r.reimbursedAmount ≤ fee ∧ 0 < r.reimbursedAmount ∧
      b.call.memo = some (.burn (.erc20GasFee symbol amount to))
  | .reimbursedNativeWithdrawal r => ∃ b account, w.blockAt w.mem.m.st.nativeLedgerId r.reimbursedInBlock = some b ∧
      b.call.op = .mint account r.reimbursedAmount ∧ b.call.memo = some (reimbursementMemo r.burnInBlock r.transactionHash)
  | .reimbursedErc20Withdrawal _ l r => ∃ b account, w.blockAt l r.reimbursedInBlock = some b ∧
      b.call.op = .mint account r.reimbursedAmount ∧ b.call.memo = some (reimbursementMemo r.burnInBlock r.transactionHash)
  | _ => True

end Spec
end EvmMinter
