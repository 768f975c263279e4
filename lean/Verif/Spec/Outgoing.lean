import Verif.Spec.Truth
/-!
# Outgoing transactions

What the minter gives out of its hands: transactions to be signed by the threshold key, and signed transactions sent to the
RPC providers; and what it means, in terms of the ledgers, that such a transaction is paid for.
-/

namespace EvmMinter
namespace Spec

/-- The transactions that a suspended task is having signed or sent. -/
def _root_.EvmMinter.Task.outgoing : Task → List Tx
  | .ext (.retrieveSign _ batch) => batch.map (·.2)
  | .ext (.retrieveSend batch) => batch.map (·.tx)
  | _ => []

/-- The transaction is paid for by burn `k` on the native ledger, and does what the owner of the burned tokens asked for.
Either it is a transfer of native value, whose value and maximum fee add up to the amount burned for this destination; or a
call of `transfer` of a supported token, whose maximum fee is covered by burn `k` and whose amount was burned on the ledger of
the token, both by the same account and for this destination. -/
def World.PaidBy (w : World) (k : LedgerBurnIndex) (tx : Tx) : Prop :=
  (∃ b account, w.blockAt w.mem.m.st.nativeLedgerId k = some b ∧
    b.call.op = .burn account (tx.amount + tx.gasLimit * tx.maxFeePerGas) ∧
    b.call.memo = some (.burn (.convert tx.destination)) ∧ tx.data = []) ∨
  (∃ b b' account fee amount recipient ledger j symbol,
    w.mem.m.st.erc20Tokens.getEntryAlt tx.destination = some (ledger, symbol) ∧
    w.blockAt w.mem.m.st.nativeLedgerId k = some b ∧ b.call.op = .burn account fee ∧
    b.call.memo = some (.burn (.erc20GasFee symbol amount recipient)) ∧
    w.blockAt ledger j = some b' ∧ b'.call.op = .burn account amount ∧
    b'.call.memo = some (.burn (.erc20Convert k recipient)) ∧
    tx.gasLimit * tx.maxFeePerGas ≤ fee ∧ tx.amount = 0 ∧
    tx.data = [0xa9, 0x05, 0x9c, 0xbb] ++ [0, 0, 0, 0, 0, 0, 0, 0, 0, 0, 0, 0] ++ toBE 20 recipient ++ toBE 32 amount ∧ recipient < 2 ^ 160 ∧ amount < 2 ^ 256)

end Spec
end EvmMinter
