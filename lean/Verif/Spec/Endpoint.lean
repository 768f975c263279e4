import Verif.Spec.Calls
/-!
# What a withdrawal call takes from and gives to its caller

Ledgers charge the sender of a transfer the transfer fee; burns and mints are free.
-/

namespace EvmMinter
namespace Spec

/-- What the owner of an account pays for a transaction, when a transfer costs `ledgerFee`. -/
def _root_.EvmMinter.LedgerOp.debit (who : Account) (ledgerFee : Nat) : LedgerOp → Nat
  | .burn a n => if a = who then n else 0
  | .transfer a _ n => if a = who then n + ledgerFee else 0
  | .mint _ _ => 0

/-- What the owner of an account receives. -/
def _root_.EvmMinter.LedgerOp.credit (who : Account) : LedgerOp → Nat
  | .burn _ _ => 0
  | .transfer _ a n => if a = who then n else 0
  | .mint a n => if a = who then n else 0

def _root_.EvmMinter.LedgerOp.isBurn : LedgerOp → Bool
  | .burn _ _ => true
  | _ => false

/-- The transactions executed for message `id`, each with its ledger, in order. -/
def World.callsOf (w : World) (id : Nat) : List (Principal × LedgerOp) := (w.blocksOf id).map fun b => (b.call.ledger, b.call.op)

/-- What message `id` took from an account of a ledger. -/
def World.taken (w : World) (id : Nat) (ledger : Principal) (who : Account) (ledgerFee : Nat) : Nat :=
  (((w.callsOf id).filter fun c => c.1 == ledger).map fun c => c.2.debit who ledgerFee).sum

/-- What message `id` gave to an account of a ledger. -/
def World.given (w : World) (id : Nat) (ledger : Principal) (who : Account) : Nat :=
  (((w.callsOf id).filter fun c => c.1 == ledger).map fun c => c.2.credit who).sum

/-- The transfer of the withdrawal fee configured in `w₀`, without the ledger's own fee, to the fee account. -/
def World.feeTaken (w₀ w : World) (caller : Principal) : List (Principal × LedgerOp) :=
  match w₀.mem.m.st.withdrawalNativeFee with
  | none => []
  | some fee => [(w.mem.m.st.nativeLedgerId,
      .transfer ⟨caller, none⟩ ⟨w.mem.id, some feesSubaccount⟩ (fee - w₀.mem.m.st.nativeLedgerTransferFee))]

/-- Its refund, from which the ledger's fee for both transfers is deducted. -/
def World.feeRefunded (w₀ w : World) (caller : Principal) : List (Principal × LedgerOp) :=
  match w₀.mem.m.st.withdrawalNativeFee with
  | none => []
  | some fee => [(w.mem.m.st.nativeLedgerId,
      .transfer ⟨w.mem.id, some feesSubaccount⟩ ⟨caller, none⟩ (fee - 2 * w₀.mem.m.st.nativeLedgerTransferFee))]

end Spec
end EvmMinter
