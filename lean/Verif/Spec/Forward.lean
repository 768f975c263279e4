import Verif.Model.Withdraw
/-!
# How the status of a withdrawal may change
-/

namespace EvmMinter
namespace Spec

/-- A withdrawal with status `a` may later have status `b`, if being signed or not does not count: it is found, then processed, then
finalized; a success is final, so is a refund, and a failure is followed by the refund for the same transaction. -/
def Forward (a b : Status) : Prop :=
  match a with
  | .notFound => True
  | .pending => b ≠ .notFound
  | .txCreated | .txSent _ => b ≠ .notFound ∧ b ≠ .pending
  | .success hash fee => b = .success hash fee
  | .pendingReimbursement hash => b = .pendingReimbursement hash ∨ ∃ amount block, b = .reimbursed hash amount block
  | .reimbursed hash amount block => b = .reimbursed hash amount block

/-- A withdrawal with status `a` may later have status `b`: as `Forward`, and what was sent stays sent. -/
def OnlyForward (a b : Status) : Prop := Forward a b ∧ ∀ hash, a = .txSent hash → b ≠ .txCreated

end Spec
end EvmMinter
