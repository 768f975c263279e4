import Verif.Props.C57
import Verif.Props.C60
/-!
# C18 over all executions: the receipt is that of a transaction signed for the very withdrawal
-/

namespace EvmMinter
open Spec

section
variable [Keccak]

/-- **C18**, over all executions: when a receipt is recorded for a withdrawal, a transaction signed and recorded before for this
withdrawal, and for no other, has its hash. (The audit log alone does not say so: replaying it does not look at the number in
the record of a signature.) -/
theorem C18_own {w : World} (h : Reachable w) (hn : NonceNeverLowered w.mem.m.log) {i : LedgerBurnIndex} {receipt : Receipt}
    {pre post : List Event} (hl : w.mem.m.log = pre ++ .finalizedTransaction i receipt :: post) :
    ∃ stx : SignedTx, .signedTransaction i stx ∈ pre ∧ stx.hash = receipt.transactionHash ∧
      ∀ j, .signedTransaction j stx ∈ w.mem.m.log → j = i := by
  have R := run_of_reachable h hn
  obtain ⟨s₀, hr, _⟩ := run_replay R
  obtain ⟨tx₀, j, stx, h1, h2, h3, h4, _⟩ := (C18_finalized_once hr hn i).2 pre receipt post hl
  have mem : ∀ {e : Event}, e ∈ pre → e ∈ w.mem.m.log := fun he => by rw [hl]; exact List.mem_append_left _ he
  have own : ∀ {k}, .signedTransaction k stx ∈ w.mem.m.log → k = i := by
    intro k hk
    have c1 := recordedFor_core R hn hk rfl
    have c2 := recordedFor_core R hn (mem h1) rfl
    rw [h3] at c1
    exact (Core.unique (run_txInv R hn).1 c1 c2).1
  have := own (mem h2)
  subst this
  exact ⟨stx, h2, h4, fun _ => own⟩

end

namespace Example
attribute [local instance] keccak

/-- Two withdrawals are finalized, each with the receipt of the transaction signed for it. -/
theorem C18_example_own : ∃ w, Reachable w ∧ decide (
    (w.mem.m.log.filterMap fun | .finalizedTransaction i r => some (i, r.transactionHash) | _ => none) =
      (if nativeTx.hash < usdcTx.hash then [(3, nativeTx.hash), (5, usdcTx.hash)] else [(5, usdcTx.hash), (3, nativeTx.hash)]) ∧
    (w.mem.m.log.filterMap fun | .signedTransaction i x => some (i, x) | _ => none) = [(3, nativeTx), (5, usdcTx)]) = true :=
  after_reachable (arg := initArg) (l := askingReceipts ++ [.answer 0 (.receipts
      ((if nativeTx.hash < usdcTx.hash then [nativeTx.hash, usdcTx.hash] else [usdcTx.hash, nativeTx.hash]).map bothMined)) 45])
    (by decide +kernel)

end Example
end EvmMinter
