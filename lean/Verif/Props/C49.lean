import Verif.Lemmas.Burns
import Verif.Props.C30
/-!
# C49: recorded ledger block indices are true
-/

namespace EvmMinter
open Spec

section
variable [Keccak]

/-- **C49**: in every execution, every block index that the event log mentions is the index of a block of the ledger, and that
block is what the event says: the mint for this deposit, the burn for this request with its amount, owner and memo, the burn
whose fee is given back, or the mint of this reimbursement. -/
theorem C49_truthful {w : World} (h : Reachable w) {e : Event} (he : e ∈ w.mem.m.log) : e.Truthful w := by
  have wf := (registry_of_tracks (tracks h)).wf
  by_cases ho : e.origin = .lifecycle
  · cases e <;> first | trivial | cases ho
  obtain ⟨id, _, hb⟩ := log_backed h he ho
  cases e <;> try trivial
  case mintedNative src i =>
    obtain ⟨env, e, sym, a, rest, rfl, hm⟩ := hb
    exact ⟨_, hm.1, by simp [LedgerTask.call, LedgerCall.credits, Deposit.memo]⟩
  case mintedErc20 src i sym c =>
    obtain ⟨env, e, l, a, rest, rfl, rfl, hr, hm⟩ := hb
    exact ⟨l, _, (DMKM.getEntryAlt_eq wf).2 hr, hm.1, by simp [LedgerTask.call, LedgerCall.credits, Deposit.memo]⟩
  case acceptedNativeWithdrawalRequest r =>
    obtain ⟨q, now, hr, hm⟩ := hb
    refine ⟨_, hm.1, ?_, ?_⟩
    · rw [hr]; rfl
    · rw [hr]; rfl
  case acceptedErc20WithdrawalRequest r =>
    obtain ⟨q, now, hr, hreg, h1, h2⟩ := hb
    refine ⟨⟨_, _, (DMKM.getEntryAlt_eq wf).2 hreg, h1.1, ?_, ?_⟩, _, h2.1, ?_, ?_⟩ <;> rw [hr] <;> rfl
  case failedErc20WithdrawalRequest r =>
    obtain ⟨q, now, hr, hpos, hle, hm⟩ := hb
    refine ⟨_, q.txFee, q.token.symbol, q.amount, q.destination, hm.1, ?_, hle, hpos, rfl⟩
    rw [hr]; rfl
  case reimbursedNativeWithdrawal q =>
    obtain ⟨n, r, rest, hq, hm⟩ := hb
    refine ⟨_, ⟨r.to, r.toSubaccount⟩, hm.1, ?_, ?_⟩
    · rw [hq]; rfl
    · rw [hq]
      simp only [LedgerTask.call, ReimbRequest.memo, reimbursementMemo]
      cases r.transactionHash <;> rfl
  case reimbursedErc20Withdrawal n l q =>
    obtain ⟨b, r, rest, hq, hm⟩ := hb
    refine ⟨_, ⟨r.to, r.toSubaccount⟩, hm.1, ?_, ?_⟩
    · rw [hq]; rfl
    · rw [hq]
      simp only [LedgerTask.call, ReimbRequest.memo, reimbursementMemo]
      cases r.transactionHash <;> rfl

/-- **C49** (no burn is used twice): no block of any ledger is named as a burn twice, neither by two events of the log nor
twice by the same event. So no two requests, and no request and reimbursement, share a burn. -/
theorem C49_burns_distinct {w : World} (h : Reachable w) :
    (w.mem.m.log.flatMap fun
      | .acceptedNativeWithdrawalRequest r => [(w.mem.m.st.nativeLedgerId, r.ledgerBurnIndex)]
      | .acceptedErc20WithdrawalRequest r => [(w.mem.m.st.nativeLedgerId, r.nativeLedgerBurnIndex), (r.erc20LedgerId, r.erc20LedgerBurnIndex)]
      | .failedErc20WithdrawalRequest r => [(w.mem.m.st.nativeLedgerId, r.ledgerBurnIndex)]
      | _ => []).Nodup := by
  have := burns_nodup h
  refine cast (congrArg List.Nodup (congrArg (fun f => List.flatMap f w.mem.m.log) ?_)) this
  funext e
  cases e <;> rfl

end

namespace Example
attribute [local instance] keccak

/-- Two withdrawals; the second starts while the first is in progress. -/
theorem C49_example : ∃ w, Reachable w ∧ decide (
    (w.mem.m.log.flatMap fun
      | .acceptedNativeWithdrawalRequest r => [(ledger, r.ledgerBurnIndex)]
      | .failedErc20WithdrawalRequest r => [(ledger, r.ledgerBurnIndex)]
      | _ => []) = [(ledger, 3), (ledger, 2)] ∧
    (w.blockAt ledger 2).map (·.call.op) = some (.burn ⟨alice, none⟩ 2730000) ∧
    (w.blockAt ledger 3).map (·.call.op) = some (.burn ⟨bob, none⟩ 4999999900)) = true :=
  after_reachable (arg := initArg) (l := [.start (.addToken manager usdcArg) 4,
    .start (.withdrawErc20 alice 700 usdcLedger to (some gasEstimate)) 5, .start (.withdrawNative bob 5000000000 to) 6,
    .execute 1, .execute 0, .deliver 0 7, .deliver 1 8, .execute 0, .execute 1, .deliver 1 9, .deliver 0 10,
    .refuse 0 .temporarilyUnavailable, .deliver 0 11]) (by decide +kernel)

end Example
end EvmMinter
