import Verif.Spec.Live
import Verif.Spec.Example
import Verif.Lemmas.MKM
/-!
# The example log is an execution
-/

namespace EvmMinter.Example

/-- A checker for `Emits`, given the gas fee estimate used. -/
def emitsCheck (s : State) (g : GasFeeEstimate) : Event → Bool
  | .init _ => false
  | .upgrade _ | .invalidDeposit _ _ | .skippedBlock _ | .finalizedTransaction _ _ => true
  | .addedErc20Token t => decide (t.erc20ContractAddress < 2 ^ 160)
  | .failedErc20WithdrawalRequest rr => s.txs.pending.all (fun r => r.burnIndex != rr.ledgerBurnIndex) &&
      !s.txs.processed.contains rr.ledgerBurnIndex
  | .quarantinedDeposit src => s.eventsToMint.contains src
  | .quarantinedReimbursement x => s.txs.reimbursementRequests.contains x
  | .acceptedDeposit d => decide (d.value < U256)
  | .acceptedErc20Deposit d => decide (d.value < U256)
  | .mintedNative src _ => match s.eventsToMint.get src with
    | some (.native _) => true
    | _ => false
  | .mintedErc20 src _ symbol contract => match s.eventsToMint.get src with
    | some (.erc20 d) => contract == d.erc20ContractAddress &&
        ((s.erc20Tokens.getEntryAlt contract).map (·.2) == some symbol)
    | _ => false
  | .syncedToBlock b => b == s.lastScrapedBlockNumber
  | .acceptedNativeWithdrawalRequest r => decide (r.withdrawalAmount < U256) && decide (r.destination < 2 ^ 160) &&
      !s.txs.reimbursementRequests.contains (.native r.ledgerBurnIndex) &&
      !s.txs.reimbursed.contains (.native r.ledgerBurnIndex)
  | .acceptedErc20WithdrawalRequest r =>
      !s.txs.reimbursementRequests.contains (.native r.nativeLedgerBurnIndex) &&
      !s.txs.reimbursed.contains (.native r.nativeLedgerBurnIndex) && decide (r.withdrawalAmount < U256) && decide (r.maxTransactionFee < U256) &&
      decide (r.destination < 2 ^ 160) &&
      ((s.erc20Tokens.getEntry r.erc20LedgerId).map (·.1) == some r.erc20ContractAddress)
  | .createdTransaction i tx => decide (g.baseFeePerGas < U256) && decide (g.maxPriorityFeePerGas < U256) &&
      s.txs.pending.any (fun r => r.burnIndex == i &&
        match createTransaction r s.txs.nextNonce g (estimateGasLimit r) s.evmNetwork with
        | .ok (.ok tx') => tx' == tx
        | _ => false)
  | .signedTransaction i stx => match s.txs.created.getEntry stx.tx.nonce with
    | some (j, c) => j == i && c.transaction == stx.tx
    | none => false
  | .replacedTransaction i tx => decide (g.baseFeePerGas < U256) && decide (g.maxPriorityFeePerGas < U256) &&
    match s.txs.sent.getEntry tx.nonce with
    | some (j, l) => j == i && match l.getLast? with
      | some last => match last.resubmit g with
        | .ok (.replaced tx') => tx' == tx
        | _ => false
      | none => false
    | none => false
  | .reimbursedNativeWithdrawal q => match s.txs.reimbursementRequests.get (.native q.burnInBlock) with
    | some rr => q == ⟨q.reimbursedInBlock, rr.ledgerBurnIndex, rr.reimbursedAmount, rr.transactionHash⟩
    | none => false
  | .reimbursedErc20Withdrawal n l q => match s.txs.reimbursementRequests.get (.erc20 n l q.burnInBlock) with
    | some rr => q == ⟨q.reimbursedInBlock, rr.ledgerBurnIndex, rr.reimbursedAmount, rr.transactionHash⟩
    | none => false

theorem emitsCheck_sound {s : State} {g : GasFeeEstimate} {e : Event} (h : emitsCheck s g e = true) : Emits s e := by
  cases e <;> simp only [emitsCheck] at h <;> try (first | trivial | (simp at h; exact h))
  case mintedNative src _ =>
    split at h
    · rename_i d hd; exact ⟨d, hd⟩
    · simp at h
  case mintedErc20 src _ sym c =>
    split at h
    · rename_i d hd
      simp only [Bool.and_eq_true, beq_iff_eq] at h
      cases he : s.erc20Tokens.getEntryAlt c with
      | none => simp [he] at h
      | some x =>
        simp only [he, Option.map_some, Option.some.injEq] at h
        exact ⟨d, x.1, hd, h.1, by rw [he, ← h.2]⟩
    · simp at h
  case acceptedNativeWithdrawalRequest r =>
    simp only [Bool.and_eq_true, decide_eq_true_eq, Bool.not_eq_true', FMap.contains_eq_false] at h
    exact ⟨h.1.1.1, ⟨h.1.2, h.2⟩, h.1.1.2⟩
  case failedErc20WithdrawalRequest rr =>
    simp only [Bool.and_eq_true, List.all_eq_true, bne_iff_ne, Bool.not_eq_true', FMap.contains_eq_false] at h
    exact h
  case quarantinedDeposit src => exact FMap.contains_eq_true.1 h
  case quarantinedReimbursement x => exact FMap.contains_eq_true.1 h
  case acceptedErc20WithdrawalRequest r =>
    simp only [Bool.and_eq_true, decide_eq_true_eq, beq_iff_eq, Bool.not_eq_true', FMap.contains_eq_false] at h
    refine ⟨⟨h.1.1.1.1.1, h.1.1.1.1.2⟩, h.1.1.1.2, h.1.1.2, h.1.2, ?_⟩
    cases he : s.erc20Tokens.getEntry r.erc20LedgerId with
    | none => simp [he] at h
    | some x =>
      simp only [he, Option.map_some, Option.some.injEq] at h
      exact ⟨x.2, by rw [← h.2]⟩
  case createdTransaction i tx =>
    simp only [Bool.and_eq_true, decide_eq_true_eq, List.any_eq_true, beq_iff_eq] at h
    obtain ⟨⟨h1, h2⟩, r, h3, h4, h5⟩ := h
    split at h5
    case h_2 => simp at h5
    rename_i tx' h6
    simp only [beq_iff_eq] at h5; subst h5
    replace h5 := h6
    exact ⟨r, g, ⟨h1, h2⟩, h3, h4, h5⟩
  case signedTransaction i stx =>
    split at h
    · rename_i j c hc
      simp only [Bool.and_eq_true, beq_iff_eq] at h
      exact ⟨c, by rw [hc, h.1], h.2⟩
    · simp at h
  case replacedTransaction i tx =>
    simp only [Bool.and_eq_true, decide_eq_true_eq] at h
    obtain ⟨⟨h1, h2⟩, h⟩ := h
    split at h
    · rename_i j l hl
      simp only [Bool.and_eq_true, beq_iff_eq] at h
      obtain ⟨h3, h⟩ := h
      split at h
      · rename_i last hlast
        split at h
        case h_2 => simp at h
        rename_i tx' h6
        simp only [beq_iff_eq] at h; subst h
        replace h := h6
        exact ⟨l, last, g, ⟨h1, h2⟩, by rw [hl, h3], hlast, h⟩
      · simp at h
    · simp at h
  case reimbursedNativeWithdrawal q =>
    split at h
    · rename_i rr hr
      simp only [beq_iff_eq] at h
      exact ⟨_, rr, hr, h⟩
    · simp at h
  case reimbursedErc20Withdrawal n l q =>
    split at h
    · rename_i rr hr
      simp only [beq_iff_eq] at h
      exact ⟨_, rr, hr, h⟩
    · simp at h

/-- Run the events one by one with the given estimate, checking each. -/
def runCheck [Keccak] (g : GasFeeEstimate) (s : State) : List Event → Option State
  | [] => some s
  | e :: t =>
    if emitsCheck s g e then
      match applyEvent s e with
      | .ok s' => runCheck g s' t
      | .error _ => none
    else none

theorem runCheck_sound [Keccak] {g : GasFeeEstimate} {s s' : State} {l pre : List Event} (hr : Run pre s)
    (h : runCheck g s l = some s') : Run (pre ++ l) s' := by
  induction l generalizing s pre with
  | nil => simp only [runCheck, Option.some.injEq] at h; subst h; simpa using hr
  | cons e t ih =>
    simp only [runCheck] at h
    split at h
    · rename_i he
      split at h
      · rename_i s1 h1
        have := ih (.event pre s e s1 hr (emitsCheck_sound he) h1) h
        simpa using this
      · cases h
    · cases h

/-- The log after the `Init` event. -/
def logTail : List Event := log.tail

/-- The example log is an execution, ending in the replayed state. -/
theorem log_run : ∃ s, Run log s ∧ replay log = .ok s := by
  have h1 : (match State.ofInit initArg with
    | .ok s => match runCheck ⟨495, 10⟩ s (logTail.take 12) with
      | some s1 => match runCheck ⟨495, 11⟩ { s1 with lastScrapedBlockNumber := 150 } (logTail.drop 12) with
        | some s2 => match replay log with
          | .ok s3 => decide (s2 = s3)
          | .error _ => false
        | none => false
      | none => false
    | .error _ => false) = true := by decide +kernel
  split at h1
  · rename_i s hs
    split at h1
    · rename_i s1 hs1
      split at h1
      · rename_i s2 hs2
        split at h1
        · rename_i s3 hs3
          simp only [decide_eq_true_eq] at h1; subst h1
          refine ⟨s2, ?_, hs3⟩
          have r1 := runCheck_sound (Run.init initArg s hs) hs1
          have r2 := runCheck_sound (Run.scraped _ _ 150 r1) hs2
          exact r2
        · cases h1
      · cases h1
    · cases h1
  · cases h1

/-- The first `13 + k` events of the log run to a state that satisfies `p`. -/
def prefixCheck (k : Nat) (p : State → Bool) : Bool :=
  match State.ofInit initArg with
  | .ok s =>
    match runCheck ⟨495, 10⟩ s (logTail.take 12) with
    | some s1 =>
      match runCheck ⟨495, 11⟩ { s1 with lastScrapedBlockNumber := 150 } ((logTail.drop 12).take k) with
      | some s2 => p s2
      | none => false
    | none => false
  | .error _ => false

theorem prefix_run {k : Nat} {p : State → Bool} (h : prefixCheck k p = true) :
    ∃ s, Run (log.take 13 ++ (log.drop 13).take k) s ∧ p s = true := by
  unfold prefixCheck at h
  split at h
  · rename_i s hs
    split at h
    · rename_i s1 hs1
      split at h
      · rename_i s2 hs2
        have r1 := runCheck_sound (Run.init initArg s hs) hs1
        have r2 := runCheck_sound (Run.scraped _ _ 150 r1) hs2
        exact ⟨s2, r2, h⟩
      · cases h
    · cases h
  · cases h

/-- The first `1 + k` events of the log run, without scraping, to a state that satisfies `p`. -/
def startCheck (k : Nat) (p : State → Bool) : Bool :=
  match State.ofInit initArg with
  | .ok s =>
    match runCheck ⟨495, 10⟩ s (logTail.take k) with
    | some s1 => p s1
    | none => false
  | .error _ => false

theorem start_run {k : Nat} {p : State → Bool} (h : startCheck k p = true) :
    ∃ s, Run (log.take (k + 1)) s ∧ p s = true := by
  unfold startCheck at h
  split at h
  · rename_i s hs
    split at h
    · rename_i s1 hs1
      exact ⟨s1, runCheck_sound (Run.init initArg s hs) hs1, h⟩
    · cases h
  · cases h

end EvmMinter.Example
