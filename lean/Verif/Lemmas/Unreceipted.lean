import Verif.Lemmas.Account
/-!
# Withdrawals without a receipt

There is no reimbursement for them; and the native balance is a 256-bit number.
-/

namespace EvmMinter
open Spec Transactions

section
variable [Keccak]

/-! ## Reimbursements before a receipt -/

omit [Keccak] in
/-- Where a reimbursement comes from: a finalized withdrawal, or a burn without a request. -/
def Transactions.ReimbFrom (t : Transactions) (x : ReimbIndex) : Prop :=
  (∃ n i f r, t.finalized.Has n i f ∧ t.processed.get i = some r ∧ x = .ofRequest r) ∨
    ∃ i, x = .native i ∧ (∀ r ∈ t.pending, r.burnIndex ≠ i) ∧ t.processed.get i = none

omit [Keccak] in
def Transactions.ReimbSeen (t : Transactions) (x : ReimbIndex) : Prop :=
  t.reimbursementRequests.get x ≠ none ∨ t.reimbursed.get x ≠ none

omit [Keccak] in
theorem Transactions.ReimbFrom.mono {t t' : Transactions} {x : ReimbIndex} (h : t.ReimbFrom x)
    (h1 : ∀ n i f, t.finalized.Has n i f → t'.finalized.Has n i f) (h2 : t'.processed = t.processed)
    (h3 : ∀ r ∈ t'.pending, r ∈ t.pending) : t'.ReimbFrom x := by
  rcases h with ⟨n, i, f, r, k1, k2, k3⟩ | ⟨i, k1, k2, k3⟩
  · exact .inl ⟨n, i, f, r, h1 _ _ _ k1, h2 ▸ k2, k3⟩
  · exact .inr ⟨i, k1, fun r hr => k2 r (h3 r hr), h2 ▸ k3⟩

omit [Keccak] in
theorem request_reimbFrom {t t' : Transactions} {r : Request} (inv : t.TxInv) (ih : ∀ x, t.ReimbSeen x → t.ReimbFrom x)
    (hn : t.reimbursementRequests.get (.native r.burnIndex) = none ∧ t.reimbursed.get (.native r.burnIndex) = none)
    (ht : t.recordWithdrawalRequest r = .ok t') : ∀ x, t'.ReimbSeen x → t'.ReimbFrom x := by
  have := (recordWithdrawalRequest_ok inv.maps ht).1
  subst this
  intro x hx
  rcases ih x hx with h | ⟨i, rfl, k2, k3⟩
  · exact .inl h
  · refine .inr ⟨i, rfl, fun q hq => ?_, k3⟩
    rcases List.mem_append.1 hq with hq | hq
    · exact k2 q hq
    · rw [List.mem_singleton] at hq
      subst hq
      rintro rfl
      rcases hx with hx | hx
      · exact hx hn.1
      · exact hx hn.2

theorem reimbFrom_step {s : State} {t' : Transactions} {e : Event} (inv : s.txs.TxInv) (ih : ∀ x, s.txs.ReimbSeen x → s.txs.ReimbFrom x)
    (he : Emits s e) (ht : txEvent s.txs e = .ok t') : ∀ x, t'.ReimbSeen x → t'.ReimbFrom x := by
  have same : t'.finalized = s.txs.finalized → t'.processed = s.txs.processed → t'.pending = s.txs.pending →
      (∀ x, t'.ReimbSeen x → s.txs.ReimbSeen x) → ∀ x, t'.ReimbSeen x → t'.ReimbFrom x :=
    fun h1 h2 h3 h4 x hx => (ih x (h4 x hx)).mono (fun _ _ _ h => h1 ▸ h) h2 (fun _ h => h3 ▸ h)
  cases e <;> simp only [txEvent] at ht
  case upgrade a =>
    cases ht
    obtain ⟨k1, k2, k3, k4, k5, k6, k7, k8⟩ := withNonce_frame s.txs a.nextTransactionNonce
    exact same k5 k2 k1 (fun x hx => by unfold ReimbSeen at *; simpa only [k6, k7, k8] using hx)
  case acceptedNativeWithdrawalRequest r => exact request_reimbFrom (r := .native r) inv ih he.2.1 ht
  case acceptedErc20WithdrawalRequest r => exact request_reimbFrom (r := .erc20 r) inv ih he.1 ht
  case createdTransaction j tx =>
    obtain ⟨q, created, e1, _, e2, e3, e4, e5, e6, e7, e8, e9, rfl⟩ := recordCreatedTransaction_ok ht
    intro x hx
    rcases ih x hx with ⟨n, i, f, r, k1, k2, k3⟩ | ⟨i, rfl, k2, k3⟩
    · refine .inl ⟨n, i, f, r, k1, ?_, k3⟩
      simp only [FMap.get_insert]
      rw [if_neg]
      · exact k2
      · rintro rfl; rw [e7] at k2; cases k2
    · have hij : i ≠ j := by rintro rfl; exact k2 q e1 e2
      refine .inr ⟨i, rfl, fun r hr => k2 r ?_, ?_⟩
      · exact (mem_pendingWithout.1 hr).1
      · simp only [FMap.get_insert]
        rw [if_neg]
        · exact k3
        · first | exact hij | exact hij.symm
  case signedTransaction j stx =>
    obtain ⟨i', c, created, sent, e1, e2, ⟨o, e3⟩, e4, rfl⟩ := recordSignedTransaction_ok ht
    exact same rfl rfl rfl (fun _ h => h)
  case replacedTransaction j tx =>
    obtain ⟨i', l, last, created₁, created, e1, e2, e3, ⟨o, e4⟩, e5, rfl⟩ := recordResubmitTransaction_ok ht
    exact same rfl rfl rfl (fun _ h => h)
  case finalizedTransaction j receipt =>
    obtain ⟨m, l, stx, sent, created, finalized, r, e1, e2, e3, e4, e5, ⟨o, e6⟩, ⟨o', e7⟩, e8, ⟨_, e9⟩, e10, e11⟩ :=
      recordFinalizedTransaction_ok inv.maps ht
    have hh : ∀ n i f, s.txs.finalized.Has n i f → finalized.Has n i f := fun n i f hf => (MKM.tryInsert_has inv.fw e8).2 (.inr hf)
    rcases e11 with ⟨_, rfl⟩ | ⟨_, _, _, _, rfl⟩
    · exact fun x hx => (ih x hx).mono hh rfl fun _ h => h
    · intro x hx
      by_cases hxr : x = .ofRequest r
      · exact .inl ⟨_, j, _, r, (MKM.tryInsert_has inv.fw e8).2 (.inl ⟨rfl, rfl, rfl⟩), e10, hxr⟩
      · refine (ih x ?_).mono hh rfl fun _ h => h
        unfold ReimbSeen at *
        simp only [FMap.get_insert] at hx
        rw [if_neg (by first | exact hxr | exact Ne.symm hxr)] at hx
        exact hx
  case reimbursedNativeWithdrawal q =>
    obtain ⟨rr, h1, h2, rfl⟩ := recordFinalizedReimbursement_ok ht
    refine same rfl rfl rfl fun x hx => ?_
    by_cases hxr : x = .native q.burnInBlock
    · subst hxr; exact .inl (by rw [h1]; simp)
    · unfold ReimbSeen at *
      simpa [FMap.get_insert, FMap.get_erase, hxr, Ne.symm hxr] using hx
  case reimbursedErc20Withdrawal n l q =>
    obtain ⟨rr, h1, h2, rfl⟩ := recordFinalizedReimbursement_ok ht
    refine same rfl rfl rfl fun x hx => ?_
    by_cases hxr : x = .erc20 n l q.burnInBlock
    · subst hxr; exact .inl (by rw [h1]; simp)
    · unfold ReimbSeen at *
      simpa [FMap.get_insert, FMap.get_erase, hxr, Ne.symm hxr] using hx
  case failedErc20WithdrawalRequest r =>
    obtain ⟨_, h1, h2, rfl⟩ := recordReimbursementRequest_ok ht
    intro x hx
    by_cases hxr : x = .native r.ledgerBurnIndex
    · exact .inr ⟨_, hxr, he.1, he.2⟩
    · refine (ih x ?_).mono (fun _ _ _ h => h) rfl fun _ h => h
      unfold ReimbSeen at *
      simp only [FMap.get_insert] at hx
      rw [if_neg (by first | exact hxr | exact Ne.symm hxr)] at hx
      exact hx
  case quarantinedReimbursement y =>
    cases ht
    obtain ⟨rr, h1⟩ := he
    refine same rfl rfl rfl fun x hx => ?_
    by_cases hxr : x = y
    · subst hxr; exact .inl (by rw [h1]; simp)
    · unfold ReimbSeen recordQuarantinedReimbursement at *
      simpa [FMap.get_insert, FMap.get_erase, hxr, Ne.symm hxr] using hx
  all_goals (cases ht; exact ih)

theorem run_reimbFrom {log : List Event} {s : State} (h : Run log s) (hn : NonceNeverLowered log) :
    ∀ x, s.txs.ReimbSeen x → s.txs.ReimbFrom x := by
  induction h with
  | init a s h =>
    obtain ⟨_, _, _, _, _, _, _, h, _⟩ := ofInit_ok h
    rw [h]
    intro x hx
    rcases hx with hx | hx <;> exact absurd rfl hx
  | event log s e s' hr he ha ih =>
    have hn' := nonceNeverLowered_prefix hn
    exact reimbFrom_step (run_txInv hr hn').1 (ih hn') he (applyEvent_txs ha)
  | reschedule log s r t hr hm ht ih =>
    obtain ⟨h1, _⟩ := run_txInv hr hn
    obtain ⟨h5, h6⟩ := reschedule_ok h1.pend hm ht
    intro x hx
    rw [h5] at hx
    exact (ih hn x hx).mono (fun _ _ _ h => by rw [h5]; exact h) (by rw [h5]; rfl) fun r hr => h6.mem_iff.2 hr
  | scraped log s b hr ih => exact ih hn
  | restart log s s' hr hs ih =>
    obtain ⟨s₀, h1, h2, h3, h4⟩ := run_replay hr
    rw [hs, Except.ok.injEq] at h1; subst h1
    have ih := ih hn
    intro x hx
    rw [h4] at ih
    exact (ih x hx).mono (fun _ _ _ h => h) rfl fun r hr => h3.mem_iff.1 hr

/-- As long as a withdrawal has no receipt there is no reimbursement for it. -/
theorem run_not_reimbursed {log : List Event} {s : State} (h : Run log s) (hn : NonceNeverLowered log) {n : TransactionNonce}
    {i : LedgerBurnIndex} {l : List (Resubmittable SignedTx)} (hs : s.txs.sent.Has n i l) {r : Request} (hr : s.txs.processed.get i = some r) :
    s.txs.reimbursed.get (.ofRequest r) = none ∧ s.txs.reimbursementRequests.get (.ofRequest r) = none := by
  have inv := (run_txInv h hn).1
  have key : ¬ s.txs.ReimbFrom (.ofRequest r) := by
    have hi := inv.procIdx i r hr
    rintro (⟨n', i', f, r', k1, k2, k3⟩ | ⟨j, k1, k2, k3⟩)
    · have hi' := inv.procIdx i' r' k2
      have : i = i' := by
        rw [← hi, ← hi']
        cases r <;> cases r' <;> simp [ReimbIndex.ofRequest, Request.burnIndex] at k3 ⊢ <;> first | exact k3 | exact k3.1
      exact (inv.sf _ _ _ _ _ _ hs k1).2 this
    · have : j = i := by
        rw [← hi]
        cases r <;> simp [ReimbIndex.ofRequest, Request.burnIndex] at k1 ⊢
        exact k1.symm
      rw [this, hr] at k3; cases k3
  exact ⟨Classical.byContradiction fun hh => key (run_reimbFrom h hn _ (.inr hh)),
    Classical.byContradiction fun hh => key (run_reimbFrom h hn _ (.inl hh))⟩

/-! ## The native balance -/

theorem balance_lt {log : List Event} {s : State} (h : replay log = .ok s) : s.nativeBalance.balance < 2 ^ 256 := by
  refine replay_induct (P := fun _ s => s.nativeBalance.balance < 2 ^ 256) ?_ ?_ h
  · intro a s h
    obtain ⟨_, _, _, _, _, hn, _⟩ := ofInit_ok h
    rw [hn]; decide
  · intro log s e s' _ ih ha
    by_cases he : ∃ i r, e = .finalizedTransaction i r
    · obtain ⟨i, r, rfl⟩ := he
      obtain ⟨fin, _, _, _, _, _, _, _, _, h5, _⟩ := applyEvent_debit ha
      exact Nat.lt_of_le_of_lt (by rw [h5]; exact Nat.le_add_right _ _) ih
    · have := (applyEvent_credit ha fun i r hh => he ⟨i, r, hh⟩).1
      cases e
      case acceptedDeposit d =>
        simp only [applyEvent] at ha
        obtain ⟨_, _, _, _, h⟩ := recordEventToMint_ok ha
        rcases updateBalanceUponDeposit_ok h with ⟨x, b, hx, hb, rfl⟩ | ⟨x, b, hx, hb, rfl⟩
        · simp only [cadd_eq_some] at hb
          have : U256 = 2 ^ 256 := rfl
          have h2 := hb.2
          simp only
          womega
        · cases hx
      all_goals (rw [this]; exact ih)

theorem run_balance_lt {log : List Event} {s : State} (h : Run log s) : s.nativeBalance.balance < 2 ^ 256 := by
  obtain ⟨s₀, h1, _, _, h4⟩ := run_replay h
  have := balance_lt h1
  rw [h4]; exact this

end
end EvmMinter
