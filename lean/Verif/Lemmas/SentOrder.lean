import Verif.Lemmas.SoundInv
/-!
# The order in which transactions were signed

The sent transactions of a nonce are exactly those that were signed with it, in the order of signing.
-/

namespace EvmMinter

open Spec Transactions

/-- The sent transactions follow the log, and a nonce that was signed with is sent or finalized. -/
structure SentOrder (log : List Event) (t : Transactions) : Prop where
  order : ∀ n i l, t.sent.Has n i l → l.map (·.transaction) = signedWith n log
  done : ∀ n, signedWith n log ≠ [] → (∃ i l, t.sent.Has n i l) ∨ ∃ i f, t.finalized.Has n i f

theorem signedWith_snoc (n : TransactionNonce) (log : List Event) (e : Event) :
    signedWith n (log ++ [e]) = signedWith n log ++ signedWith n [e] := by
  simp [signedWith, List.filterMap_append]

variable [Keccak]

theorem SentOrder.step {log : List Event} {t t' : Transactions} {e : Event} (h : t.TxInv) (S : SentOrder log t)
    (ht : txEvent t e = .ok t') : SentOrder (log ++ [e]) t' := by
  have same : (∀ j x, e ≠ .signedTransaction j x) → t'.sent = t.sent → t'.finalized = t.finalized → SentOrder (log ++ [e]) t' := by
    intro hne h1 h2
    have he : ∀ n, signedWith n (log ++ [e]) = signedWith n log := by
      intro n
      rw [signedWith_snoc]
      cases e <;> first | exact absurd rfl (hne _ _) | simp [signedWith]
    refine ⟨fun n i l hl => ?_, fun n hn => ?_⟩
    · rw [he]; rw [h1] at hl; exact S.order n i l hl
    · rw [he] at hn; rw [h1, h2]; exact S.done n hn
  cases e <;> simp only [txEvent] at ht
  case upgrade a =>
    simp only [Except.ok.injEq] at ht; subst ht
    have := withNonce_frame t a.nextTransactionNonce
    exact same (by simp) this.2.2.2.1 this.2.2.2.2.1
  case acceptedNativeWithdrawalRequest r =>
    have := (recordWithdrawalRequest_ok h.maps ht).1; subst this; exact same (by simp) rfl rfl
  case acceptedErc20WithdrawalRequest r =>
    have := (recordWithdrawalRequest_ok h.maps ht).1; subst this; exact same (by simp) rfl rfl
  case createdTransaction j tx =>
    obtain ⟨r, created, e1, _, e2, e3, e4, e5, e6, e7, e8, e9, rfl⟩ := recordCreatedTransaction_ok ht
    exact same (by simp) rfl rfl
  case replacedTransaction j tx =>
    obtain ⟨i', l, last, created₁, created, e1, e2, e3, ⟨o, e4⟩, e5, rfl⟩ := recordResubmitTransaction_ok ht
    exact same (by simp) rfl rfl
  case signedTransaction j stx =>
    obtain ⟨i', c, created, sent, e1, e2, ⟨o, e3⟩, e4, rfl⟩ := recordSignedTransaction_ok ht
    obtain ⟨old, hold, hsh⟩ := signed_sent h e1 e4
    have hnew : signedWith stx.tx.nonce [.signedTransaction j stx] = [stx] := by simp [signedWith]
    have hother : ∀ n, n ≠ stx.tx.nonce → signedWith n [.signedTransaction j stx] = [] := by
      intro n hn
      simp [signedWith, Ne.symm hn]
    have hpast : old.map (·.transaction) = signedWith stx.tx.nonce log := by
      rcases hold with ⟨rfl, hold⟩ | hold
      · by_cases hl : signedWith stx.tx.nonce log = []
        · rw [hl]; rfl
        · rcases S.done _ hl with ⟨i, l, h1⟩ | ⟨i, f, h1⟩
          · exact absurd h1 (hold _ _)
          · exact absurd rfl (h.cf _ _ _ _ _ _ e1 h1).1
      · exact S.order _ _ _ hold
    refine ⟨fun n i l hl => ?_, fun n hn => ?_⟩
    · rw [signedWith_snoc]
      rcases (hsh n i l).1 hl with ⟨rfl, rfl, rfl⟩ | ⟨hne, hl⟩
      · rw [hnew, List.map_append, hpast]; rfl
      · rw [hother n hne, List.append_nil]
        exact S.order n i l hl
    · by_cases hc : n = stx.tx.nonce
      · subst hc
        exact .inl ⟨i', _, (hsh _ _ _).2 (.inl ⟨rfl, rfl, rfl⟩)⟩
      · rw [signedWith_snoc, hother n hc, List.append_nil] at hn
        rcases S.done n hn with ⟨i, l, h1⟩ | h1
        · exact .inl ⟨i, l, (hsh _ _ _).2 (.inr ⟨hc, h1⟩)⟩
        · exact .inr h1
  case finalizedTransaction j receipt =>
    obtain ⟨m, l, stx, sent, created, finalized, r, e1, e2, e3, e4, e5, ⟨o, e6⟩, ⟨o', e7⟩, e8, ⟨_, e9⟩, e10, e11⟩ :=
      recordFinalizedTransaction_ok h.maps ht
    have hm : stx.transaction.tx.nonce = m := (h.sN _ _ _ e1).2.2 stx e2
    rw [hm] at e6 e7 e8
    have hsh := fun k a v => MKM.removeEntry_has h.sw e6 (k' := k) (a' := a) (v' := v)
    have hfh := fun k a v => MKM.tryInsert_has h.fw e8 (k' := k) (a' := a) (v' := v)
    have key : t'.sent = sent ∧ t'.finalized = finalized := by
      rcases e11 with ⟨_, rfl⟩ | ⟨_, _, _, _, rfl⟩ <;> exact ⟨rfl, rfl⟩
    have he : ∀ n, signedWith n (log ++ [.finalizedTransaction j receipt]) = signedWith n log := by
      intro n
      rw [signedWith_snoc]
      simp [signedWith]
    refine ⟨fun n i l hl => ?_, fun n hn => ?_⟩
    · rw [he]
      rw [key.1] at hl
      exact S.order n i l ((hsh _ _ _).1 hl).2
    · rw [he] at hn
      rw [key.1, key.2]
      by_cases hc : n = m
      · subst hc
        exact .inr ⟨_, _, (hfh _ _ _).2 (.inl ⟨rfl, rfl, rfl⟩)⟩
      · rcases S.done n hn with ⟨i, l, h1⟩ | ⟨i, f, h1⟩
        · exact .inl ⟨i, l, (hsh _ _ _).2 ⟨hc, h1⟩⟩
        · exact .inr ⟨i, f, (hfh _ _ _).2 (.inr h1)⟩
  case reimbursedNativeWithdrawal =>
    obtain ⟨_, _, _, rfl⟩ := recordFinalizedReimbursement_ok ht
    exact same (by simp) rfl rfl
  case reimbursedErc20Withdrawal =>
    obtain ⟨_, _, _, rfl⟩ := recordFinalizedReimbursement_ok ht
    exact same (by simp) rfl rfl
  case failedErc20WithdrawalRequest =>
    obtain ⟨_, _, _, rfl⟩ := recordReimbursementRequest_ok ht
    exact same (by simp) rfl rfl
  case quarantinedReimbursement =>
    simp only [Except.ok.injEq] at ht; subst ht; exact same (by simp) rfl rfl
  all_goals (simp only [Except.ok.injEq] at ht; subst ht; exact same (by simp) rfl rfl)

/-- In every live state the sent transactions of a nonce are those signed with it, in order. -/
theorem run_sentOrder {log : List Event} {s : State} (h : Run log s) (hn : NonceNeverLowered log) : SentOrder log s.txs := by
  obtain ⟨s₀, h1, h2, h3, h4⟩ := run_replay h
  have e : s.txs = s₀.txs.setP s.txs.pending := congrArg State.txs h4
  have S : SentOrder log s₀.txs := (tx_induct (P := SentOrder)
    (fun a n => ⟨fun n i l hl => absurd hl MKM.not_has_empty, fun n hn => absurd rfl hn⟩)
    (fun _ _ _ _ h _ _ S _ ht => SentOrder.step h S ht) h1 hn).2.2
  rw [e]
  exact ⟨S.order, S.done⟩

end EvmMinter
