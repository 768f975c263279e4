import Verif.Lemmas.TxHist
/-!
# What the pipeline remembers of the history
-/

namespace EvmMinter

open Spec Transactions

variable [Keccak]

omit [Keccak] in
theorem withNonce_frame (t : Transactions) (o : Option Nat) :
    (withNonce t o).pending = t.pending ∧ (withNonce t o).processed = t.processed ∧
    (withNonce t o).created = t.created ∧ (withNonce t o).sent = t.sent ∧
    (withNonce t o).finalized = t.finalized ∧ (withNonce t o).maybeReimburse = t.maybeReimburse ∧
    (withNonce t o).reimbursementRequests = t.reimbursementRequests ∧
    (withNonce t o).reimbursed = t.reimbursed := by
  cases o <;> exact ⟨rfl, rfl, rfl, rfl, rfl, rfl, rfl, rfl⟩

omit [Keccak] in
/-- The sent map after signing. -/
theorem signed_sent {t : Transactions} (h : t.TxInv) {stx : SignedTx} {i : LedgerBurnIndex}
    {c : Resubmittable Tx} {sent : MKM TransactionNonce LedgerBurnIndex (List (Resubmittable SignedTx))}
    (e1 : t.created.Has stx.tx.nonce i c)
    (e4 : (∃ i' l, t.sent.Has stx.tx.nonce i' l ∧
          sent = { t.sent with byAlt := t.sent.byAlt.insert i' (l ++ [⟨stx, c.resubmission⟩]) }) ∨
        ((∀ i' l, ¬ t.sent.Has stx.tx.nonce i' l) ∧
          t.sent.tryInsert stx.tx.nonce i [⟨stx, c.resubmission⟩] = .ok sent)) :
    ∃ old : List (Resubmittable SignedTx),
      (old = [] ∧ (∀ i' l, ¬ t.sent.Has stx.tx.nonce i' l) ∨ t.sent.Has stx.tx.nonce i old) ∧
      ∀ n j l, sent.Has n j l ↔ (n = stx.tx.nonce ∧ j = i ∧ l = old ++ [⟨stx, c.resubmission⟩]) ∨
        (n ≠ stx.tx.nonce ∧ t.sent.Has n j l) := by
  rcases e4 with ⟨i', l, hl, rfl⟩ | ⟨hn, hi⟩
  · have : i = i' := (h.cs _ _ _ _ _ _ e1 hl).1 rfl
    subst this
    refine ⟨l, .inr hl, ?_⟩
    intro n j l'
    rw [MKM.update_has h.sw hl]
  · refine ⟨[], .inl ⟨rfl, hn⟩, ?_⟩
    intro n j l
    rw [MKM.tryInsert_has h.sw hi]
    constructor
    · rintro (h | h)
      · exact .inl h
      · refine .inr ⟨?_, h⟩
        rintro rfl; exact hn _ _ h
    · rintro (h | h)
      · exact .inl h
      · exact .inr h.2

/-- Transactions with their nonces are never forgotten, and only creation adds new ones. -/
theorem core_step {t t' : Transactions} {e : Event} (h : t.TxInv) (ht : txEvent t e = .ok t')
    (n : TransactionNonce) (i : LedgerBurnIndex) (k : TxCore) :
    Core t' n i k ↔ Core t n i k ∨ (∃ tx, e = .createdTransaction i tx ∧ tx.nonce = n ∧ tx.core = k) := by
  have trivialCase : (∀ i tx, e ≠ .createdTransaction i tx) → t'.created = t.created → t'.sent = t.sent →
      t'.finalized = t.finalized →
      (Core t' n i k ↔ Core t n i k ∨ (∃ tx, e = .createdTransaction i tx ∧ tx.nonce = n ∧ tx.core = k)) := by
    intro hne h1 h2 h3
    have : ¬ (∃ tx, e = .createdTransaction i tx ∧ tx.nonce = n ∧ tx.core = k) := by
      rintro ⟨tx, he, _⟩; exact hne _ _ he
    simp only [Core, h1, h2, h3, this, or_false]
  cases e <;> simp only [txEvent] at ht
  case upgrade a =>
    simp only [Except.ok.injEq] at ht; subst ht
    have := withNonce_frame t a.nextTransactionNonce
    exact trivialCase (by simp) this.2.2.1 this.2.2.2.1 this.2.2.2.2.1
  case acceptedNativeWithdrawalRequest r =>
    have := (recordWithdrawalRequest_ok h.maps ht).1; subst this; exact trivialCase (by simp) rfl rfl rfl
  case acceptedErc20WithdrawalRequest r =>
    have := (recordWithdrawalRequest_ok h.maps ht).1; subst this; exact trivialCase (by simp) rfl rfl rfl
  case createdTransaction j tx =>
    obtain ⟨r, created, e1, _, e2, e3, e4, e5, e6, e7, e8, e9, rfl⟩ := recordCreatedTransaction_ok ht
    have hch := fun k a v => MKM.tryInsert_has h.cw e9 (k' := k) (a' := a) (v' := v)
    constructor
    · rintro (⟨c, hc, rfl⟩ | hs | hf)
      · rcases (hch _ _ _).1 hc with ⟨rfl, rfl, rfl⟩ | hc
        · exact .inr ⟨tx, rfl, rfl, rfl⟩
        · exact .inl (.inl ⟨c, hc, rfl⟩)
      · exact .inl (.inr (.inl hs))
      · exact .inl (.inr (.inr hf))
    · rintro ((⟨c, hc, rfl⟩ | hs | hf) | ⟨tx', he, rfl, rfl⟩)
      · exact .inl ⟨c, (hch _ _ _).2 (.inr hc), rfl⟩
      · exact .inr (.inl hs)
      · exact .inr (.inr hf)
      · simp only [Event.createdTransaction.injEq] at he
        obtain ⟨rfl, rfl⟩ := he
        exact .inl ⟨_, (hch _ _ _).2 (.inl ⟨rfl, rfl, rfl⟩), rfl⟩
  case signedTransaction j stx =>
    obtain ⟨i', c, created, sent, e1, e2, ⟨o, e3⟩, e4, rfl⟩ := recordSignedTransaction_ok ht
    obtain ⟨old, hold, hsh⟩ := signed_sent h e1 e4
    have hch := fun k a v => MKM.removeEntry_has h.cw e3 (k' := k) (a' := a) (v' := v)
    simp only [reduceCtorEq, false_and, exists_false, or_false]
    constructor
    · rintro (⟨c', hc, rfl⟩ | ⟨l, x, hl, hx, rfl⟩ | hf)
      · exact .inl ⟨c', ((hch _ _ _).1 hc).2, rfl⟩
      · rcases (hsh _ _ _).1 hl with ⟨rfl, rfl, rfl⟩ | ⟨_, hl⟩
        · simp only [List.mem_append, List.mem_singleton] at hx
          rcases hx with hx | rfl
          · rcases hold with ⟨rfl, _⟩ | hold
            · cases hx
            · exact .inr (.inl ⟨_, x, hold, hx, rfl⟩)
          · exact .inl ⟨c, e1, by rw [e2]⟩
        · exact .inr (.inl ⟨l, x, hl, hx, rfl⟩)
      · exact .inr (.inr hf)
    · rintro (⟨c', hc, rfl⟩ | ⟨l, x, hl, hx, rfl⟩ | hf)
      · by_cases hn : n = stx.tx.nonce
        · subst hn
          obtain ⟨rfl, rfl⟩ := MKM.Has.unique_key e1 hc
          refine .inr (.inl ⟨_, ⟨stx, c.resubmission⟩, (hsh _ _ _).2 (.inl ⟨rfl, rfl, rfl⟩), by simp, by rw [e2]⟩)
        · exact .inl ⟨c', (hch _ _ _).2 ⟨hn, hc⟩, rfl⟩
      · by_cases hn : n = stx.tx.nonce
        · subst hn
          have : i' = i := (h.cs _ _ _ _ _ _ e1 hl).1 rfl
          subst this
          rcases hold with ⟨rfl, hold⟩ | hold
          · exact absurd hl (hold _ _)
          · obtain ⟨_, rfl⟩ := MKM.Has.unique_key hl hold
            exact .inr (.inl ⟨_, x, (hsh _ _ _).2 (.inl ⟨rfl, rfl, rfl⟩), by simp [hx], rfl⟩)
        · exact .inr (.inl ⟨l, x, (hsh _ _ _).2 (.inr ⟨hn, hl⟩), hx, rfl⟩)
      · exact .inr (.inr hf)
  case replacedTransaction j tx =>
    obtain ⟨i', l, last, created₁, created, e1, e2, e3, ⟨o, e4⟩, e5, rfl⟩ := recordResubmitTransaction_ok ht
    have hcw1 := MKM.removeEntry_wf h.cw e4
    have hlast : last ∈ l := List.mem_of_getLast? e2
    have hch : ∀ n j c, created.Has n j c ↔ (n = tx.nonce ∧ j = i' ∧ c = ⟨tx, last.resubmission⟩) ∨
        (n ≠ tx.nonce ∧ t.created.Has n j c) := by
      intro n j c
      rw [MKM.tryInsert_has hcw1 e5, MKM.removeEntry_has h.cw e4]
    simp only [reduceCtorEq, false_and, exists_false, or_false]
    constructor
    · rintro (⟨c', hc, rfl⟩ | hs | hf)
      · rcases (hch _ _ _).1 hc with ⟨rfl, rfl, rfl⟩ | ⟨_, hc⟩
        · exact .inr (.inl ⟨l, last, e1, hlast, e3⟩)
        · exact .inl ⟨c', hc, rfl⟩
      · exact .inr (.inl hs)
      · exact .inr (.inr hf)
    · rintro (⟨c', hc, rfl⟩ | hs | hf)
      · by_cases hn : n = tx.nonce
        · subst hn
          have : i = i' := (h.cs _ _ _ _ _ _ hc e1).1 rfl
          subst this
          refine .inl ⟨_, (hch _ _ _).2 (.inl ⟨rfl, rfl, rfl⟩), ?_⟩
          show tx.core = _
          rw [← e3, h.cCore _ _ _ _ hc e1 last hlast]
        · exact .inl ⟨c', (hch _ _ _).2 (.inr ⟨hn, hc⟩), rfl⟩
      · exact .inr (.inl hs)
      · exact .inr (.inr hf)
  case finalizedTransaction j receipt =>
    obtain ⟨m, l, stx, sent, created, finalized, r, e1, e2, e3, e4, e5, ⟨o, e6⟩, ⟨o', e7⟩, e8, ⟨_, e9⟩, e10, e11⟩ :=
      recordFinalizedTransaction_ok h.maps ht
    have hn : stx.transaction.tx.nonce = m := (h.sN _ _ _ e1).2.2 stx e2
    rw [hn] at e6 e7 e8
    have hch := fun k a v => MKM.removeEntry_has h.cw e7 (k' := k) (a' := a) (v' := v)
    have hsh := fun k a v => MKM.removeEntry_has h.sw e6 (k' := k) (a' := a) (v' := v)
    have hfh := fun k a v => MKM.tryInsert_has h.fw e8 (k' := k) (a' := a) (v' := v)
    have key : t'.created = created ∧ t'.sent = sent ∧ t'.finalized = finalized := by
      rcases e11 with ⟨_, rfl⟩ | ⟨_, _, _, _, rfl⟩ <;> exact ⟨rfl, rfl, rfl⟩
    simp only [reduceCtorEq, false_and, exists_false, or_false, Core, key]
    constructor
    · rintro (⟨c', hc, rfl⟩ | ⟨l', x, hl, hx, rfl⟩ | ⟨f, hf, rfl⟩)
      · exact .inl ⟨c', ((hch _ _ _).1 hc).2, rfl⟩
      · exact .inr (.inl ⟨l', x, ((hsh _ _ _).1 hl).2, hx, rfl⟩)
      · rcases (hfh _ _ _).1 hf with ⟨rfl, rfl, rfl⟩ | hf
        · exact .inr (.inl ⟨l, stx, e1, e2, rfl⟩)
        · exact .inr (.inr ⟨f, hf, rfl⟩)
    · rintro (⟨c', hc, rfl⟩ | ⟨l', x, hl, hx, rfl⟩ | ⟨f, hf, rfl⟩)
      · by_cases hm : n = m
        · subst hm
          have : i = j := (h.cs _ _ _ _ _ _ hc e1).1 rfl
          subst this
          refine .inr (.inr ⟨_, (hfh _ _ _).2 (.inl ⟨rfl, rfl, rfl⟩), ?_⟩)
          exact h.cCore _ _ _ _ hc e1 stx e2
        · exact .inl ⟨c', (hch _ _ _).2 ⟨hm, hc⟩, rfl⟩
      · by_cases hm : n = m
        · subst hm
          obtain ⟨rfl, rfl⟩ := MKM.Has.unique_key hl e1
          refine .inr (.inr ⟨_, (hfh _ _ _).2 (.inl ⟨rfl, rfl, rfl⟩), ?_⟩)
          exact h.sCore _ _ _ hl stx e2 x hx
        · exact .inr (.inl ⟨l', x, (hsh _ _ _).2 ⟨hm, hl⟩, hx, rfl⟩)
      · exact .inr (.inr ⟨f, (hfh _ _ _).2 (.inr hf), rfl⟩)
  case reimbursedNativeWithdrawal =>
    obtain ⟨_, _, _, rfl⟩ := recordFinalizedReimbursement_ok ht; exact trivialCase (by simp) rfl rfl rfl
  case reimbursedErc20Withdrawal =>
    obtain ⟨_, _, _, rfl⟩ := recordFinalizedReimbursement_ok ht; exact trivialCase (by simp) rfl rfl rfl
  case failedErc20WithdrawalRequest =>
    obtain ⟨_, _, _, rfl⟩ := recordReimbursementRequest_ok ht; exact trivialCase (by simp) rfl rfl rfl
  case quarantinedReimbursement =>
    simp only [Except.ok.injEq] at ht; subst ht; exact trivialCase (by simp) rfl rfl rfl
  all_goals (simp only [Except.ok.injEq] at ht; subst ht; exact trivialCase (by simp) rfl rfl rfl)

/-- Pending and processed requests: only acceptance adds, and nothing is lost. -/
theorem request_step {t t' : Transactions} {e : Event} (h : t.TxInv) (ht : txEvent t e = .ok t')
    (r : Request) :
    (r ∈ t'.pending ∨ t'.processed.get r.burnIndex = some r) ↔
      (r ∈ t.pending ∨ t.processed.get r.burnIndex = some r) ∨ e = r.intoEvent := by
  have trivialCase : e ≠ r.intoEvent → t'.pending = t.pending → t'.processed = t.processed →
      ((r ∈ t'.pending ∨ t'.processed.get r.burnIndex = some r) ↔
      (r ∈ t.pending ∨ t.processed.get r.burnIndex = some r) ∨ e = r.intoEvent) := by
    intro hne h1 h2
    rw [h1, h2]
    simp [hne]
  have ne : ∀ e', (∀ q, e' ≠ .acceptedNativeWithdrawalRequest q) → (∀ q, e' ≠ .acceptedErc20WithdrawalRequest q) →
      e' ≠ r.intoEvent := by
    intro e' h1 h2; cases r
    · exact h1 _
    · exact h2 _
  have acc : ∀ q : Request, t.recordWithdrawalRequest q = .ok t' →
      ((r ∈ t'.pending ∨ t'.processed.get r.burnIndex = some r) ↔
      (r ∈ t.pending ∨ t.processed.get r.burnIndex = some r) ∨ q = r) := by
    intro q hq
    obtain ⟨rfl, _⟩ := recordWithdrawalRequest_ok h.maps hq
    simp only [List.mem_append, List.mem_singleton]
    constructor
    · rintro ((h | h) | h)
      · exact .inl (.inl h)
      · exact .inr h.symm
      · exact .inl (.inr h)
    · rintro ((h | h) | h)
      · exact .inl (.inl h)
      · exact .inr h
      · exact .inl (.inr h.symm)
  cases e <;> simp only [txEvent] at ht
  case upgrade a =>
    simp only [Except.ok.injEq] at ht; subst ht
    have := withNonce_frame t a.nextTransactionNonce
    exact trivialCase (ne _ (by simp) (by simp)) this.1 this.2.1
  case acceptedNativeWithdrawalRequest q =>
    rw [acc _ ht]
    cases r <;> simp [Request.intoEvent]
  case acceptedErc20WithdrawalRequest q =>
    rw [acc _ ht]
    cases r <;> simp [Request.intoEvent]
  case createdTransaction j tx =>
    obtain ⟨q, created, e1, _, e2, e3, e4, e5, e6, e7, e8, e9, rfl⟩ := recordCreatedTransaction_ok ht
    have := ne (.createdTransaction j tx) (by simp) (by simp)
    simp only [mem_pendingWithout, FMap.get_insert, this, or_false]
    constructor
    · rintro (⟨hr, _⟩ | hr)
      · exact .inl hr
      · split at hr
        · simp only [Option.some.injEq] at hr; subst hr; exact .inl e1
        · exact .inr hr
    · rintro (hr | hr)
      · by_cases hq : r = q
        · right; subst hq; simp [e2]
        · exact .inl ⟨hr, hq⟩
      · right
        split
        · rename_i hj; rw [hj, e7] at hr; cases hr
        · exact hr
  case signedTransaction j stx =>
    obtain ⟨i', c, created, sent, e1, e2, ⟨o, e3⟩, e4, rfl⟩ := recordSignedTransaction_ok ht
    exact trivialCase (ne _ (by simp) (by simp)) rfl rfl
  case replacedTransaction j tx =>
    obtain ⟨i', l, last, created₁, created, e1, e2, e3, ⟨o, e4⟩, e5, rfl⟩ := recordResubmitTransaction_ok ht
    exact trivialCase (ne _ (by simp) (by simp)) rfl rfl
  case finalizedTransaction j receipt =>
    obtain ⟨m, l, stx, sent, created, finalized, r, e1, e2, e3, e4, e5, ⟨o, e6⟩, ⟨o', e7⟩, e8, ⟨_, e9⟩, e10, e11⟩ :=
      recordFinalizedTransaction_ok h.maps ht
    rcases e11 with ⟨_, rfl⟩ | ⟨_, _, _, _, rfl⟩ <;> exact trivialCase (ne _ (by simp) (by simp)) rfl rfl
  case reimbursedNativeWithdrawal =>
    obtain ⟨_, _, _, rfl⟩ := recordFinalizedReimbursement_ok ht
    exact trivialCase (ne _ (by simp) (by simp)) rfl rfl
  case reimbursedErc20Withdrawal =>
    obtain ⟨_, _, _, rfl⟩ := recordFinalizedReimbursement_ok ht
    exact trivialCase (ne _ (by simp) (by simp)) rfl rfl
  case failedErc20WithdrawalRequest =>
    obtain ⟨_, _, _, rfl⟩ := recordReimbursementRequest_ok ht
    exact trivialCase (ne _ (by simp) (by simp)) rfl rfl
  case quarantinedReimbursement =>
    simp only [Except.ok.injEq] at ht; subst ht; exact trivialCase (ne _ (by simp) (by simp)) rfl rfl
  all_goals (simp only [Except.ok.injEq] at ht; subst ht; exact trivialCase (ne _ (by simp) (by simp)) rfl rfl)

/-- A recorded transaction is one the pipeline knows. -/
theorem recorded_core {t t' : Transactions} {e : Event} (h' : t'.TxInv) (h : t.TxInv) (ht : txEvent t e = .ok t')
    {tx : Tx} (hr : recordedTx e = some tx) : ∃ i, Core t' tx.nonce i tx.core := by
  cases e <;> simp only [recordedTx, reduceCtorEq, Option.some.injEq] at hr
  case createdTransaction j x =>
    subst hr
    exact ⟨j, (core_step h ht _ _ _).2 (.inr ⟨x, rfl, rfl, rfl⟩)⟩
  case signedTransaction j stx =>
    subst hr
    have ht0 := ht
    simp only [txEvent] at ht
    obtain ⟨i', c, created, sent, e1, e2, ⟨o, e3⟩, e4, rfl⟩ := recordSignedTransaction_ok ht
    exact ⟨i', (core_step h ht0 _ _ _).2 (.inl (.inl ⟨c, e1, by rw [e2]⟩))⟩
  case replacedTransaction j x =>
    subst hr
    have ht0 := ht
    simp only [txEvent] at ht
    obtain ⟨i', l, last, created₁, created, e1, e2, e3, ⟨o, e4⟩, e5, rfl⟩ := recordResubmitTransaction_ok ht
    exact ⟨i', (core_step h ht0 _ _ _).2 (.inl (.inr (.inl ⟨l, last, e1, List.mem_of_getLast? e2, e3⟩)))⟩

end EvmMinter
