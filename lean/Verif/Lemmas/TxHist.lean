import Verif.Lemmas.TxInv
import Verif.Lemmas.Deposits
import Verif.Spec.Trace
/-!
# The pipeline and its history
-/

namespace EvmMinter

open Spec Transactions

theorem expectedNonce_snoc (log : List Event) (e : Event) : expectedNonce (log ++ [e]) = nonceAfter (expectedNonce log) e := by
  simp [expectedNonce, List.foldl_append]

theorem nonceNeverLowered_prefix {l₁ l₂ : List Event} (h : NonceNeverLowered (l₁ ++ l₂)) :
    NonceNeverLowered l₁ := by
  intro a u b n e hn
  exact h a u (b ++ l₂) n (by rw [e]; simp) hn

variable [Keccak]

theorem txEvent_nextNonce {t t' : Transactions} {e : Event} (h : txEvent t e = .ok t')
    (hi : ∀ a, e ≠ .init a) (w : t.MapsWF) : t'.nextNonce = nonceAfter t.nextNonce e := by
  cases e <;> simp only [txEvent] at h <;> simp only [nonceAfter]
  case init a => exact absurd rfl (hi a)
  case upgrade a =>
    simp only [Except.ok.injEq] at h; subst h
    cases a.nextTransactionNonce <;> rfl
  case acceptedNativeWithdrawalRequest r => rw [(recordWithdrawalRequest_ok w h).1]
  case acceptedErc20WithdrawalRequest r => rw [(recordWithdrawalRequest_ok w h).1]
  case createdTransaction =>
    obtain ⟨r, created, _, _, _, _, _, _, _, _, _, _, rfl⟩ := recordCreatedTransaction_ok h; rfl
  case signedTransaction => obtain ⟨_, _, _, _, _, _, _, _, rfl⟩ := recordSignedTransaction_ok h; rfl
  case replacedTransaction => obtain ⟨_, _, _, _, _, _, _, _, _, _, rfl⟩ := recordResubmitTransaction_ok h; rfl
  case finalizedTransaction =>
    obtain ⟨_, _, _, _, _, _, _, _, _, _, _, _, _, _, _, _, _, h⟩ := recordFinalizedTransaction_ok w h
    rcases h with ⟨_, rfl⟩ | ⟨_, _, _, _, rfl⟩ <;> rfl
  case reimbursedNativeWithdrawal => obtain ⟨_, _, _, rfl⟩ := recordFinalizedReimbursement_ok h; rfl
  case reimbursedErc20Withdrawal => obtain ⟨_, _, _, rfl⟩ := recordFinalizedReimbursement_ok h; rfl
  case failedErc20WithdrawalRequest => obtain ⟨_, _, _, rfl⟩ := recordReimbursementRequest_ok h; rfl
  case quarantinedReimbursement => simp only [Except.ok.injEq] at h; subst h; rfl
  all_goals (simp only [Except.ok.injEq] at h; subst h; rfl)

/-- Induction over accepted logs in which no upgrade lowers the nonce, carrying the pipeline invariant. -/
theorem tx_induct {P : List Event → Transactions → Prop}
    (hinit : ∀ a n, P [.init a] (Transactions.new n))
    (hstep : ∀ log t e t', t.TxInv → t'.TxInv → t.nextNonce = expectedNonce log → P log t → (∀ a, e ≠ .init a) →
      txEvent t e = .ok t' → P (log ++ [e]) t')
    {log : List Event} {s : State} (h : replay log = .ok s) (hn : NonceNeverLowered log) :
    s.txs.TxInv ∧ s.txs.nextNonce = expectedNonce log ∧ P log s.txs := by
  revert hn
  refine replay_induct (P := fun log s => NonceNeverLowered log → s.txs.TxInv ∧
    s.txs.nextNonce = expectedNonce log ∧ P log s.txs) ?_ ?_ h
  · intro a s hs _
    obtain ⟨_, _, _, _, _, _, _, ht, _⟩ := ofInit_ok hs
    rw [ht]
    exact ⟨txInv_new _, by simp [expectedNonce, nonceAfter, Transactions.new], hinit _ _⟩
  · intro log s e s' hr ih ha hn
    obtain ⟨i1, i2, i3⟩ := ih (nonceNeverLowered_prefix hn)
    have hne : ∀ a, e ≠ .init a := by rintro a rfl; simp [applyEvent] at ha
    have ht := applyEvent_txs ha
    have hok : s.txs.nonceOk e := by
      cases e <;> try trivial
      rename_i a
      intro n hn'
      rw [i2]
      exact hn log a [] n rfl hn'
    have inv := i1.event hok ht
    refine ⟨inv, ?_, hstep log s.txs e s'.txs i1 inv i2 i3 hne ht⟩
    rw [txEvent_nextNonce ht hne i1.maps, expectedNonce_snoc, i2]

theorem txInv_of_replay {log : List Event} {s : State} (h : replay log = .ok s) (hn : NonceNeverLowered log) :
    s.txs.TxInv ∧ s.txs.nextNonce = expectedNonce log :=
  have := tx_induct (P := fun _ _ => True) (fun _ _ => trivial) (fun _ _ _ _ _ _ _ _ _ _ => trivial) h hn
  ⟨this.1, this.2.1⟩

/-- Some transaction with nonce `n` and core fields `k` was made for withdrawal `i`. -/
def Core (t : Transactions) (n : TransactionNonce) (i : LedgerBurnIndex) (k : TxCore) : Prop :=
  (∃ c, t.created.Has n i c ∧ c.transaction.core = k) ∨
  (∃ l x, t.sent.Has n i l ∧ x ∈ l ∧ x.transaction.tx.core = k) ∨
  (∃ f, t.finalized.Has n i f ∧ f.signed.tx.core = k)

omit [Keccak] in
theorem Core.unique {t : Transactions} (h : t.TxInv) {n : TransactionNonce} {i i' : LedgerBurnIndex}
    {k k' : TxCore} (a : Core t n i k) (b : Core t n i' k') : i = i' ∧ k = k' := by
  rcases a with ⟨c, hc, rfl⟩ | ⟨l, x, hl, hx, rfl⟩ | ⟨f, hf, rfl⟩ <;>
  rcases b with ⟨c', hc', rfl⟩ | ⟨l', x', hl', hx', rfl⟩ | ⟨f', hf', rfl⟩
  · obtain ⟨rfl, rfl⟩ := MKM.Has.unique_key hc hc'; exact ⟨rfl, rfl⟩
  · have := (h.cs _ _ _ _ _ _ hc hl').1 rfl; subst this
    exact ⟨rfl, (h.cCore _ _ _ _ hc hl' _ hx').symm⟩
  · exact absurd rfl (h.cf _ _ _ _ _ _ hc hf').1
  · have := (h.cs _ _ _ _ _ _ hc' hl).1 rfl; subst this
    exact ⟨rfl, h.cCore _ _ _ _ hc' hl _ hx⟩
  · obtain ⟨rfl, rfl⟩ := MKM.Has.unique_key hl hl'; exact ⟨rfl, h.sCore _ _ _ hl _ hx _ hx'⟩
  · exact absurd rfl (h.sf _ _ _ _ _ _ hl hf').1
  · exact absurd rfl (h.cf _ _ _ _ _ _ hc' hf).1
  · exact absurd rfl (h.sf _ _ _ _ _ _ hl' hf).1
  · obtain ⟨rfl, rfl⟩ := MKM.Has.unique_key hf hf'; exact ⟨rfl, rfl⟩

omit [Keccak] in
theorem Core.unique_nonce {t : Transactions} (h : t.TxInv) {n n' : TransactionNonce} {i : LedgerBurnIndex}
    {k k' : TxCore} (a : Core t n i k) (b : Core t n' i k') : n = n' := by
  rcases a with ⟨c, hc, rfl⟩ | ⟨l, x, hl, hx, rfl⟩ | ⟨f, hf, rfl⟩ <;>
  rcases b with ⟨c', hc', rfl⟩ | ⟨l', x', hl', hx', rfl⟩ | ⟨f', hf', rfl⟩
  · exact (MKM.Has.unique_alt h.cw hc hc').1
  · exact (h.cs _ _ _ _ _ _ hc hl').2 rfl
  · exact absurd rfl (h.cf _ _ _ _ _ _ hc hf').2
  · exact ((h.cs _ _ _ _ _ _ hc' hl).2 rfl).symm
  · exact (MKM.Has.unique_alt h.sw hl hl').1
  · exact absurd rfl (h.sf _ _ _ _ _ _ hl hf').2
  · exact absurd rfl (h.cf _ _ _ _ _ _ hc' hf).2
  · exact absurd rfl (h.sf _ _ _ _ _ _ hl' hf).2
  · exact (MKM.Has.unique_alt h.fw hf hf').1

omit [Keccak] in
theorem Core.processed {t : Transactions} (h : t.TxInv) {n : TransactionNonce} {i : LedgerBurnIndex}
    {k : TxCore} (a : Core t n i k) : n < t.nextNonce ∧ k.nonce = n ∧
    ∃ r, t.processed.get i = some r ∧ r.destination = k.destination := by
  rcases a with ⟨c, hc, rfl⟩ | ⟨l, x, hl, hx, rfl⟩ | ⟨f, hf, rfl⟩
  · obtain ⟨r, h1, _, h2⟩ := h.cProc _ _ _ hc
    exact ⟨(h.cN _ _ _ hc).1, (h.cN _ _ _ hc).2, r, h1, h2⟩
  · obtain ⟨r, h1, h2⟩ := h.sProc _ _ _ hl
    exact ⟨(h.sN _ _ _ hl).1, (h.sN _ _ _ hl).2.2 x hx, r, h1, (h2 x hx).2⟩
  · obtain ⟨r, h1, h2⟩ := h.fProc _ _ _ hf
    exact ⟨(h.fN _ _ _ hf).1, (h.fN _ _ _ hf).2, r, h1, h2⟩

omit [Keccak] in
theorem Core.of_processed {t : Transactions} (h : t.TxInv) {i : LedgerBurnIndex} {r : Request}
    (hr : t.processed.get i = some r) : ∃ n k, Core t n i k := by
  rcases h.procIn i r hr with ⟨n, c, hc⟩ | ⟨n, l, hl⟩ | ⟨n, f, hf⟩
  · exact ⟨n, _, .inl ⟨c, hc, rfl⟩⟩
  · obtain ⟨x, hx⟩ := List.exists_mem_of_ne_nil _ (h.sN _ _ _ hl).2.1
    exact ⟨n, _, .inr (.inl ⟨l, x, hl, hx, rfl⟩)⟩
  · exact ⟨n, _, .inr (.inr ⟨f, hf, rfl⟩)⟩

end EvmMinter
