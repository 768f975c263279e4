import Verif.Props.C15
import Verif.Spec.Raised
import Mathlib.Data.List.Chain
/-!
# The fees of the versions of a transaction

The transactions signed with one nonce pay more and more.
-/

namespace EvmMinter

open Spec Transactions

variable [Keccak]

/-- What is to be signed pays more than what was last signed with its nonce, and so on back to the first. -/
structure Rising (log : List Event) (t : Transactions) : Prop where
  created : ∀ n i c, t.created.Has n i c → signedWith n log = [] ∨
    ∃ last, (signedWith n log).getLast? = some last ∧ Raised last.tx c.transaction
  chain : ∀ n, (signedWith n log).IsChain fun x y => Raised x.tx y.tx

omit [Keccak] in
theorem resubmit_raises {t : Resubmittable SignedTx} {g : GasFeeEstimate} {tx : Tx} (hg : g.Bounded)
    (hb : t.transaction.tx.maxPriorityFeePerGas < 2 ^ 256) (h : t.resubmit g = .ok (.replaced tx)) : Raised t.transaction.tx tx := by
  obtain ⟨p, rfl, hne, hle, htx, _, _⟩ := resubmit_replaced h
  have hpr := C17_resubmit_price t.transaction.tx.price g hb
  have hneg : ¬ _ := fun hc => hne (hpr.1 hc)
  obtain ⟨h1, h2, h3, _, h5⟩ := hpr.2 hneg
  have hprio : (t.transaction.tx.price.resubmit g).maxPriorityFeePerGas < 2 ^ 256 := by
    rw [(resubmit_price hne).2.1]
    have : plus10Percent t.transaction.tx.price.maxPriorityFeePerGas < 2 ^ 256 := plus10_lt
    have : g.maxPriorityFeePerGas < 2 ^ 256 := hg.2
    womega
  have e1 : tx.maxPriorityFeePerGas = (t.transaction.tx.price.resubmit g).maxPriorityFeePerGas := by rw [htx]
  have e2 : tx.maxFeePerGas = (t.transaction.tx.price.resubmit g).maxFeePerGas := by rw [htx]
  have e3 : t.transaction.tx.price.maxPriorityFeePerGas = t.transaction.tx.maxPriorityFeePerGas := rfl
  have e4 : t.transaction.tx.price.maxFeePerGas = t.transaction.tx.maxFeePerGas := rfl
  have hle : t.transaction.tx.maxPriorityFeePerGas ≤ tx.maxPriorityFeePerGas := by
    rw [e1]
    rcases h1 with h1 | h1 <;> womega
  have hf : t.transaction.tx.maxFeePerGas ≤ tx.maxFeePerGas := by rw [e2]; exact h3
  refine ⟨hle, hf, ?_, ?_⟩
  · by_cases hc : tx.maxPriorityFeePerGas = t.transaction.tx.maxPriorityFeePerGas ∧ tx.maxFeePerGas = t.transaction.tx.maxFeePerGas
    · refine absurd ?_ hne
      have : ∀ a b : TxPrice, a.gasLimit = b.gasLimit → a.maxFeePerGas = b.maxFeePerGas →
        a.maxPriorityFeePerGas = b.maxPriorityFeePerGas → a = b := by
        rintro ⟨⟩ ⟨⟩ h h' h''
        cases h; cases h'; cases h''; rfl
      exact this _ _ h5 (by rw [← e2, hc.2, e4]) (by rw [← e1, hc.1, e3])
    · womega
  · rw [e1]
    rcases h1 with h1 | h1
    · exact .inl h1
    · exact .inr (by womega)

theorem Rising.step {log : List Event} {s s' : State} {e : Event} (hr : Run log s) (hn : NonceNeverLowered log)
    (he : Emits s e) (ha : applyEvent s e = .ok s') (S : Rising log s.txs) : Rising (log ++ [e]) s'.txs := by
  obtain ⟨inv, tl, _⟩ := run_txInv hr hn
  have so := run_sentOrder hr hn
  have hs := run_sound hr hn
  have ht := applyEvent_txs ha
  generalize s'.txs = t' at ht
  have keep : (∀ j x, e ≠ .signedTransaction j x) →
      (∀ n i c, t'.created.Has n i c → s.txs.created.Has n i c ∨ signedWith n log = [] ∨
        ∃ last, (signedWith n log).getLast? = some last ∧ Raised last.tx c.transaction) → Rising (log ++ [e]) t' := by
    intro hne h1
    have he : ∀ n, signedWith n (log ++ [e]) = signedWith n log := by
      intro n
      rw [signedWith_snoc]
      cases e <;> first | exact absurd rfl (hne _ _) | simp [signedWith]
    refine ⟨fun n i c hc => ?_, fun n => ?_⟩
    · rw [he]
      rcases h1 n i c hc with h | h
      · exact S.created n i c h
      · exact h
    · rw [he]; exact S.chain n
  have same : (∀ j x, e ≠ .signedTransaction j x) → t'.created = s.txs.created → Rising (log ++ [e]) t' := by
    intro hne h1
    exact keep hne fun n i c hc => .inl (by rw [h1] at hc; exact hc)
  cases e <;> simp only [txEvent] at ht
  case upgrade a =>
    simp only [Except.ok.injEq] at ht; subst ht
    have := withNonce_frame s.txs a.nextTransactionNonce
    exact same (by simp) this.2.2.1
  case acceptedNativeWithdrawalRequest r =>
    have := (recordWithdrawalRequest_ok inv.maps ht).1; subst this; exact same (by simp) rfl
  case acceptedErc20WithdrawalRequest r =>
    have := (recordWithdrawalRequest_ok inv.maps ht).1; subst this; exact same (by simp) rfl
  case createdTransaction j tx =>
    obtain ⟨r, created, e1, _, e2, e3, e4, e5, e6, e7, e8, e9, rfl⟩ := recordCreatedTransaction_ok ht
    refine keep (by simp) fun n i c hc => ?_
    rcases (MKM.tryInsert_has inv.cw e9).1 hc with ⟨rfl, rfl, rfl⟩ | hc
    · refine .inr (.inl ?_)
      by_cases hl : signedWith tx.nonce log = []
      · exact hl
      · have fresh : ∀ i k, ¬ Core s.txs tx.nonce i k := by
          intro i k hk
          obtain ⟨tx', h1, h2, _⟩ := tl.core3 _ _ _ hk
          have := tl.nonces.2 tx'.nonce (mem_createdNonces.2 ⟨_, _, h1, rfl⟩)
          rw [h2, e5] at this
          exact absurd this (Nat.lt_irrefl _)
        rcases so.done _ hl with ⟨i, l, h1⟩ | ⟨i, f, h1⟩
        · obtain ⟨x, hx⟩ := List.exists_mem_of_ne_nil _ (inv.sN _ _ _ h1).2.1
          exact absurd (.inr (.inl ⟨l, x, h1, hx, rfl⟩)) (fresh i _)
        · exact absurd (.inr (.inr ⟨f, h1, rfl⟩)) (fresh i _)
    · exact .inl hc
  case replacedTransaction j tx =>
    obtain ⟨l, last, g, hg, hge, hlast, hre⟩ := he
    rw [MKM.getEntry_eq] at hge
    obtain ⟨i', l', last', created₁, created, e1, e2, e3, ⟨o, e4⟩, e5, rfl⟩ := recordResubmitTransaction_ok ht
    refine keep (by simp) fun n i c hc => ?_
    have w₁ := MKM.removeEntry_wf inv.cw e4
    rcases (MKM.tryInsert_has w₁ e5).1 hc with ⟨rfl, rfl, rfl⟩ | hc
    · refine .inr (.inr ⟨last.transaction, ?_, ?_⟩)
      · rw [← so.order _ _ _ hge, List.getLast?_map, hlast]; rfl
      · obtain ⟨r, _, hs⟩ := hs.s _ _ _ _ hge (List.mem_of_getLast? hlast)
        exact resubmit_raises hg (Nat.lt_of_le_of_lt hs.prio hs.maxFee) hre
    · exact .inl ((MKM.removeEntry_has inv.cw e4).1 hc).2
  case signedTransaction j stx =>
    obtain ⟨i', c, created, sent, e1, e2, ⟨o, e3⟩, e4, rfl⟩ := recordSignedTransaction_ok ht
    have hnew : signedWith stx.tx.nonce [.signedTransaction j stx] = [stx] := by simp [signedWith]
    have hother : ∀ n, n ≠ stx.tx.nonce → signedWith n [.signedTransaction j stx] = [] := by
      intro n hn
      simp [signedWith, Ne.symm hn]
    refine ⟨fun n i c' hc => ?_, fun n => ?_⟩
    · obtain ⟨hne, hc⟩ := (MKM.removeEntry_has inv.cw e3).1 hc
      rw [signedWith_snoc, hother n hne, List.append_nil]
      exact S.created n i c' hc
    · rw [signedWith_snoc]
      by_cases hne : n = stx.tx.nonce
      · subst hne
        rw [hnew, List.isChain_append]
        refine ⟨S.chain _, .singleton _, fun x hx y hy => ?_⟩
        simp only [List.head?_cons, Option.mem_def, Option.some.injEq] at hx hy
        subst hy
        rw [← e2]
        rcases S.created _ _ _ e1 with h | ⟨last, h1, h2⟩
        · rw [h] at hx; cases hx
        · rw [h1] at hx; cases hx; exact h2
      · rw [hother n hne, List.append_nil]
        exact S.chain n
  case finalizedTransaction j receipt =>
    obtain ⟨m, l, stx, sent, created, finalized, r, e1, e2, e3, e4, e5, ⟨o, e6⟩, ⟨o', e7⟩, e8, ⟨_, e9⟩, e10, e11⟩ :=
      recordFinalizedTransaction_ok inv.maps ht
    refine keep (by simp) fun n i c hc => .inl ?_
    have key : t'.created = created := by
      rcases e11 with ⟨_, rfl⟩ | ⟨_, _, _, _, rfl⟩ <;> rfl
    rw [key] at hc
    exact ((MKM.removeEntry_has inv.cw e7).1 hc).2
  case reimbursedNativeWithdrawal =>
    obtain ⟨_, _, _, rfl⟩ := recordFinalizedReimbursement_ok ht
    exact same (by simp) rfl
  case reimbursedErc20Withdrawal =>
    obtain ⟨_, _, _, rfl⟩ := recordFinalizedReimbursement_ok ht
    exact same (by simp) rfl
  case failedErc20WithdrawalRequest =>
    obtain ⟨_, _, _, rfl⟩ := recordReimbursementRequest_ok ht
    exact same (by simp) rfl
  case quarantinedReimbursement =>
    simp only [Except.ok.injEq] at ht; subst ht; exact same (by simp) rfl
  all_goals (simp only [Except.ok.injEq] at ht; subst ht; exact same (by simp) rfl)

/-- In every live state the transactions signed with a nonce pay more and more. -/
theorem run_rising {log : List Event} {s : State} (h : Run log s) (hn : NonceNeverLowered log) : Rising log s.txs := by
  induction h with
  | init a s h =>
    obtain ⟨_, _, _, _, _, _, _, ht, _⟩ := ofInit_ok h
    rw [ht]
    exact ⟨fun _ _ _ hl => absurd hl MKM.not_has_empty, fun n => .nil⟩
  | event log s e s' hr he ha ih =>
    have hn' := nonceNeverLowered_prefix hn
    exact Rising.step hr hn' he ha (ih hn')
  | reschedule log s r t hr hm ht ih =>
    obtain ⟨h1, _⟩ := run_txInv hr hn
    obtain ⟨h5, _⟩ := reschedule_ok h1.pend hm ht
    obtain ⟨a, b⟩ := ih hn
    rw [h5]
    exact ⟨a, b⟩
  | scraped log s b hr ih => exact ih hn
  | restart log s s' hr hs ih =>
    obtain ⟨s₀, h1, h2, h3, h4⟩ := run_replay hr
    rw [hs, Except.ok.injEq] at h1; subst h1
    obtain ⟨a, b⟩ := ih hn
    rw [h4] at a
    exact ⟨a, b⟩

end EvmMinter
