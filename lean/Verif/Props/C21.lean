import Verif.Lemmas.Unreceipted
import Verif.Spec.ExampleRun
/-!
# C21, C22, C23: balance accounting and fees
-/

namespace EvmMinter

open Spec Transactions

section
variable [Keccak]

/-- Accounting invariant over accepted logs. -/
structure Acct (log : List Event) (s : State) : Prop where
  proc : ∀ i f, s.txs.finalized.byAlt.get i = some f → ∃ r, s.txs.processed.get i = some r
  native : s.nativeBalance.balance + s.txs.finalized.byAlt.sum (fun _ f => feePaid f + valueSent f)
    = total nativeIn log
  eff : s.nativeBalance.totalEffectiveTxFees = s.txs.finalized.byAlt.sum (fun _ f => feePaid f)
  unspent : s.nativeBalance.totalEffectiveTxFees + s.nativeBalance.totalUnspentTxFees
    = s.txs.finalized.byAlt.sum (feeCharged s.txs.processed)
  each : ∀ i f, s.txs.finalized.byAlt.get i = some f → feePaid f ≤ feeCharged s.txs.processed i f
  token : ∀ c, tokenBalance s c + s.txs.finalized.byAlt.sum (fun _ f => tokensSent c f) = total (erc20In c) log

theorem acct_of_replay {log : List Event} {s : State} (h : replay log = .ok s) : Acct log s := by
  refine replay_induct (P := Acct) ?_ ?_ h
  · intro a s h
    obtain ⟨_, _, _, _, hb, hn, _, ht, _⟩ := ofInit_ok h
    have hf : s.txs.finalized.byAlt = ∅ := by rw [ht]; rfl
    refine ⟨?_, ?_, ?_, ?_, ?_, ?_⟩
    · intro i f hh; rw [hf] at hh; cases hh
    · rw [hf, hn]; rfl
    · rw [hf, hn]; rfl
    · rw [hf, hn]; rfl
    · intro i f hh; rw [hf] at hh; cases hh
    · intro c; unfold tokenBalance; rw [hf, hb]; rfl
  · intro log s e s' _ inv ha
    by_cases he : ∃ i r, e = .finalizedTransaction i r
    · obtain ⟨i, receipt, rfl⟩ := he
      obtain ⟨fin, rfl, h1, h2, h3, ⟨r, h4⟩, _, _, _, h5, h6, ⟨u, h7, h8⟩, h9⟩ := applyEvent_debit ha
      have hin : nativeIn (.finalizedTransaction i fin.receipt) = 0 := rfl
      have hin' : ∀ c, erc20In c (.finalizedTransaction i fin.receipt) = 0 := fun _ => rfl
      refine ⟨?_, ?_, ?_, ?_, ?_, ?_⟩
      · intro j f hj
        rw [h3]
        rw [h2, FMap.get_insert] at hj
        split at hj
        · rename_i e; exact ⟨r, e ▸ h4⟩
        · exact inv.proc j f hj
      · have := inv.native
        rw [h2, FMap.sum_insert_new _ _ h1, total_snoc, hin]
        womega
      · have := inv.eff
        rw [h2, FMap.sum_insert_new _ _ h1]
        womega
      · have := inv.unspent
        rw [h2, FMap.sum_insert_new _ _ h1, h3]
        womega
      · intro j f hj
        rw [h3]
        rw [h2, FMap.get_insert] at hj
        split at hj
        · rename_i e; cases hj; subst e; omega
        · exact inv.each j f hj
      · intro c
        have := inv.token c
        have := h9 c
        rw [h2, FMap.sum_insert_new _ _ h1, total_snoc, hin']
        omega
    · have he : ∀ i r, e ≠ .finalizedTransaction i r := fun i r hh => he ⟨i, r, hh⟩
      obtain ⟨h1, h2, h3, h4⟩ := applyEvent_credit ha he
      obtain ⟨h5, h6⟩ := txEvent_acct (applyEvent_txs ha) he
      have hc : ∀ j f, s.txs.finalized.byAlt.get j = some f →
          feeCharged s'.txs.processed j f = feeCharged s.txs.processed j f := by
        intro j f hj
        obtain ⟨r, hr⟩ := inv.proc j f hj
        unfold feeCharged
        rw [hr, h6 j r hr]
      refine ⟨?_, ?_, ?_, ?_, ?_, ?_⟩
      · intro j f hj
        rw [h5] at hj
        obtain ⟨r, hr⟩ := inv.proc j f hj
        exact ⟨r, h6 j r hr⟩
      · have := inv.native
        rw [h5, total_snoc]
        womega
      · rw [h5, h2]; exact inv.eff
      · rw [h5, h2, h3, FMap.sum_congr hc]; exact inv.unspent
      · intro j f hj
        rw [h5] at hj
        rw [hc j f hj]
        exact inv.each j f hj
      · intro c
        have := inv.token c
        have := h4 c
        rw [h5, total_snoc]
        omega

/-- **C21.** The native balance plus what left with the finalized transactions (fee always, value when successful)
is the sum of the accepted native deposits; the two fee totals are the sum of the fees paid and of the differences
to the fees charged. -/
theorem C21_native_balance_exact {log : List Event} {s : State} (h : replay log = .ok s) :
    s.nativeBalance.balance + s.txs.finalized.byAlt.sum (fun _ f => feePaid f + valueSent f) = total nativeIn log ∧
    s.nativeBalance.totalEffectiveTxFees = s.txs.finalized.byAlt.sum (fun _ f => feePaid f) ∧
    s.nativeBalance.totalUnspentTxFees
      = s.txs.finalized.byAlt.sum (fun i f => feeCharged s.txs.processed i f - feePaid f) := by
  have inv := acct_of_replay h
  refine ⟨inv.native, inv.eff, ?_⟩
  have h1 := inv.unspent
  have h2 : s.txs.finalized.byAlt.sum (feeCharged s.txs.processed) =
      s.txs.finalized.byAlt.sum (fun i f => feePaid f + (feeCharged s.txs.processed i f - feePaid f)) :=
    FMap.sum_congr fun i f hf => by have := inv.each i f hf; omega
  rw [h2, FMap.sum_add, ← inv.eff] at h1
  exact Nat.add_left_cancel h1

/-- C21 in every live state. -/
theorem C21_live {log : List Event} {s : State} (h : Run log s) :
    s.nativeBalance.balance + s.txs.finalized.byAlt.sum (fun _ f => feePaid f + valueSent f) = total nativeIn log ∧
    s.nativeBalance.totalEffectiveTxFees = s.txs.finalized.byAlt.sum (fun _ f => feePaid f) ∧
    s.nativeBalance.totalUnspentTxFees
      = s.txs.finalized.byAlt.sum (fun i f => feeCharged s.txs.processed i f - feePaid f) := by
  obtain ⟨s₀, h1, _, _, h2⟩ := run_replay h
  have h3 := C21_native_balance_exact h1
  rw [h2]
  exact h3

/-- **C22.** Per token: tracked balance plus the amounts in the call data of the successful transactions sent to the
contract is the sum of the accepted deposits of that token. -/
theorem C22_token_balance_exact {log : List Event} {s : State} (h : replay log = .ok s) (c : Address) :
    tokenBalance s c + s.txs.finalized.byAlt.sum (fun _ f => tokensSent c f) = total (erc20In c) log :=
  (acct_of_replay h).token c

theorem tokensSent_requested {log : List Event} {s : State} (h : Run log s) (hn : NonceNeverLowered log)
    {i : LedgerBurnIndex} {f : FinalizedTx} (hf : s.txs.finalized.byAlt.get i = some f) (c : Address) :
    tokensSent c f = tokensRequested s.txs.processed c i f := by
  obtain ⟨inv, tl, _⟩ := run_txInv h hn
  obtain ⟨n, hn'⟩ := (MKM.getAlt_eq inv.fw).1 hf
  obtain ⟨r, hr, hs⟩ := (run_sound h hn).f n i f hn'
  unfold tokensSent tokensRequested
  rw [hr]
  cases hst : f.receipt.status with
  | failure => rfl
  | success =>
    have hp := hs.pay
    cases r with
    | native q =>
      have hp : NativeSound q f.signed.tx := hp
      simp [hp.data]
    | erc20 q =>
      have hp : Erc20Sound q f.signed.tx := hp
      have hb : (Request.erc20 q).Bounded := run_bounded h ((tl.acc (.erc20 q)).2 (.inr (by
        rw [inv.procIdx i _ hr]; exact hr)))
      have hd := C35_roundtrip ⟨q.destination, q.withdrawalAmount⟩ ⟨hb.2.2, hb.1⟩
      have hv := decode_value hd
      have hne : Erc20Transfer.encode ⟨q.destination, q.withdrawalAmount⟩ ≠ [] := by
        intro h0
        have := length_encode ⟨q.destination, q.withdrawalAmount⟩
        rw [h0] at this; cases this
      simp only [hp.dest, hp.data, hne, ne_eq, not_false_eq_true, and_true]
      rw [← hv]

/-- **C22** in every live state, in terms of the user's requests. -/
theorem C22_live {log : List Event} {s : State} (h : Run log s) (hn : NonceNeverLowered log) (c : Address) :
    tokenBalance s c + s.txs.finalized.byAlt.sum (tokensRequested s.txs.processed c) = total (erc20In c) log := by
  have h3 : s.txs.finalized.byAlt.sum (fun _ f => tokensSent c f) =
      s.txs.finalized.byAlt.sum (tokensRequested s.txs.processed c) :=
    FMap.sum_congr fun i f hf => tokensSent_requested h hn hf c
  rw [← h3]
  obtain ⟨s₀, h1, _, _, h2⟩ := run_replay h
  have h4 := C22_token_balance_exact h1 c
  rw [h2]
  exact h4

/-! ## C23 -/

/-- The amount the user burned for the withdrawal that pays for fees. -/
def burnedForFee : Request → Nat
  | .native q => q.withdrawalAmount
  | .erc20 q => q.maxTransactionFee

/-- The fee of every receipt that respects the limits of the transaction is covered by the fee charged. -/
theorem C23_fee_covered {log : List Event} {s : State} (h : Run log s) (hn : NonceNeverLowered log)
    {n : TransactionNonce} {i : LedgerBurnIndex} {l : List (Resubmittable SignedTx)} (hs : s.txs.sent.Has n i l)
    {x : Resubmittable SignedTx} (hx : x ∈ l) {r : Request} (hr : s.txs.processed.get i = some r)
    (hb : burnedForFee r < 2 ^ 256 - 1) {receipt : Receipt}
    (hp : receipt.effectiveGasPrice ≤ x.transaction.tx.maxFeePerGas)
    (hg : receipt.gasUsed ≤ x.transaction.tx.gasLimit) :
    feePaid ⟨x.transaction, receipt⟩ ≤ feeCharged s.txs.processed i ⟨x.transaction, receipt⟩ ∧
      feeCharged s.txs.processed i ⟨x.transaction, receipt⟩ < 2 ^ 256 := by
  obtain ⟨r', hr', hso⟩ := (run_sound h hn).s n i l x hs hx
  rw [hr] at hr'; cases hr'
  have hm : receipt.effectiveGasPrice * receipt.gasUsed ≤
      x.transaction.tx.maxFeePerGas * x.transaction.tx.gasLimit := Nat.mul_le_mul hp hg
  have hp := hso.pay
  unfold feeCharged feePaid
  rw [hr]
  rw [Nat.mul_comm x.transaction.tx.maxFeePerGas] at hm
  cases r with
  | native q =>
    have hp : NativeSound q x.transaction.tx := hp
    have := hp.amount hb
    simp only [burnedForFee] at hb ⊢
    womega
  | erc20 q =>
    have hp : Erc20Sound q x.transaction.tx := hp
    have := hp.fee hb
    simp only [burnedForFee] at hb ⊢
    womega

theorem recordFinalized_total {t : Transactions} (inv : t.TxInv) {n : TransactionNonce} {i : LedgerBurnIndex}
    {l : List (Resubmittable SignedTx)} (hs : t.sent.Has n i l) {receipt : Receipt}
    (hx : ∃ x ∈ l, x.transaction.hash = receipt.transactionHash)
    (evm : ∀ x ∈ l, x.transaction.hash = receipt.transactionHash →
      receipt.effectiveGasPrice ≤ x.transaction.tx.maxFeePerGas ∧ receipt.gasUsed ≤ x.transaction.tx.gasLimit)
    {r : Request} (hr : t.processed.get i = some r)
    (free : receipt.status = .failure → t.reimbursed.get (.ofRequest r) = none ∧
      t.reimbursementRequests.get (.ofRequest r) = none) :
    ∃ t', t.recordFinalizedTransaction i receipt = .ok t' := by
  have h1 : t.sent.getAlt i = some l := (MKM.getAlt_eq inv.sw).2 ⟨n, hs⟩
  obtain ⟨x, h2⟩ : ∃ x, l.find? (fun s => s.transaction.hash == receipt.transactionHash) = some x := by
    obtain ⟨x, hx, hh⟩ := hx
    have : (l.find? (fun s => s.transaction.hash == receipt.transactionHash)).isSome := by
      rw [List.find?_isSome]; exact ⟨x, hx, by simpa using hh⟩
    exact Option.isSome_iff_exists.1 this
  have hmem := List.mem_of_find?_eq_some h2
  have hhash : x.transaction.hash = receipt.transactionHash := by simpa using List.find?_some h2
  obtain ⟨e1, e2⟩ := evm x hmem hhash
  have h3 : x.transaction.tryFinalize receipt = .ok ⟨x.transaction, receipt⟩ := by
    unfold SignedTx.tryFinalize
    rw [if_neg (by simpa using hhash), if_neg (Nat.not_lt.2 e1), if_neg (Nat.not_lt.2 e2)]
  have hno := ((inv.sN n i l hs).2.2 x hmem)
  obtain ⟨o, sent, h4⟩ := MKM.removeEntry_total inv.sw x.transaction.tx.nonce
  obtain ⟨o', created, h5⟩ := MKM.removeEntry_total inv.cw x.transaction.tx.nonce
  have f1 : t.finalized.byAlt.get i = none := by
    cases hf : t.finalized.byAlt.get i with
    | none => rfl
    | some f =>
      obtain ⟨n', hf⟩ := (MKM.getAlt_eq inv.fw).1 hf
      exact absurd rfl (inv.sf _ _ _ _ _ _ hs hf).2
  have f2 : t.finalized.byKey.get x.transaction.tx.nonce = none := by
    rw [hno]
    cases hf : t.finalized.byKey.get n with
    | none => rfl
    | some a =>
      obtain ⟨v, hv⟩ := inv.fw.alt_of_key hf
      exact absurd rfl (inv.sf _ _ _ _ _ _ hs ⟨hf, hv⟩).1
  have h6 : t.finalized.tryInsert x.transaction.tx.nonce i ⟨x.transaction, receipt⟩ = .ok _ :=
    MKM.tryInsert_ok.2 ⟨f1, f2, rfl⟩
  have h7 : t.maybeReimburse.contains i = true := by
    rw [FMap.contains_eq_true]
    exact Option.ne_none_iff_exists'.1 ((inv.maybe i).2 (.inr ⟨n, l, hs⟩))
  have hw : (ReimbIndex.ofRequest r).withdrawalId = i := by
    rw [← inv.procIdx i r hr]; cases r <;> rfl
  unfold recordFinalizedTransaction
  simp only [h1, h2, h3, expect, bind, Except.bind, cleanupFailedResubmitted, h4, h5, h6, h7, hr, ensure, pure,
    Except.pure, if_true]
  split
  · rename_i hst
    obtain ⟨a1, a2⟩ := free hst
    simp only [recordReimbursementRequest, ensure, bind, Except.bind, pure, Except.pure, hw]
    have c1 : (t.maybeReimburse.erase i).contains i = false := by rw [FMap.contains_eq_false]; simp
    have c2 := FMap.contains_eq_false.2 a1
    have c3 := FMap.contains_eq_false.2 a2
    simp only [c1, c2, c3, Bool.not_false, if_true]
    exact ⟨_, rfl⟩
  · exact ⟨_, rfl⟩

/-- **C23.** In every execution: take a withdrawal with sent transactions and a receipt for one of them that respects
the EVM rules. Provided the tracked balances cover what the transaction spent (and the totals are not exhausted), recording it succeeds: in particular the check that the charged fee covers the effective
fee never fails, and the effective fee plus the amount booked as unspent is the fee charged. -/
theorem C23_finalization_succeeds {log : List Event} {s : State} (h : Run log s) (hn : NonceNeverLowered log)
    {n : TransactionNonce} {i : LedgerBurnIndex} {l : List (Resubmittable SignedTx)} (hs : s.txs.sent.Has n i l)
    {receipt : Receipt} (hx : ∃ x ∈ l, x.transaction.hash = receipt.transactionHash)
    (evm : ∀ x ∈ l, x.transaction.hash = receipt.transactionHash →
      receipt.effectiveGasPrice ≤ x.transaction.tx.maxFeePerGas ∧ receipt.gasUsed ≤ x.transaction.tx.gasLimit)
    {r : Request} (hr : s.txs.processed.get i = some r) (hb : burnedForFee r < 2 ^ 256 - 1)
    (cover : ∀ x ∈ l, x.transaction.hash = receipt.transactionHash →
      feePaid ⟨x.transaction, receipt⟩ + valueSent ⟨x.transaction, receipt⟩ ≤ s.nativeBalance.balance ∧
      s.nativeBalance.totalEffectiveTxFees + feeCharged s.txs.processed i ⟨x.transaction, receipt⟩ < 2 ^ 256 ∧
      s.nativeBalance.totalUnspentTxFees + feeCharged s.txs.processed i ⟨x.transaction, receipt⟩ < 2 ^ 256)
    (tokens : ∀ q, r = .erc20 q → receipt.status = .success →
      ∃ b, s.erc20Balances.get q.erc20ContractAddress = some b ∧ q.withdrawalAmount ≤ b) :
    ∃ s' fin, applyEvent s (.finalizedTransaction i receipt) = .ok s' ∧
      s'.txs.finalized.getAlt i = some fin ∧ fin.receipt = receipt ∧
      (s'.nativeBalance.totalEffectiveTxFees - s.nativeBalance.totalEffectiveTxFees) +
        (s'.nativeBalance.totalUnspentTxFees - s.nativeBalance.totalUnspentTxFees)
        = feeCharged s.txs.processed i fin := by
  obtain ⟨inv, tl, _⟩ := run_txInv h hn
  have balance := run_balance_lt h
  obtain ⟨t, ht⟩ := recordFinalized_total inv hs hx evm hr fun _ => run_not_reimbursed h hn hs hr
  obtain ⟨_, l', stx, sent, created, finalized, r', b1, b2, b3, b4, b5, _, _, b8, _, b10, b11⟩ :=
    recordFinalizedTransaction_ok inv.maps ht
  rw [hr] at b10; cases b10
  obtain ⟨_, rfl⟩ := MKM.Has.unique_alt inv.sw hs b1
  obtain ⟨f1, f2, rfl⟩ := MKM.tryInsert_ok.1 b8
  obtain ⟨c1, c2, c3⟩ := cover stx b2 b3
  obtain ⟨d1, d2⟩ := C23_fee_covered h hn hs b2 hr hb b4 b5
  obtain ⟨r', hr', hso⟩ := (run_sound h hn).s n i l stx hs b2
  rw [hr] at hr'; cases hr'
  have hfin : t.finalized.byAlt.get i = some ⟨stx.transaction, receipt⟩ := by
    rcases b11 with ⟨_, rfl⟩ | ⟨_, _, _, _, rfl⟩ <;> exact FMap.get_insert_self _ _ _
  have hproc : t.processed.get i = some r := by
    rcases b11 with ⟨_, rfl⟩ | ⟨_, _, _, _, rfl⟩ <;> exact hr
  -- the balance update
  suffices hu : ∃ s', ({ s with txs := t } : State).updateBalanceUponWithdrawal i receipt = .ok s' by
    obtain ⟨s', hu⟩ := hu
    have ha : applyEvent s (.finalizedTransaction i receipt) = .ok s' := by
      simp only [applyEvent, State.recordFinalizedTransaction, ht, bind, Except.bind]
      exact hu
    obtain ⟨fin, g1, _, g3, _, _, _, _, _, _, g6, ⟨u, g7, g8⟩, _⟩ := applyEvent_debit ha
    refine ⟨s', fin, ha, ?_, g1, ?_⟩
    · show s'.txs.finalized.byAlt.get i = some fin
      rw [g3, FMap.get_insert_self]
    · rw [g6, g7, ← g8]; womega
  have e1 : receipt.effectiveFee = .ok (feePaid ⟨stx.transaction, receipt⟩) := by
    unfold Receipt.effectiveFee transactionCost
    rw [Res.expect_ok, cmul_eq_some]
    exact ⟨rfl, by have : U256 = 2 ^ 256 := rfl; womega⟩
  have hval : ∀ q, r = .native q → stx.transaction.tx.amount ≤ q.withdrawalAmount := by
    rintro q rfl
    have hp : NativeSound q stx.transaction.tx := hso.pay
    have := hp.amount hb
    womega
  have e2 : State.chargedFee r stx.transaction.tx = .ok (feeCharged s.txs.processed i ⟨stx.transaction, receipt⟩) := by
    unfold State.chargedFee feeCharged
    rw [hr]
    cases r with
    | native q =>
      have := hval q rfl
      simp only [Res.expect_ok, csub_eq_some]
      womega
    | erc20 q => rfl
  have e3 : State.debitedAmount receipt.status stx.transaction.tx (feePaid ⟨stx.transaction, receipt⟩) =
      .ok (feePaid ⟨stx.transaction, receipt⟩ + valueSent ⟨stx.transaction, receipt⟩) := by
    unfold State.debitedAmount
    cases hst : receipt.status with
    | failure => simp [valueSent, hst]
    | success =>
      simp only [valueSent, hst, Res.expect_ok, cadd_eq_some] at c1 ⊢
      exact ⟨Nat.add_comm _ _, by have : U256 = 2 ^ 256 := rfl; womega⟩
  have e4 : csub (feeCharged s.txs.processed i ⟨stx.transaction, receipt⟩) (feePaid ⟨stx.transaction, receipt⟩) =
      some (feeCharged s.txs.processed i ⟨stx.transaction, receipt⟩ - feePaid ⟨stx.transaction, receipt⟩) := by
    unfold csub; rw [if_pos d1]
  have e5 : csub s.nativeBalance.balance (feePaid ⟨stx.transaction, receipt⟩ + valueSent ⟨stx.transaction, receipt⟩) =
      some (s.nativeBalance.balance - (feePaid ⟨stx.transaction, receipt⟩ + valueSent ⟨stx.transaction, receipt⟩)) := by
    unfold csub; rw [if_pos c1]
  have e6 : cadd s.nativeBalance.totalEffectiveTxFees (feePaid ⟨stx.transaction, receipt⟩) =
      some (s.nativeBalance.totalEffectiveTxFees + feePaid ⟨stx.transaction, receipt⟩) := by
    rw [cadd_eq_some]; exact ⟨rfl, by have : U256 = 2 ^ 256 := rfl; womega⟩
  have e7 : cadd s.nativeBalance.totalUnspentTxFees
      (feeCharged s.txs.processed i ⟨stx.transaction, receipt⟩ - feePaid ⟨stx.transaction, receipt⟩) =
      some (s.nativeBalance.totalUnspentTxFees +
        (feeCharged s.txs.processed i ⟨stx.transaction, receipt⟩ - feePaid ⟨stx.transaction, receipt⟩)) := by
    rw [cadd_eq_some]; exact ⟨rfl, by have : U256 = 2 ^ 256 := rfl; womega⟩
  have e8 : ({ s with txs := t } : State).txs.finalized.getAlt i = some ⟨stx.transaction, receipt⟩ := hfin
  unfold State.updateBalanceUponWithdrawal
  simp only [e1, e8, hproc, e2, e3, e4, e5, e6, e7, expect, bind, Except.bind]
  unfold State.erc20Debit
  split
  · rename_i hcond
    cases r with
    | native q =>
      have hp : NativeSound q stx.transaction.tx := hso.pay
      exact absurd hp.data hcond.2
    | erc20 q =>
      have hp : Erc20Sound q stx.transaction.tx := hso.pay
      have hbd : (Request.erc20 q).Bounded := run_bounded h ((tl.acc (.erc20 q)).2 (.inr (by
        rw [inv.procIdx i _ hr]; exact hr)))
      have hd := C35_roundtrip ⟨q.destination, q.withdrawalAmount⟩ ⟨hbd.2.2, hbd.1⟩
      obtain ⟨b, hb1, hb2⟩ := tokens q rfl hcond.1
      simp only [hp.data, hd, bind, Except.bind, State.erc20Sub, hp.dest, hb1, expect, csub, hb2, if_true, pure,
        Except.pure]
      exact ⟨_, rfl⟩
  · exact ⟨_, rfl⟩

end

namespace Example

/-- C21 on the example: 5000000000000 deposited; two finalized transactions, one failed, one a token transfer. -/
example : ∃ s, replay log = .ok s ∧ total nativeIn log = 5000000000000 ∧
    s.nativeBalance = ⟨5000000000000 - 900 * 21000 - 900 * 60000, 900 * 81000, 100 * 21000 + 65000000 - 54000000⟩ := by
  obtain ⟨s, h1, h2⟩ := of_checkLog (l := log) (p := fun s => decide (total nativeIn log = 5000000000000 ∧
    s.nativeBalance = ⟨5000000000000 - 900 * 21000 - 900 * 60000, 900 * 81000,
      100 * 21000 + 65000000 - 54000000⟩)) (by decide +kernel)
  exact ⟨s, h1, of_decide_eq_true h2⟩

/-- C22 on the example: 700 deposited, 200 withdrawn. -/
example : ∃ s, replay log = .ok s ∧ total (erc20In usdc) log = 700 ∧ tokenBalance s usdc = 500 ∧
    s.txs.finalized.byAlt.sum (tokensRequested s.txs.processed usdc) = 200 := by
  obtain ⟨s, h1, h2⟩ := of_checkLog (l := log) (p := fun s => decide (total (erc20In usdc) log = 700 ∧
    tokenBalance s usdc = 500 ∧ s.txs.finalized.byAlt.sum (tokensRequested s.txs.processed usdc) = 200))
    (by decide +kernel)
  exact ⟨s, h1, of_decide_eq_true h2⟩

/-- The hypotheses of C23 are met on the example before the failed receipt of withdrawal 20 is recorded, whose two
signed transactions have different hashes. -/
example : ∃ s l, Run (log.take 18) s ∧ s.txs.sent.Has 5 20 l ∧ l.length = 2 ∧
    (∃ x ∈ l, x.transaction.hash = receipt1.transactionHash) ∧
    (∀ x ∈ l, x.transaction.hash = receipt1.transactionHash →
      receipt1.effectiveGasPrice ≤ x.transaction.tx.maxFeePerGas ∧ receipt1.gasUsed ≤ x.transaction.tx.gasLimit) ∧
    s.txs.processed.get 20 = some (.native request1) ∧ burnedForFee (.native request1) < 2 ^ 256 - 1 ∧
    (∀ x ∈ l, x.transaction.hash = receipt1.transactionHash →
      feePaid ⟨x.transaction, receipt1⟩ + valueSent ⟨x.transaction, receipt1⟩ ≤ s.nativeBalance.balance ∧
      s.nativeBalance.totalEffectiveTxFees + feeCharged s.txs.processed 20 ⟨x.transaction, receipt1⟩ < 2 ^ 256 ∧
      s.nativeBalance.totalUnspentTxFees + feeCharged s.txs.processed 20 ⟨x.transaction, receipt1⟩ < 2 ^ 256) := by
  obtain ⟨s, h1, h2⟩ := prefix_run (k := 5) (p := fun s =>
    match s.txs.sent.getEntry 5 with
    | some (20, l) => decide (l.length = 2 ∧
      (∃ x ∈ l, x.transaction.hash = receipt1.transactionHash) ∧
      (∀ x ∈ l, x.transaction.hash = receipt1.transactionHash →
        receipt1.effectiveGasPrice ≤ x.transaction.tx.maxFeePerGas ∧ receipt1.gasUsed ≤ x.transaction.tx.gasLimit) ∧
      s.txs.processed.get 20 = some (.native request1) ∧ burnedForFee (.native request1) < 2 ^ 256 - 1 ∧
      (∀ x ∈ l, x.transaction.hash = receipt1.transactionHash →
        feePaid ⟨x.transaction, receipt1⟩ + valueSent ⟨x.transaction, receipt1⟩ ≤ s.nativeBalance.balance ∧
        s.nativeBalance.totalEffectiveTxFees + feeCharged s.txs.processed 20 ⟨x.transaction, receipt1⟩ < 2 ^ 256 ∧
        s.nativeBalance.totalUnspentTxFees + feeCharged s.txs.processed 20 ⟨x.transaction, receipt1⟩ < 2 ^ 256))
    | _ => false) (by decide +kernel)
  split at h2
  · rename_i l hl
    exact ⟨s, l, h1, MKM.getEntry_eq.1 hl, of_decide_eq_true h2⟩
  · cases h2

end Example

end EvmMinter
