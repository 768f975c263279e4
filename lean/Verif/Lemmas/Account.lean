import Verif.Lemmas.SoundInv
import Verif.Spec.Account
import Verif.Props.C35
/-!
# Balance accounting
-/

namespace EvmMinter

open Spec

theorem AL.sum_congr {K V : Type} {f g : K → V → Nat} {l : List (K × V)} (h : ∀ k v, (k, v) ∈ l → f k v = g k v) :
    AL.sum f l = AL.sum g l := by
  induction l with
  | nil => rfl
  | cons a t ih =>
    obtain ⟨k, v⟩ := a
    simp only [AL.sum]
    rw [h k v (by simp), ih fun k v hm => h k v (by simp [hm])]

theorem FMap.sum_congr {K V : Type} [DecidableEq K] [TOrd K] {m : FMap K V} {f g : K → V → Nat}
    (h : ∀ k v, m.get k = some v → f k v = g k v) : m.sum f = m.sum g :=
  AL.sum_congr fun k v hm => h k v (FMap.mem_toList.1 hm)

theorem AL.sum_add {K V : Type} {f g : K → V → Nat} {l : List (K × V)} :
    AL.sum (fun k v => f k v + g k v) l = AL.sum f l + AL.sum g l := by
  induction l with
  | nil => rfl
  | cons a t ih =>
    obtain ⟨k, v⟩ := a
    simp only [AL.sum, ih]
    omega

theorem FMap.sum_add {K V : Type} [DecidableEq K] [TOrd K] {m : FMap K V} {f g : K → V → Nat} :
    m.sum (fun k v => f k v + g k v) = m.sum f + m.sum g := AL.sum_add

theorem total_snoc (f : Event → Nat) (log : List Event) (e : Event) : total f (log ++ [e]) = total f log + f e := by
  simp [total]

/-! ## ERC-20 balances -/

theorem erc20Add_ok {b b' : FMap Address Erc20Value} {c : Address} {v : Erc20Value}
    (h : State.erc20Add b c v = .ok b') (c' : Address) :
    (b'.get c').getD 0 = (b.get c').getD 0 + (if c = c' then v else 0) := by
  unfold State.erc20Add at h
  split at h
  · rename_i prev hp
    simp only [Res.bind_ok, Res.expect_ok, cadd_eq_some, Res.pure_ok] at h
    obtain ⟨n, ⟨rfl, _⟩, rfl⟩ := h
    rw [FMap.get_insert]
    by_cases hc : c' = c
    · subst hc; simp [hp]
    · rw [if_neg hc, if_neg (Ne.symm hc)]; rfl
  · rename_i hp
    simp only [Except.ok.injEq] at h
    subst h
    rw [FMap.get_insert]
    by_cases hc : c' = c
    · subst hc; simp [hp]
    · rw [if_neg hc, if_neg (Ne.symm hc)]; rfl

theorem erc20Sub_ok {b b' : FMap Address Erc20Value} {c : Address} {v : Erc20Value}
    (h : State.erc20Sub b c v = .ok b') (c' : Address) :
    (b.get c').getD 0 = (b'.get c').getD 0 + (if c = c' then v else 0) := by
  simp only [State.erc20Sub, Res.bind_ok, Res.expect_ok, csub_eq_some, Res.pure_ok] at h
  obtain ⟨prev, hp, n, rfl, rfl⟩ := h
  rw [FMap.get_insert]
  by_cases hc : c' = c
  · subst hc; simp [hp]
  · rw [if_neg hc, if_neg (Ne.symm hc)]; rfl

/-- An accepted transfer has its value in the last word. -/
theorem decode_value {data : Bytes} {c : Erc20Transfer} (h : Erc20Transfer.decode data = .ok (.ok c)) :
    c.value = beNat (data.drop 36) := by
  obtain ⟨rfl, hf⟩ := (C35_accepts_exactly _ _).1 h
  have e3 : c.encode.drop 36 = toBE 32 c.value := by
    simp [Erc20Transfer.encode, transferSelector, Address.toWord]
  rw [e3]
  exact (beNat_toBE_of_lt (Nat.lt_of_lt_of_eq hf.2 (by decide))).symm

theorem erc20Debit_balance {s s' : State} {f : FinalizedTx} (h : s.erc20Debit f.receipt.status f.signed.tx = .ok s')
    (c : Address) : tokenBalance s c = tokenBalance s' c + tokensSent c f := by
  unfold tokensSent tokenBalance
  rcases erc20Debit_ok h with ⟨rfl, hn⟩ | ⟨hs, hd, x, b, hx, hb, rfl⟩
  · cases hst : f.receipt.status with
    | failure => rfl
    | success =>
      have : ¬ (f.signed.tx.destination = c ∧ f.signed.tx.data ≠ []) := fun hh => hn ⟨hst, hh.2⟩
      simp only [if_neg this, Nat.add_zero]
  · rw [hs]
    have := erc20Sub_ok hb c
    rw [decode_value hx] at this
    simp only [hd, ne_eq, not_false_eq_true, and_true]
    exact this

/-! ## One step -/

variable [Keccak]

omit [Keccak] in
theorem effectiveFee_ok {r : Receipt} {fee : Wei} (h : r.effectiveFee = .ok fee) :
    fee = r.effectiveGasPrice * r.gasUsed ∧ fee < U256 := by
  simp only [Receipt.effectiveFee, transactionCost, Res.expect_ok, cmul_eq_some] at h
  exact ⟨h.1.symm, h.2⟩

omit [Keccak] in
theorem debitedAmount_ok {f : FinalizedTx} {fee d : Wei}
    (h : State.debitedAmount f.receipt.status f.signed.tx fee = .ok d) : d = fee + valueSent f := by
  unfold valueSent
  cases hs : f.receipt.status with
  | success =>
    rw [hs] at h
    simp only [State.debitedAmount, Res.expect_ok, cadd_eq_some] at h
    exact h.1.symm.trans (Nat.add_comm _ _)
  | failure =>
    rw [hs] at h
    simp only [State.debitedAmount, Except.ok.injEq] at h
    exact h.symm

omit [Keccak] in
theorem chargedFee_ok {m : FMap LedgerBurnIndex Request} {i : LedgerBurnIndex} {r : Request} {f : FinalizedTx} {c : Wei}
    (hr : m.get i = some r) (h : State.chargedFee r f.signed.tx = .ok c) : c = feeCharged m i f := by
  unfold feeCharged
  rw [hr]
  cases r with
  | native q =>
    simp only [State.chargedFee, Res.expect_ok, csub_eq_some] at h
    exact (Nat.sub_eq_of_eq_add h).symm
  | erc20 q =>
    simp only [State.chargedFee, Except.ok.injEq] at h
    exact h.symm

theorem recordFinalized_acct {t t' : Transactions} {i : LedgerBurnIndex} {receipt : Receipt}
    (h : t.recordFinalizedTransaction i receipt = .ok t') :
    ∃ fin : FinalizedTx, fin.receipt = receipt ∧ t.finalized.byAlt.get i = none ∧
      t'.finalized.byAlt = t.finalized.byAlt.insert i fin ∧ t'.processed = t.processed ∧
      fin.signed.hash = receipt.transactionHash ∧ receipt.effectiveGasPrice ≤ fin.signed.tx.maxFeePerGas ∧
      receipt.gasUsed ≤ fin.signed.tx.gasLimit := by
  simp only [Transactions.recordFinalizedTransaction, Res.bind_ok, Res.expect_ok] at h
  obtain ⟨l, h1, stx, h2, h3⟩ := h
  cases hf : stx.transaction.tryFinalize receipt with
  | error e => rw [hf] at h3; cases h3
  | ok fin =>
    obtain ⟨rfl, e1, e2, e3⟩ := Transactions.tryFinalize_ok hf
    rw [hf] at h3
    simp only [Res.bind_ok, Transactions.cleanupFailedResubmitted, Res.pure_ok] at h3
    obtain ⟨⟨o, sent⟩, h3, created, ⟨⟨o', cr⟩, h4, rfl⟩, h5⟩ := h3
    simp only at h5
    cases hi : t.finalized.tryInsert stx.transaction.tx.nonce i ⟨stx.transaction, receipt⟩ with
    | error e => rw [hi] at h5; cases h5
    | ok finalized =>
      obtain ⟨ha, hk, rfl⟩ := MKM.tryInsert_ok.1 hi
      rw [hi] at h5
      simp only [Res.bind_ok, Res.ensure_ok, FMap.contains_eq_true, Res.expect_ok] at h5
      obtain ⟨_, h6, r, h7, h8⟩ := h5
      refine ⟨⟨stx.transaction, receipt⟩, rfl, ha, ?_⟩
      split at h8
      · obtain ⟨_, _, _, rfl⟩ := Transactions.recordReimbursementRequest_ok h8
        exact ⟨rfl, rfl, e1, e2, e3⟩
      · simp only [Res.pure_ok] at h8
        subst h8
        exact ⟨rfl, rfl, e1, e2, e3⟩

/-- Finalized transactions and processed requests change only as expected. -/
theorem txEvent_acct {t t' : Transactions} {e : Event} (h : txEvent t e = .ok t')
    (he : ∀ i r, e ≠ .finalizedTransaction i r) :
    t'.finalized = t.finalized ∧ (∀ i r, t.processed.get i = some r → t'.processed.get i = some r) := by
  cases e <;> simp only [txEvent] at h
  case upgrade a =>
    simp only [Except.ok.injEq] at h; subst h
    cases a.nextTransactionNonce <;> exact ⟨rfl, fun _ _ h => h⟩
  case acceptedNativeWithdrawalRequest r =>
    obtain ⟨rfl, _⟩ := recordWithdrawalRequest_pending h; exact ⟨rfl, fun _ _ h => h⟩
  case acceptedErc20WithdrawalRequest r =>
    obtain ⟨rfl, _⟩ := recordWithdrawalRequest_pending h; exact ⟨rfl, fun _ _ h => h⟩
  case createdTransaction i tx =>
    obtain ⟨r, created, _, _, _, _, _, _, _, hp, _, _, rfl⟩ := Transactions.recordCreatedTransaction_ok h
    refine ⟨rfl, fun j q hq => ?_⟩
    rw [FMap.get_insert]
    split
    · rename_i hj; rw [hj, hp] at hq; cases hq
    · exact hq
  case signedTransaction =>
    obtain ⟨_, _, _, _, _, _, _, _, rfl⟩ := Transactions.recordSignedTransaction_ok h; exact ⟨rfl, fun _ _ h => h⟩
  case replacedTransaction =>
    obtain ⟨_, _, _, _, _, _, _, _, _, _, rfl⟩ := Transactions.recordResubmitTransaction_ok h
    exact ⟨rfl, fun _ _ h => h⟩
  case finalizedTransaction i r => exact absurd rfl (he i r)
  case reimbursedNativeWithdrawal =>
    obtain ⟨_, _, _, rfl⟩ := Transactions.recordFinalizedReimbursement_ok h; exact ⟨rfl, fun _ _ h => h⟩
  case reimbursedErc20Withdrawal =>
    obtain ⟨_, _, _, rfl⟩ := Transactions.recordFinalizedReimbursement_ok h; exact ⟨rfl, fun _ _ h => h⟩
  case failedErc20WithdrawalRequest =>
    obtain ⟨_, _, _, rfl⟩ := Transactions.recordReimbursementRequest_ok h; exact ⟨rfl, fun _ _ h => h⟩
  case quarantinedReimbursement => simp only [Except.ok.injEq] at h; subst h; exact ⟨rfl, fun _ _ h => h⟩
  all_goals (simp only [Except.ok.injEq] at h; subst h; exact ⟨rfl, fun _ _ h => h⟩)

/-- Effect of an event other than a finalization on the balances. -/
theorem applyEvent_credit {s s' : State} {e : Event} (h : applyEvent s e = .ok s')
    (he : ∀ i r, e ≠ .finalizedTransaction i r) :
    s'.nativeBalance.balance = s.nativeBalance.balance + nativeIn e ∧
    s'.nativeBalance.totalEffectiveTxFees = s.nativeBalance.totalEffectiveTxFees ∧
    s'.nativeBalance.totalUnspentTxFees = s.nativeBalance.totalUnspentTxFees ∧
    ∀ c, tokenBalance s' c = tokenBalance s c + erc20In c e := by
  have none : ∀ {s' : State}, nativeIn e = 0 → (∀ c, erc20In c e = 0) → s'.nativeBalance = s.nativeBalance →
      s'.erc20Balances = s.erc20Balances → s'.nativeBalance.balance = s.nativeBalance.balance + nativeIn e ∧
    s'.nativeBalance.totalEffectiveTxFees = s.nativeBalance.totalEffectiveTxFees ∧
    s'.nativeBalance.totalUnspentTxFees = s.nativeBalance.totalUnspentTxFees ∧
    ∀ c, tokenBalance s' c = tokenBalance s c + erc20In c e := by
    intro s' h1 h2 h3 h4
    refine ⟨by rw [h3, h1]; rfl, by rw [h3], by rw [h3], fun c => ?_⟩
    rw [h2]; unfold tokenBalance; rw [h4]; rfl
  cases e <;> simp only [applyEvent] at h
  case init => cases h
  case upgrade a =>
    split at h
    · rename_i s1 h1
      simp only [Except.ok.injEq] at h; subst h
      obtain ⟨_, _, rfl, _⟩ := upgrade_ok h1
      exact none rfl (fun _ => rfl) rfl rfl
    · cases h
  case acceptedDeposit d =>
    obtain ⟨_, _, _, _, h⟩ := recordEventToMint_ok h
    rcases updateBalanceUponDeposit_ok h with ⟨x, b, hx, hb, rfl⟩ | ⟨x, b, hx, hb, rfl⟩
    · cases hx
      simp only [cadd_eq_some] at hb
      exact ⟨hb.1.symm, rfl, rfl, fun _ => rfl⟩
    · cases hx
  case acceptedErc20Deposit d =>
    obtain ⟨_, _, _, _, h⟩ := recordEventToMint_ok h
    rcases updateBalanceUponDeposit_ok h with ⟨x, b, hx, hb, rfl⟩ | ⟨x, b, hx, hb, rfl⟩
    · cases hx
    · cases hx
      exact ⟨rfl, rfl, rfl, fun c => erc20Add_ok hb c⟩
  case invalidDeposit src m =>
    obtain ⟨_, _, ⟨rfl, _⟩ | ⟨_, rfl⟩⟩ := recordInvalidDeposit_ok h <;> exact none rfl (fun _ => rfl) rfl rfl
  case mintedNative src m =>
    obtain ⟨_, _, _, _, rfl⟩ := recordSuccessfulMint_ok h; exact none rfl (fun _ => rfl) rfl rfl
  case mintedErc20 src m _ _ =>
    obtain ⟨_, _, _, _, rfl⟩ := recordSuccessfulMint_ok h; exact none rfl (fun _ => rfl) rfl rfl
  case syncedToBlock c =>
    simp only [Except.ok.injEq] at h; subst h; exact none rfl (fun _ => rfl) rfl rfl
  case finalizedTransaction i r => exact absurd rfl (he i r)
  case skippedBlock c =>
    obtain ⟨_, rfl⟩ := recordSkippedBlock_ok h; exact none rfl (fun _ => rfl) rfl rfl
  case addedErc20Token t =>
    obtain ⟨_, _, _, _, _, _, rfl⟩ := recordAddErc20Token_ok h; exact none rfl (fun _ => rfl) rfl rfl
  case acceptedErc20WithdrawalRequest r =>
    obtain ⟨_, _, _, rfl⟩ := recordErc20WithdrawalRequest_ok h; exact none rfl (fun _ => rfl) rfl rfl
  case quarantinedDeposit src =>
    simp only [Except.ok.injEq] at h; subst h
    have := recordQuarantinedDeposit_frame s src
    exact none rfl (fun _ => rfl) (by rw [this]) (by rw [this])
  case quarantinedReimbursement x =>
    simp only [Except.ok.injEq] at h; subst h; exact none rfl (fun _ => rfl) rfl rfl
  all_goals (obtain ⟨t, _, rfl⟩ := liftTxs_ok h; exact none rfl (fun _ => rfl) rfl rfl)

/-- Effect of a finalization on the balances. -/
theorem applyEvent_debit {s s' : State} {i : LedgerBurnIndex} {receipt : Receipt}
    (h : applyEvent s (.finalizedTransaction i receipt) = .ok s') :
    ∃ fin : FinalizedTx, fin.receipt = receipt ∧ s.txs.finalized.byAlt.get i = none ∧
      s'.txs.finalized.byAlt = s.txs.finalized.byAlt.insert i fin ∧ s'.txs.processed = s.txs.processed ∧
      (∃ r, s.txs.processed.get i = some r) ∧
      fin.signed.hash = receipt.transactionHash ∧ receipt.effectiveGasPrice ≤ fin.signed.tx.maxFeePerGas ∧
      receipt.gasUsed ≤ fin.signed.tx.gasLimit ∧
      s.nativeBalance.balance = s'.nativeBalance.balance + (feePaid fin + valueSent fin) ∧
      s'.nativeBalance.totalEffectiveTxFees = s.nativeBalance.totalEffectiveTxFees + feePaid fin ∧
      (∃ unspent, s'.nativeBalance.totalUnspentTxFees = s.nativeBalance.totalUnspentTxFees + unspent ∧
        feePaid fin + unspent = feeCharged s.txs.processed i fin) ∧
      ∀ c, tokenBalance s c = tokenBalance s' c + tokensSent c fin := by
  simp only [applyEvent] at h
  obtain ⟨t, ht, h⟩ := stateRecordFinalized_ok h
  obtain ⟨fin, rfl, h1, h2, h3, h4, h5, h6⟩ := recordFinalized_acct ht
  have hfr := updateBalanceUponWithdrawal_frame h
  have htx : s'.txs = t := by rw [hfr]
  obtain ⟨fee, fin', r, charged, unspent, debited, balance, eff, uns, a1, a2, a3, a4, a5, a6, a7, a8, a9, a10⟩ :=
    updateBalanceUponWithdrawal_ok h
  have hfin : fin' = fin := by
    change t.finalized.byAlt.get i = some fin' at a2
    rw [h2, FMap.get_insert, if_pos rfl] at a2
    cases a2; rfl
  subst hfin
  change t.processed.get i = some r at a3
  rw [h3] at a3
  obtain ⟨rfl, _⟩ := effectiveFee_ok a1
  have a6 := debitedAmount_ok a6
  have a4 := chargedFee_ok a3 a4
  have hd := erc20Debit_frame a10
  have hb : s'.nativeBalance = ⟨balance, eff, uns⟩ := by rw [hd]
  refine ⟨fin', rfl, h1, by rw [htx, h2], by rw [htx, h3], ⟨r, a3⟩, h4, h5, h6, ?_, ?_, ⟨unspent, ?_, ?_⟩, ?_⟩
  · rw [hb]; change s.nativeBalance.balance = balance + debited at a7; rw [a7, a6]; rfl
  · rw [hb]; exact a8.symm
  · rw [hb]; exact a9.symm
  · rw [← a4, a5]; unfold feePaid; omega
  · intro c; exact erc20Debit_balance a10 c

end EvmMinter
