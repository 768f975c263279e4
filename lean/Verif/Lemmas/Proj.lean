import Verif.Lemmas.Replay
/-!
# What each event changes
-/

namespace EvmMinter

variable [Keccak]

omit [Keccak] in
theorem liftTxs_ok {s s' : State} {r : Res Transactions} (h : liftTxs s r = .ok s') :
    ∃ t, r = .ok t ∧ s' = { s with txs := t } := by
  simp only [liftTxs, Res.bind_ok, Res.pure_ok] at h
  obtain ⟨t, h1, h2⟩ := h
  exact ⟨t, h1, h2.symm⟩

omit [Keccak] in
theorem updateBalanceUponDeposit_ok {s s' : State} {d : Deposit}
    (h : s.updateBalanceUponDeposit d = .ok s') :
    (∃ e b, d = .native e ∧ cadd s.nativeBalance.balance e.value = some b ∧
      s' = { s with nativeBalance := { s.nativeBalance with balance := b } }) ∨
    (∃ e b, d = .erc20 e ∧ State.erc20Add s.erc20Balances e.erc20ContractAddress e.value = .ok b ∧
      s' = { s with erc20Balances := b }) := by
  cases d with
  | native e =>
    simp only [State.updateBalanceUponDeposit, Res.bind_ok, Res.expect_ok, Res.pure_ok] at h
    obtain ⟨b, h1, h2⟩ := h
    exact .inl ⟨e, b, rfl, h1, h2.symm⟩
  | erc20 e =>
    simp only [State.updateBalanceUponDeposit, Res.bind_ok, Res.pure_ok] at h
    obtain ⟨b, h1, h2⟩ := h
    exact .inr ⟨e, b, rfl, h1, h2.symm⟩

omit [Keccak] in
/-- `record_event_to_mint` succeeds only for a fresh source and a supported token. -/
theorem recordEventToMint_ok {s s' : State} {d : Deposit} (h : s.recordEventToMint d = .ok s') :
    s.eventsToMint.get d.source = none ∧ s.mintedEvents.get d.source = none ∧
    s.invalidEvents.get d.source = none ∧ s.depositSupported d = true ∧
    (({ s with eventsToMint := s.eventsToMint.insert d.source d } : State).updateBalanceUponDeposit d
      = .ok s') := by
  simp only [State.recordEventToMint, Res.bind_ok, Res.ensure_ok, Bool.not_eq_true',
    FMap.contains_eq_false] at h
  obtain ⟨_, h1, _, h2, _, h3, _, h4, h5⟩ := h
  exact ⟨h1, h2, h3, h4, h5⟩

omit [Keccak] in
theorem recordSuccessfulMint_ok {s s' : State} {src : EventSource} {sym : String} {b : LedgerMintIndex}
    {c : Option Address} (h : s.recordSuccessfulMint src sym b c = .ok s') :
    s.invalidEvents.get src = none ∧ s.mintedEvents.get src = none ∧
    ∃ d, s.eventsToMint.get src = some d ∧
      s' = { s with
        eventsToMint := s.eventsToMint.erase src
        mintedEvents := s.mintedEvents.insert src ⟨d, b, sym, c⟩ } := by
  simp only [State.recordSuccessfulMint, Res.bind_ok, Res.ensure_ok, Bool.not_eq_true',
    FMap.contains_eq_false, Res.expect_ok, Res.pure_ok] at h
  obtain ⟨_, h1, d, h2, _, h3, h4⟩ := h
  exact ⟨h1, h3, d, h2, h4.symm⟩

omit [Keccak] in
theorem recordInvalidDeposit_ok {s s' : State} {src : EventSource} {reason : String}
    (h : s.recordInvalidDeposit src reason = .ok s') :
    s.eventsToMint.get src = none ∧ s.mintedEvents.get src = none ∧
    ((s' = s ∧ ∃ x, s.invalidEvents.get src = some x) ∨
     (s.invalidEvents.get src = none ∧
      s' = { s with invalidEvents := s.invalidEvents.insert src (.invalidDeposit reason) })) := by
  simp only [State.recordInvalidDeposit, Res.bind_ok, Res.ensure_ok, Bool.not_eq_true',
    FMap.contains_eq_false] at h
  obtain ⟨_, h1, _, h2, h3⟩ := h
  refine ⟨h1, h2, ?_⟩
  split at h3
  · rename_i hc
    simp only [Res.pure_ok] at h3
    exact .inl ⟨h3.symm, FMap.contains_eq_true.1 hc⟩
  · rename_i hc
    simp only [Res.pure_ok] at h3
    exact .inr ⟨FMap.contains_eq_false.1 (by simpa using hc), h3.symm⟩

omit [Keccak] in
theorem erc20Debit_ok {s s' : State} {st : TxStatus} {tx : Tx} (h : s.erc20Debit st tx = .ok s') :
    (s' = s ∧ ¬ (st = .success ∧ tx.data ≠ [])) ∨
    (st = .success ∧ tx.data ≠ [] ∧ ∃ c b, Erc20Transfer.decode tx.data = .ok (.ok c) ∧
      State.erc20Sub s.erc20Balances tx.destination c.value = .ok b ∧
      s' = { s with erc20Balances := b }) := by
  unfold State.erc20Debit at h
  split at h
  · rename_i hc
    simp only [Res.bind_ok] at h
    obtain ⟨a, ha, h⟩ := h
    cases a with
    | error m => simp at h
    | ok c =>
      simp only [Res.bind_ok, Res.pure_ok] at h
      obtain ⟨b, hb, rfl⟩ := h
      exact .inr ⟨hc.1, hc.2, c, b, ha, hb, rfl⟩
  · rename_i hc
    simp only [Res.pure_ok] at h
    exact .inl ⟨h.symm, hc⟩

omit [Keccak] in
theorem updateBalanceUponWithdrawal_ok {s s' : State} {i : LedgerBurnIndex} {receipt : Receipt}
    (h : s.updateBalanceUponWithdrawal i receipt = .ok s') :
    ∃ txFee fin r charged unspent debited balance eff uns,
      receipt.effectiveFee = .ok txFee ∧
      s.txs.finalized.getAlt i = some fin ∧ s.txs.processed.get i = some r ∧
      State.chargedFee r fin.signed.tx = .ok charged ∧
      charged = unspent + txFee ∧
      State.debitedAmount receipt.status fin.signed.tx txFee = .ok debited ∧
      s.nativeBalance.balance = balance + debited ∧
      s.nativeBalance.totalEffectiveTxFees + txFee = eff ∧
      s.nativeBalance.totalUnspentTxFees + unspent = uns ∧
      (({ s with nativeBalance := ⟨balance, eff, uns⟩ } : State).erc20Debit receipt.status fin.signed.tx
        = .ok s') := by
  simp only [State.updateBalanceUponWithdrawal, Res.bind_ok, Res.expect_ok, csub_eq_some,
    cadd_eq_some] at h
  obtain ⟨txFee, h1, fin, h2, r, h3, charged, h4, unspent, h5, debited, h6, balance, h7, eff, h8, uns, h9,
    h10⟩ := h
  exact ⟨txFee, fin, r, charged, unspent, debited, balance, eff, uns, h1, h2, h3, h4, h5, h6, h7, h8.1, h9.1,
    h10⟩

theorem stateRecordFinalized_ok {s s' : State} {i : LedgerBurnIndex} {receipt : Receipt}
    (h : s.recordFinalizedTransaction i receipt = .ok s') :
    ∃ t, s.txs.recordFinalizedTransaction i receipt = .ok t ∧
      ({ s with txs := t } : State).updateBalanceUponWithdrawal i receipt = .ok s' := by
  simp only [State.recordFinalizedTransaction, Res.bind_ok] at h
  exact h

omit [Keccak] in
theorem erc20Debit_frame {s s' : State} {st : TxStatus} {tx : Tx} (h : s.erc20Debit st tx = .ok s') :
    s' = { s with erc20Balances := s'.erc20Balances } := by
  rcases erc20Debit_ok h with ⟨rfl, _⟩ | ⟨_, _, c, b, _, _, rfl⟩ <;> rfl

omit [Keccak] in
theorem updateBalanceUponWithdrawal_frame {s s' : State} {i : LedgerBurnIndex} {receipt : Receipt}
    (h : s.updateBalanceUponWithdrawal i receipt = .ok s') :
    s' = { s with erc20Balances := s'.erc20Balances, nativeBalance := s'.nativeBalance } := by
  obtain ⟨_, _, _, _, _, _, _, _, _, _, _, _, _, _, _, _, _, _, h⟩ := updateBalanceUponWithdrawal_ok h
  have := erc20Debit_frame h
  rw [this]

omit [Keccak] in
theorem recordErc20WithdrawalRequest_ok {s s' : State} {r : Erc20Request}
    (h : s.recordErc20WithdrawalRequest r = .ok s') :
    s.erc20Tokens.containsAlt r.erc20ContractAddress = true ∧
    ∃ t, s.txs.recordWithdrawalRequest (.erc20 r) = .ok t ∧ s' = { s with txs := t } := by
  simp only [State.recordErc20WithdrawalRequest, Res.bind_ok, Res.ensure_ok, Res.pure_ok] at h
  obtain ⟨_, h1, t, h2, h3⟩ := h
  exact ⟨h1, t, h2, h3.symm⟩

omit [Keccak] in
theorem recordSkippedBlock_ok {s s' : State} {b : BlockNumber} (h : s.recordSkippedBlock b = .ok s') :
    s.skippedBlocks.get b = none ∧ s' = { s with skippedBlocks := s.skippedBlocks.insert b () } := by
  simp only [State.recordSkippedBlock, Res.bind_ok, Res.ensure_ok, Res.pure_ok, Bool.not_eq_true',
    FMap.contains_eq_false] at h
  obtain ⟨_, h1, h2⟩ := h
  exact ⟨h1, h2.symm⟩

omit [Keccak] in
theorem recordAddErc20Token_ok {s s' : State} {t : Erc20Token} (h : s.recordAddErc20Token t = .ok s') :
    s.evmNetwork = t.chainId ∧ ∃ toks m, s.supportedErc20Tokens = .ok toks ∧
      (∀ x ∈ toks, x.symbol ≠ t.symbol) ∧
      s.erc20Tokens.tryInsert t.erc20LedgerId t.erc20ContractAddress t.symbol = .ok m ∧
      s' = { s with erc20Tokens := m } := by
  simp only [State.recordAddErc20Token, Res.bind_ok, Res.ensure_ok] at h
  obtain ⟨_, h1, toks, h2, _, h3, h4⟩ := h
  refine ⟨by simpa using h1, toks, ?_⟩
  cases hm : s.erc20Tokens.tryInsert t.erc20LedgerId t.erc20ContractAddress t.symbol with
  | error e => rw [hm] at h4; cases h4
  | ok m =>
    rw [hm] at h4
    simp only [Res.pure_ok] at h4
    refine ⟨m, h2, ?_, rfl, h4.symm⟩
    intro x hx e
    simp only [List.isEmpty_iff, List.filter_eq_nil_iff] at h3
    exact h3 x hx (by simpa using e)

omit [Keccak] in
theorem recordQuarantinedDeposit_frame (s : State) (src : EventSource) :
    s.recordQuarantinedDeposit src =
      { s with
        eventsToMint := s.eventsToMint.erase src
        invalidEvents := if s.invalidEvents.contains src then s.invalidEvents
          else s.invalidEvents.insert src .quarantinedDeposit } := by
  unfold State.recordQuarantinedDeposit
  dsimp only
  split <;> rfl

/-- The pipeline changes as described by `txEvent`. -/
theorem applyEvent_txs {s s' : State} {e : Event} (h : applyEvent s e = .ok s') :
    txEvent s.txs e = .ok s'.txs := by
  cases e <;> simp only [applyEvent, txEvent] at h ⊢
  case init => cases h
  case upgrade a =>
    split at h
    · rename_i s1 h1
      simp only [Except.ok.injEq] at h; subst h
      obtain ⟨_, _, rfl, _⟩ := upgrade_ok h1
      rfl
    · cases h
  case acceptedDeposit d =>
    rcases updateBalanceUponDeposit_ok (recordEventToMint_ok h).2.2.2.2 with ⟨_, _, _, _, rfl⟩ | ⟨_, _, _, _, rfl⟩ <;> rfl
  case acceptedErc20Deposit d =>
    rcases updateBalanceUponDeposit_ok (recordEventToMint_ok h).2.2.2.2 with ⟨_, _, _, _, rfl⟩ | ⟨_, _, _, _, rfl⟩ <;> rfl
  case invalidDeposit src reason =>
    rcases (recordInvalidDeposit_ok h).2.2 with ⟨rfl, _⟩ | ⟨_, rfl⟩ <;> rfl
  case mintedNative => obtain ⟨_, _, d, _, rfl⟩ := recordSuccessfulMint_ok h; rfl
  case mintedErc20 => obtain ⟨_, _, d, _, rfl⟩ := recordSuccessfulMint_ok h; rfl
  case syncedToBlock => simp only [Except.ok.injEq] at h; subst h; rfl
  case acceptedNativeWithdrawalRequest => obtain ⟨t, ht, rfl⟩ := liftTxs_ok h; exact ht
  case createdTransaction => obtain ⟨t, ht, rfl⟩ := liftTxs_ok h; exact ht
  case signedTransaction => obtain ⟨t, ht, rfl⟩ := liftTxs_ok h; exact ht
  case replacedTransaction => obtain ⟨t, ht, rfl⟩ := liftTxs_ok h; exact ht
  case finalizedTransaction =>
    obtain ⟨t, ht, h⟩ := stateRecordFinalized_ok h
    rw [updateBalanceUponWithdrawal_frame h]; exact ht
  case reimbursedNativeWithdrawal => obtain ⟨t, ht, rfl⟩ := liftTxs_ok h; exact ht
  case skippedBlock => obtain ⟨_, rfl⟩ := recordSkippedBlock_ok h; rfl
  case addedErc20Token => obtain ⟨_, _, _, _, _, _, rfl⟩ := recordAddErc20Token_ok h; rfl
  case acceptedErc20WithdrawalRequest => obtain ⟨_, t, ht, rfl⟩ := recordErc20WithdrawalRequest_ok h; exact ht
  case reimbursedErc20Withdrawal => obtain ⟨t, ht, rfl⟩ := liftTxs_ok h; exact ht
  case failedErc20WithdrawalRequest => obtain ⟨t, ht, rfl⟩ := liftTxs_ok h; exact ht
  case quarantinedDeposit =>
    simp only [Except.ok.injEq] at h; subst h; rw [recordQuarantinedDeposit_frame]
  case quarantinedReimbursement => simp only [Except.ok.injEq] at h; subst h; rfl

end EvmMinter
