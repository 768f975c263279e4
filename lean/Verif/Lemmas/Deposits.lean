import Verif.Lemmas.Proj
/-!
# Deposit bookkeeping: what each event does to the three deposit maps
-/

namespace EvmMinter

variable [Keccak]

/-- Effect of one event on the deposit maps. -/
inductive DepStep : DepState → Event → DepState → Prop where
  | accept (D : DepState) (d : Deposit) :
      D.toMint.get d.source = none → D.minted.get d.source = none → D.invalid.get d.source = none →
      DepStep D d.intoEvent { D with toMint := D.toMint.insert d.source d }
  | mint (D : DepState) (e : Event) (src : EventSource) (d : Deposit) (b : LedgerMintIndex) (sym : String)
      (c : Option Address) :
      ((e = .mintedNative src b ∧ c = none) ∨ (∃ a, e = .mintedErc20 src b sym a ∧ c = some a)) →
      D.invalid.get src = none → D.minted.get src = none → D.toMint.get src = some d →
      DepStep D e { D with toMint := D.toMint.erase src, minted := D.minted.insert src ⟨d, b, sym, c⟩ }
  | invalid (D : DepState) (src : EventSource) (reason : String) :
      D.toMint.get src = none → D.minted.get src = none → D.invalid.get src = none →
      DepStep D (.invalidDeposit src reason)
        { D with invalid := D.invalid.insert src (.invalidDeposit reason) }
  | invalidAgain (D : DepState) (src : EventSource) (reason : String) (x : InvalidReason) :
      D.toMint.get src = none → D.minted.get src = none → D.invalid.get src = some x →
      DepStep D (.invalidDeposit src reason) D
  | quarantine (D : DepState) (src : EventSource) :
      DepStep D (.quarantinedDeposit src)
        { D with
          toMint := D.toMint.erase src
          invalid := if D.invalid.contains src then D.invalid
            else D.invalid.insert src .quarantinedDeposit }
  | other (D : DepState) (e : Event) :
      (match e with
        | .acceptedDeposit _ | .acceptedErc20Deposit _ | .mintedNative _ _ | .mintedErc20 _ _ _ _
        | .invalidDeposit _ _ | .quarantinedDeposit _ => False
        | _ => True) →
      DepStep D e D

theorem applyEvent_dep {s s' : State} {e : Event} (h : applyEvent s e = .ok s') :
    DepStep s.dep e s'.dep := by
  cases e <;> simp only [applyEvent] at h
  case init => cases h
  case upgrade a =>
    split at h
    · rename_i s1 h1
      simp only [Except.ok.injEq] at h; subst h
      obtain ⟨_, _, rfl, _⟩ := upgrade_ok h1
      exact .other _ _ trivial
    · cases h
  case acceptedDeposit d =>
    obtain ⟨h1, h2, h3, _, h⟩ := recordEventToMint_ok h
    rcases updateBalanceUponDeposit_ok h with ⟨_, _, _, _, rfl⟩ | ⟨_, _, _, _, rfl⟩
    · exact .accept s.dep (.native d) h1 h2 h3
    · exact .accept s.dep (.native d) h1 h2 h3
  case acceptedErc20Deposit d =>
    obtain ⟨h1, h2, h3, _, h⟩ := recordEventToMint_ok h
    rcases updateBalanceUponDeposit_ok h with ⟨_, _, _, _, rfl⟩ | ⟨_, _, _, _, rfl⟩
    · exact .accept s.dep (.erc20 d) h1 h2 h3
    · exact .accept s.dep (.erc20 d) h1 h2 h3
  case invalidDeposit src reason =>
    obtain ⟨h1, h2, h⟩ := recordInvalidDeposit_ok h
    rcases h with ⟨rfl, x, hx⟩ | ⟨hx, rfl⟩
    · exact .invalidAgain _ _ _ x h1 h2 hx
    · exact .invalid s.dep _ _ h1 h2 hx
  case mintedNative src b =>
    obtain ⟨h1, h2, d, h3, rfl⟩ := recordSuccessfulMint_ok h
    exact .mint s.dep _ src d b _ none (.inl ⟨rfl, rfl⟩) h1 h2 h3
  case mintedErc20 src b sym c =>
    obtain ⟨h1, h2, d, h3, rfl⟩ := recordSuccessfulMint_ok h
    exact .mint s.dep _ src d b sym (some c) (.inr ⟨c, rfl, rfl⟩) h1 h2 h3
  case syncedToBlock => simp only [Except.ok.injEq] at h; subst h; exact .other _ _ trivial
  case acceptedNativeWithdrawalRequest => obtain ⟨t, ht, rfl⟩ := liftTxs_ok h; exact .other _ _ trivial
  case createdTransaction => obtain ⟨t, ht, rfl⟩ := liftTxs_ok h; exact .other _ _ trivial
  case signedTransaction => obtain ⟨t, ht, rfl⟩ := liftTxs_ok h; exact .other _ _ trivial
  case replacedTransaction => obtain ⟨t, ht, rfl⟩ := liftTxs_ok h; exact .other _ _ trivial
  case finalizedTransaction =>
    obtain ⟨t, ht, h⟩ := stateRecordFinalized_ok h
    rw [updateBalanceUponWithdrawal_frame h]; exact .other _ _ trivial
  case reimbursedNativeWithdrawal => obtain ⟨t, ht, rfl⟩ := liftTxs_ok h; exact .other _ _ trivial
  case skippedBlock => obtain ⟨_, rfl⟩ := recordSkippedBlock_ok h; exact .other _ _ trivial
  case addedErc20Token =>
    obtain ⟨_, _, _, _, _, _, rfl⟩ := recordAddErc20Token_ok h; exact .other _ _ trivial
  case acceptedErc20WithdrawalRequest =>
    obtain ⟨_, t, ht, rfl⟩ := recordErc20WithdrawalRequest_ok h; exact .other _ _ trivial
  case reimbursedErc20Withdrawal => obtain ⟨t, ht, rfl⟩ := liftTxs_ok h; exact .other _ _ trivial
  case failedErc20WithdrawalRequest => obtain ⟨t, ht, rfl⟩ := liftTxs_ok h; exact .other _ _ trivial
  case quarantinedDeposit src =>
    simp only [Except.ok.injEq] at h; subst h; rw [recordQuarantinedDeposit_frame]
    exact .quarantine s.dep src
  case quarantinedReimbursement => simp only [Except.ok.injEq] at h; subst h; exact .other _ _ trivial

omit [Keccak] in
/-- The freshly initialised state has no deposits, tokens or withdrawals. -/
theorem ofInit_ok {a : InitArg} {s : State} (h : State.ofInit a = .ok s) :
    s.eventsToMint = ∅ ∧ s.mintedEvents = ∅ ∧ s.invalidEvents = ∅ ∧ s.erc20Tokens = ∅ ∧
    s.erc20Balances = ∅ ∧ s.nativeBalance = ⟨0, 0, 0⟩ ∧ s.skippedBlocks = ∅ ∧
    s.txs = Transactions.new a.nextTransactionNonce ∧ s.validateConfig = .ok () ∧
    s.lastScrapedBlockNumber = a.lastScrapedBlockNumber ∧
    s.firstScrapedBlockNumber = a.lastScrapedBlockNumber + 1 ∧
    s.evmNetwork = a.evmNetwork ∧ s.nativeLedgerId = a.nativeLedgerId ∧
    s.ecdsaKeyName = a.ecdsaKeyName ∧ a.nextTransactionNonce < U256 ∧
    s.ledgerSuiteManagerId = some a.ledgerSuiteManagerId ∧
    s.nativeMinimumWithdrawalAmount = a.nativeMinimumWithdrawalAmount ∧
    s.nativeLedgerTransferFee = a.nativeLedgerTransferFee ∧
    s.depositNativeFee = State.feeOption a.depositNativeFee ∧
    s.withdrawalNativeFee = State.feeOption a.withdrawalNativeFee ∧
    a.lastScrapedBlockNumber + 1 < U256 ∧ s.nativeSymbol = a.nativeSymbol ∧
    s.minMaxPriorityFeePerGas = a.minMaxPriorityFeePerGas := by
  simp only [State.ofInit, bind_ok', pure_ok', orErr_ok, u256OfNat_some] at h
  obtain ⟨n, ⟨rfl, hn⟩, w, ⟨rfl, hw⟩, f, ⟨rfl, hf⟩, hp, hhp, l, ⟨rfl, hl⟩, p, ⟨rfl, hpp⟩, fs, hfs, d, ⟨rfl, hd⟩,
    wf, ⟨rfl, hwf⟩, _, hv, rfl⟩ := h
  simp only [cinc, cadd_eq_some] at hfs
  obtain ⟨rfl, hb⟩ := hfs
  exact ⟨rfl, rfl, rfl, rfl, rfl, rfl, rfl, rfl, hv, rfl, rfl, rfl, rfl, rfl, hn, rfl, rfl, rfl, rfl, rfl, hb,
    rfl, rfl⟩

end EvmMinter
