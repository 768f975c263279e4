import Verif.Lemmas.Proj
/-!
# Configuration, tokens and balances: what each event leaves unchanged
-/

namespace EvmMinter

/-- The part of the configuration that no event changes. -/
structure FixedConfig where
  evmNetwork : EvmNetwork
  ecdsaKeyName : List Char
  nativeLedgerId : Principal
  nativeIndexId : Principal
  nativeSymbol : String
  firstScrapedBlockNumber : BlockNumber
  ledgerSuiteManagerId : Option Principal
  swapCanisterId : Option Principal

def State.fixed (s : State) : FixedConfig :=
  ⟨s.evmNetwork, s.ecdsaKeyName, s.nativeLedgerId, s.nativeIndexId, s.nativeSymbol, s.firstScrapedBlockNumber,
    s.ledgerSuiteManagerId, s.swapCanisterId⟩

/-- The part of the configuration that only upgrades change. -/
structure UpgradableConfig where
  helperContractAddress : Option Address
  evmCanisterId : Principal
  nativeLedgerTransferFee : Wei
  nativeMinimumWithdrawalAmount : Wei
  blockHeight : BlockTag
  depositNativeFee : Option Wei
  withdrawalNativeFee : Option Wei
  minMaxPriorityFeePerGas : WeiPerGas

def State.upgradable (s : State) : UpgradableConfig :=
  ⟨s.helperContractAddress, s.evmCanisterId, s.nativeLedgerTransferFee, s.nativeMinimumWithdrawalAmount,
    s.blockHeight, s.depositNativeFee, s.withdrawalNativeFee, s.minMaxPriorityFeePerGas⟩

variable [Keccak]

/-- What each event does outside the deposits and the pipeline. -/
theorem applyEvent_frame {s s' : State} {e : Event} (h : applyEvent s e = .ok s') :
    s'.fixed = s.fixed ∧ ((∀ a, e ≠ .upgrade a) → s'.upgradable = s.upgradable) ∧
    ((∀ t, e ≠ .addedErc20Token t) → s'.erc20Tokens = s.erc20Tokens) := by
  have lift : ∀ {r : Res Transactions} {s' : State}, liftTxs s r = .ok s' → 
      s'.fixed = s.fixed ∧ (s'.upgradable = s.upgradable) ∧ s'.erc20Tokens = s.erc20Tokens := by
    intro r s' h
    obtain ⟨t, _, rfl⟩ := liftTxs_ok h
    exact ⟨rfl, rfl, rfl⟩
  have weak : (s'.fixed = s.fixed ∧ (s'.upgradable = s.upgradable) ∧ s'.erc20Tokens = s.erc20Tokens) → 
      s'.fixed = s.fixed ∧ ((∀ a, e ≠ .upgrade a) → s'.upgradable = s.upgradable) ∧
      ((∀ t, e ≠ .addedErc20Token t) → s'.erc20Tokens = s.erc20Tokens) := 
    fun h => ⟨h.1, fun _ => h.2.1, fun _ => h.2.2⟩
  have dep : ∀ {d : Deposit}, s.recordEventToMint d = .ok s' →
      s'.fixed = s.fixed ∧ (s'.upgradable = s.upgradable) ∧ s'.erc20Tokens = s.erc20Tokens := by
    intro d h
    obtain ⟨_, _, _, _, h⟩ := recordEventToMint_ok h
    rcases updateBalanceUponDeposit_ok h with ⟨_, _, _, _, rfl⟩ | ⟨_, _, _, _, rfl⟩ <;> exact ⟨rfl, rfl, rfl⟩
  cases e <;> simp only [applyEvent] at h
  case init => cases h
  case upgrade a =>
    split at h
    · rename_i s1 h1
      simp only [Except.ok.injEq] at h; subst h
      obtain ⟨_, _, rfl, _⟩ := upgrade_ok h1
      exact ⟨rfl, fun h => absurd rfl (h a), fun _ => rfl⟩
    · cases h
  case acceptedDeposit d => exact weak (dep h)
  case acceptedErc20Deposit d => exact weak (dep h)
  case invalidDeposit src m =>
    obtain ⟨_, _, ⟨rfl, _⟩ | ⟨_, rfl⟩⟩ := recordInvalidDeposit_ok h <;> exact weak ⟨rfl, rfl, rfl⟩
  case mintedNative src m =>
    obtain ⟨_, _, _, _, rfl⟩ := recordSuccessfulMint_ok h; exact weak ⟨rfl, rfl, rfl⟩
  case mintedErc20 src m _ _ =>
    obtain ⟨_, _, _, _, rfl⟩ := recordSuccessfulMint_ok h; exact weak ⟨rfl, rfl, rfl⟩
  case syncedToBlock c =>
    simp only [Except.ok.injEq] at h; subst h; exact weak ⟨rfl, rfl, rfl⟩
  case finalizedTransaction i r =>
    obtain ⟨t, _, h⟩ := stateRecordFinalized_ok h
    have := updateBalanceUponWithdrawal_frame h
    exact weak ⟨by rw [this]; rfl, by rw [this]; rfl, by rw [this]⟩
  case skippedBlock c => 
    obtain ⟨_, rfl⟩ := recordSkippedBlock_ok h; exact weak ⟨rfl, rfl, rfl⟩
  case addedErc20Token t =>
    obtain ⟨_, _, _, _, _, _, rfl⟩ := recordAddErc20Token_ok h
    exact ⟨rfl, fun _ => rfl, fun h => absurd rfl (h t)⟩
  case acceptedErc20WithdrawalRequest r =>
    obtain ⟨_, _, _, rfl⟩ := recordErc20WithdrawalRequest_ok h; exact weak ⟨rfl, rfl, rfl⟩
  case quarantinedDeposit src =>
    simp only [Except.ok.injEq] at h; subst h
    have := recordQuarantinedDeposit_frame s src
    exact weak ⟨by rw [this]; rfl, by rw [this]; rfl, by rw [this]⟩
  case quarantinedReimbursement x =>
    simp only [Except.ok.injEq] at h; subst h; exact weak ⟨rfl, rfl, rfl⟩
  all_goals exact weak (lift h)

theorem applyEvent_network {s s' : State} {e : Event} (h : applyEvent s e = .ok s') :
    s'.evmNetwork = s.evmNetwork := congrArg FixedConfig.evmNetwork (applyEvent_frame h).1

end EvmMinter
