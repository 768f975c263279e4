import Verif.Model.State
import Verif.Lemmas.MKM
/-!
# Histories: induction over accepted logs, and projections of `applyEvent`
-/

namespace EvmMinter

variable [Keccak]

theorem applyEvents_append (s : State) (l₁ l₂ : List Event) :
    applyEvents s (l₁ ++ l₂) = (applyEvents s l₁ >>= fun s' => applyEvents s' l₂) := by
  induction l₁ generalizing s with
  | nil => rfl
  | cons e t ih =>
    simp only [List.cons_append, applyEvents]
    cases h : applyEvent s e with
    | error m => rfl
    | ok s' => simp only [bind, Except.bind]; exact ih s'

theorem applyEvents_single (s : State) (e : Event) : applyEvents s [e] = applyEvent s e := by
  simp only [applyEvents]
  cases applyEvent s e <;> rfl

theorem replay_snoc {log : List Event} (hne : log ≠ []) (e : Event) :
    replay (log ++ [e]) = (replay log >>= fun s => applyEvent s e) := by
  cases log with
  | nil => exact absurd rfl hne
  | cons a t =>
    cases a <;> try rfl
    rename_i arg
    simp only [List.cons_append, replay]
    cases State.ofInit arg with
    | error m => rfl
    | ok s =>
      simp only [applyEvents_append]
      cases applyEvents s t with
      | error m => rfl
      | ok s' => simp only [bind, Except.bind]; exact applyEvents_single s' e

/-- A non-empty log whose first event is `Init`. -/
theorem replay_ne_nil {log : List Event} {s : State} (h : replay log = .ok s) : log ≠ [] := by
  rintro rfl; cases h

theorem replay_cons {e : Event} {t : List Event} {s : State} (h : replay (e :: t) = .ok s) :
    ∃ arg s0, e = .init arg ∧ State.ofInit arg = .ok s0 ∧ applyEvents s0 t = .ok s := by
  cases e
  case init arg =>
    simp only [replay] at h
    split at h
    · rename_i s0 h0; exact ⟨arg, s0, rfl, h0, h⟩
    · cases h
  all_goals (simp [replay] at h)

/-- Induction over accepted logs. -/
theorem replay_induct {P : List Event → State → Prop}
    (hinit : ∀ a s, State.ofInit a = .ok s → P [.init a] s)
    (hstep : ∀ log s e s', replay log = .ok s → P log s → applyEvent s e = .ok s' → P (log ++ [e]) s')
    {log : List Event} {s : State} (h : replay log = .ok s) : P log s := by
  have aux : ∀ (t pre : List Event) (s s' : State), replay pre = .ok s → P pre s →
      applyEvents s t = .ok s' → P (pre ++ t) s' := by
    intro t
    induction t with
    | nil =>
      intro pre s s' _ hp ha
      simp only [applyEvents, Except.ok.injEq] at ha
      subst ha; simpa using hp
    | cons e t ih =>
      intro pre s s' hr hp ha
      simp only [applyEvents, Res.bind_ok] at ha
      obtain ⟨s1, h1, h2⟩ := ha
      have hr1 : replay (pre ++ [e]) = .ok s1 := by
        rw [replay_snoc (replay_ne_nil hr), hr]; exact h1
      have := ih (pre ++ [e]) s1 s' hr1 (hstep pre s e s1 hr hp h1) h2
      simpa using this
  cases log with
  | nil => cases h
  | cons a t =>
    obtain ⟨arg, s0, rfl, h0, h⟩ := replay_cons h
    have hr0 : replay [.init arg] = .ok s0 := by simp [replay, h0, applyEvents]
    exact aux t [.init arg] s0 s hr0 (hinit arg s0 h0) h

/-- Every prefix (with at least the `Init` event) of an accepted log is accepted. -/
theorem replay_prefix {l₁ l₂ : List Event} {s : State} (h : replay (l₁ ++ l₂) = .ok s) (hne : l₁ ≠ []) :
    ∃ s₁, replay l₁ = .ok s₁ ∧ applyEvents s₁ l₂ = .ok s := by
  cases l₁ with
  | nil => exact absurd rfl hne
  | cons a t =>
    obtain ⟨arg, s0, rfl, h0, h⟩ := replay_cons h
    change applyEvents s0 (t ++ l₂) = _ at h
    rw [applyEvents_append, Res.bind_ok] at h
    simpa [replay, h0] using h

/-- Only the first event is `Init`. -/
theorem replay_init_only {t : List Event} {e a : Event} {s : State} (h : replay (e :: t) = .ok s)
    (ha : a ∈ t) (x : InitArg) : a ≠ .init x := by
  rintro rfl
  obtain ⟨l₁, l₂, rfl⟩ := List.append_of_mem ha
  have h' : replay ((e :: l₁) ++ (Event.init x :: l₂)) = .ok s := by simpa using h
  obtain ⟨s₁, _, h2⟩ := replay_prefix h' (by simp)
  simp [applyEvents, applyEvent] at h2

/-! ## Projections -/

/-- The next nonce after an upgrade. -/
def withNonce (t : Transactions) : Option Nat → Transactions
  | some n => t.updateNextNonce n
  | none => t

/-- A fee after an upgrade. -/
def feeOr (old : Option Wei) : Option Nat → Option Wei
  | some n => State.feeOption n
  | none => old

/-- The helper contract address after an upgrade. -/
def HelperUpd (old : Option Address) (new : Option Address) : Option (List Char) → Prop
  | none => new = old
  | some h => ∃ x, Address.parse h = some x ∧ new = some x

/-- The effect of an event on the withdrawal pipeline. -/
def txEvent (t : Transactions) : Event → Res Transactions
  | .upgrade a => .ok (withNonce t a.nextTransactionNonce)
  | .acceptedNativeWithdrawalRequest r => t.recordWithdrawalRequest (.native r)
  | .acceptedErc20WithdrawalRequest r => t.recordWithdrawalRequest (.erc20 r)
  | .createdTransaction i tx => t.recordCreatedTransaction i tx
  | .signedTransaction _ tx => t.recordSignedTransaction tx
  | .replacedTransaction _ tx => t.recordResubmitTransaction tx
  | .finalizedTransaction i r => t.recordFinalizedTransaction i r
  | .reimbursedNativeWithdrawal r => t.recordFinalizedReimbursement (.native r.burnInBlock) r.reimbursedInBlock
  | .reimbursedErc20Withdrawal n l r =>
    t.recordFinalizedReimbursement (.erc20 n l r.burnInBlock) r.reimbursedInBlock
  | .failedErc20WithdrawalRequest r => t.recordReimbursementRequest (.native r.ledgerBurnIndex) r
  | .quarantinedReimbursement i => .ok (t.recordQuarantinedReimbursement i)
  | _ => .ok t

/-- The parts of the state concerned with deposits. -/
structure DepState where
  toMint : FMap EventSource Deposit
  minted : FMap EventSource MintedEvent
  invalid : FMap EventSource InvalidReason

/-- Projection of the state on its deposits. -/
def State.dep (s : State) : DepState := ⟨s.eventsToMint, s.mintedEvents, s.invalidEvents⟩

omit [Keccak] in
@[simp] theorem orErr_ok {α ε : Type} {o : Option α} {e : ε} {a : α} : orErr o e = .ok a ↔ o = some a := by
  cases o <;> simp [orErr]

omit [Keccak] in
@[simp] theorem bind_ok' {ε α β : Type} {x : Except ε α} {f : α → Except ε β} {b : β} :
    (x >>= f) = Except.ok b ↔ ∃ a, x = .ok a ∧ f a = .ok b := by
  cases x with
  | error e => simp [bind, Except.bind]
  | ok a => simp [bind, Except.bind]

omit [Keccak] in
@[simp] theorem pure_ok' {ε α : Type} {a b : α} : (pure a : Except ε α) = .ok b ↔ a = b := by
  simp [pure, Except.pure]

omit [Keccak] in
@[simp] theorem u256OfNat_some {n m : Nat} : u256OfNat n = some m ↔ n = m ∧ m < U256 := by
  unfold u256OfNat
  split
  · constructor
    · intro h; simp at h; subst h; exact ⟨rfl, by assumption⟩
    · rintro ⟨rfl, _⟩; rfl
  · constructor
    · intro h; cases h
    · rintro ⟨rfl, h⟩; contradiction

omit [Keccak] in
/-- What an accepted upgrade does, field by field. -/
theorem upgrade_ok {s s' : State} {a : UpgradeArg} (h : s.upgrade a = .ok s') :
    ∃ helper : Option Address,
      HelperUpd s.helperContractAddress helper a.helperContractAddress ∧
      s' = { s with
        txs := withNonce s.txs a.nextTransactionNonce
        nativeMinimumWithdrawalAmount :=
          a.nativeMinimumWithdrawalAmount.getD s.nativeMinimumWithdrawalAmount
        nativeLedgerTransferFee := a.nativeLedgerTransferFee.getD s.nativeLedgerTransferFee
        minMaxPriorityFeePerGas := a.minMaxPriorityFeePerGas.getD s.minMaxPriorityFeePerGas
        helperContractAddress := helper
        lastScrapedBlockNumber := a.lastScrapedBlockNumber.getD s.lastScrapedBlockNumber
        blockHeight := a.blockHeight.getD s.blockHeight
        evmCanisterId := a.evmRpcId.getD s.evmCanisterId
        depositNativeFee := feeOr s.depositNativeFee a.depositNativeFee
        withdrawalNativeFee := feeOr s.withdrawalNativeFee a.withdrawalNativeFee } ∧
      s'.validateConfig = .ok () ∧
      (∀ n, a.nextTransactionNonce = some n → n < U256) ∧
      (∀ n, a.nativeMinimumWithdrawalAmount = some n → n < U256) ∧
      (∀ n, a.nativeLedgerTransferFee = some n → n < U256) ∧
      (∀ n, a.lastScrapedBlockNumber = some n → n < U256) ∧
      (∀ n, a.depositNativeFee = some n → n < U256) ∧
      (∀ n, a.withdrawalNativeFee = some n → n < U256) ∧
      (∀ n, a.minMaxPriorityFeePerGas = some n → n < U256) := by
  obtain ⟨n1, n2, n3, n4, n5, n6, n7, n8, n9, n10⟩ := a
  simp only [State.upgrade, bind_ok', pure_ok'] at h
  obtain ⟨s1, h1, s2, h2, s3, h3, s4, h4, s5, h5, s6, h6, s7, h7, s8, h8, s9, h9, s10, h10, _, hv, rfl⟩ := h
  have upd : ∀ {α : Type} (o : Option α) (f : State → α → Except InvalidStateError State) (x y : State),
      State.updOpt o f x = .ok y → (o = none ∧ y = x) ∨ (∃ a, o = some a ∧ f x a = .ok y) := by
    intro α o f x y hh
    cases o with
    | none => simp [State.updOpt] at hh; exact .inl ⟨rfl, hh.symm⟩
    | some a => exact .inr ⟨a, rfl, hh⟩
  replace h1 : s1 = { s with txs := withNonce s.txs n1 } ∧
      (∀ n, n1 = some n → n < U256) := by
    rcases upd _ _ _ _ h1 with ⟨rfl, rfl⟩ | ⟨a, rfl, hh⟩
    · exact ⟨rfl, by simp⟩
    · simp only [bind_ok', pure_ok', orErr_ok, u256OfNat_some] at hh
      obtain ⟨_, ⟨rfl, hb⟩, rfl⟩ := hh
      exact ⟨rfl, by simpa using hb⟩
  replace h2 : s2 = { s1 with nativeMinimumWithdrawalAmount := n2.getD s1.nativeMinimumWithdrawalAmount } ∧
      (∀ n, n2 = some n → n < U256) := by
    rcases upd _ _ _ _ h2 with ⟨rfl, rfl⟩ | ⟨a, rfl, hh⟩
    · exact ⟨rfl, by simp⟩
    · simp only [bind_ok', pure_ok', orErr_ok, u256OfNat_some] at hh
      obtain ⟨_, ⟨rfl, hb⟩, rfl⟩ := hh
      exact ⟨rfl, by simpa using hb⟩
  replace h3 : s3 = { s2 with nativeLedgerTransferFee := n7.getD s2.nativeLedgerTransferFee } ∧
      (∀ n, n7 = some n → n < U256) := by
    rcases upd _ _ _ _ h3 with ⟨rfl, rfl⟩ | ⟨a, rfl, hh⟩
    · exact ⟨rfl, by simp⟩
    · simp only [bind_ok', pure_ok', orErr_ok, u256OfNat_some] at hh
      obtain ⟨_, ⟨rfl, hb⟩, rfl⟩ := hh
      exact ⟨rfl, by simpa using hb⟩
  replace h4 : s4 = { s3 with minMaxPriorityFeePerGas := n8.getD s3.minMaxPriorityFeePerGas } ∧
      (∀ n, n8 = some n → n < U256) := by
    rcases upd _ _ _ _ h4 with ⟨rfl, rfl⟩ | ⟨a, rfl, hh⟩
    · exact ⟨rfl, by simp⟩
    · simp only [bind_ok', pure_ok', orErr_ok, u256OfNat_some] at hh
      obtain ⟨_, ⟨rfl, hb⟩, rfl⟩ := hh
      exact ⟨rfl, by simpa using hb⟩
  replace h5 : ∃ helper : Option Address,
      HelperUpd s.helperContractAddress helper n3 ∧
      s5 = { s4 with helperContractAddress := helper } := by
    rcases upd _ _ _ _ h5 with ⟨rfl, rfl⟩ | ⟨a, rfl, hh⟩
    · refine ⟨s.helperContractAddress, rfl, ?_⟩
      rw [h4.1, h3.1, h2.1, h1.1]
    · simp only [bind_ok', pure_ok', orErr_ok] at hh
      obtain ⟨x, hx, rfl⟩ := hh
      exact ⟨some x, ⟨x, hx, rfl⟩, rfl⟩
  replace h6 : s6 = { s5 with lastScrapedBlockNumber := n5.getD s5.lastScrapedBlockNumber } ∧
      (∀ n, n5 = some n → n < U256) := by
    rcases upd _ _ _ _ h6 with ⟨rfl, rfl⟩ | ⟨a, rfl, hh⟩
    · exact ⟨rfl, by simp⟩
    · simp only [bind_ok', pure_ok', orErr_ok, u256OfNat_some] at hh
      obtain ⟨_, ⟨rfl, hb⟩, rfl⟩ := hh
      exact ⟨rfl, by simpa using hb⟩
  replace h7 : s7 = { s6 with blockHeight := n4.getD s6.blockHeight } := by
    rcases upd _ _ _ _ h7 with ⟨rfl, rfl⟩ | ⟨a, rfl, hh⟩
    · rfl
    · simp only [Except.ok.injEq] at hh; exact hh.symm
  replace h8 : s8 = { s7 with evmCanisterId := n6.getD s7.evmCanisterId } := by
    rcases upd _ _ _ _ h8 with ⟨rfl, rfl⟩ | ⟨a, rfl, hh⟩
    · rfl
    · simp only [Except.ok.injEq] at hh; exact hh.symm
  replace h9 : s9 = { s8 with depositNativeFee := feeOr s8.depositNativeFee n9 } ∧
      (∀ n, n9 = some n → n < U256) := by
    rcases upd _ _ _ _ h9 with ⟨rfl, rfl⟩ | ⟨a, rfl, hh⟩
    · exact ⟨rfl, by simp⟩
    · simp only [bind_ok', pure_ok', orErr_ok, u256OfNat_some] at hh
      obtain ⟨_, ⟨rfl, hb⟩, rfl⟩ := hh
      exact ⟨rfl, by simpa using hb⟩
  replace h10 : s10 = { s9 with withdrawalNativeFee := feeOr s9.withdrawalNativeFee n10 } ∧
      (∀ n, n10 = some n → n < U256) := by
    rcases upd _ _ _ _ h10 with ⟨rfl, rfl⟩ | ⟨a, rfl, hh⟩
    · exact ⟨rfl, by simp⟩
    · simp only [bind_ok', pure_ok', orErr_ok, u256OfNat_some] at hh
      obtain ⟨_, ⟨rfl, hb⟩, rfl⟩ := hh
      exact ⟨rfl, by simpa using hb⟩
  obtain ⟨helper, hh, h5⟩ := h5
  refine ⟨helper, hh, ?_, hv, h1.2, h2.2, h3.2, h6.2, h9.2, h10.2, h4.2⟩
  rw [h10.1, h9.1, h8, h7, h6.1, h5, h4.1, h3.1, h2.1, h1.1]

end EvmMinter
