import Verif.Lemmas.Thread
/-!
# The parts of the asynchronous tasks, inverted
-/

namespace EvmMinter
open Spec

section

theorem toU64_ok {i j : Nat} : toU64 i = .ok j ↔ i = j ∧ j < 2 ^ 64 := by
  unfold toU64
  split
  · rename_i h
    simp only [Except.ok.injEq]
    constructor
    · rintro rfl; exact ⟨rfl, h⟩
    · exact fun h => h.1
  · rename_i h
    simp only [reduceCtorEq, false_iff, not_and]
    rintro rfl hj
    exact h hj

theorem burnResult_ok {a : LedgerAnswer} {i : Nat} : burnResult a = .ok (.ok i) ↔ a = .block i ∧ i < 2 ^ 64 := by
  cases a with
  | block j => simp only [burnResult, Res.bind_ok, Res.pure_ok, toU64_ok, LedgerAnswer.block.injEq, Except.ok.injEq]; grind
  | refused e => cases e <;> simp [burnResult]
  | rejected => simp [burnResult]

theorem burnResult_error {a : LedgerAnswer} {e : LedgerError} (h : burnResult a = .ok (.error e)) : ∀ i, a ≠ .block i := by
  rintro i rfl
  simp only [burnResult, Res.bind_ok, Res.pure_ok] at h
  obtain ⟨_, _, h⟩ := h
  cases h

theorem transferResult_ok {a : LedgerAnswer} {i : Nat} : transferResult a = .ok (.ok i) ↔ a = .block i ∧ i < 2 ^ 64 := by
  cases a with
  | block j => simp only [transferResult, Res.bind_ok, Res.pure_ok, toU64_ok, LedgerAnswer.block.injEq, Except.ok.injEq]; grind
  | refused e => cases e <;> simp [transferResult]
  | rejected => simp [transferResult]

theorem transferResult_error {a : LedgerAnswer} {e : LedgerError} (h : transferResult a = .ok (.error e)) : ∀ i, a ≠ .block i := by
  rintro i rfl
  simp only [transferResult, Res.bind_ok, Res.pure_ok] at h
  obtain ⟨_, _, h⟩ := h
  cases h

variable [Keccak]

theorem Mem.process_iff {c c' : Mem} {e : Event} : c.process e = .ok c' ↔
    ∃ s, applyEvent c.m.st e = .ok s ∧ c' = { c with m := ⟨s, c.m.log ++ [e]⟩ } := by
  simp only [Mem.process, Minter.processEvent, Res.bind_ok, Res.pure_ok]
  constructor
  · rintro ⟨m, ⟨s, hs, rfl⟩, rfl⟩; exact ⟨s, hs, rfl⟩
  · rintro ⟨s, hs, rfl⟩; exact ⟨_, ⟨s, hs, rfl⟩, rfl⟩

theorem news_process {c c' : Mem} {e : Event} (h : c.process e = .ok c') : news c c' = [e] := by
  obtain ⟨s, _, rfl⟩ := Mem.process_iff.1 h
  simp [news]

omit [Keccak] in
theorem news_same {c c' : Mem} (h : c'.m = c.m) : news c c' = [] := by simp [news, h]

omit [Keccak] in
theorem news_eq {c c' c'' : Mem} (h : c''.m = c'.m) : news c c'' = news c c' := by simp [news, h]

/-- A call that was answered with a block succeeded; the deposit is native and has a fee, or is recorded. -/
theorem Mem.onMintUser_cases {c c' : Mem} {env : MintEnv} {d : Deposit} {symbol : String} {ledger : Principal} {rest : List Deposit}
    {a : LedgerAnswer} {n : Next} (h : c.onMintUser env d symbol ledger rest a = .ok (c', n)) :
    (∃ i fee e, a = .block i ∧ i < 2 ^ 64 ∧ d = .native e ∧ env.fee = some fee ∧ c' = c ∧
        n = .await (.ledger (.mintFee env d symbol ledger fee i rest))) ∨
      (∃ i c1, a = .block i ∧ i < 2 ^ 64 ∧ (∀ e, d = .native e → env.fee = none) ∧ c.process (d.mintedEvent symbol i) = .ok c1 ∧
        c1.mintLoop env rest = .ok (c', n)) ∨
      ((∀ i, a ≠ .block i) ∧ c.mintLoop env rest = .ok (c', n)) := by
  unfold Mem.onMintUser at h
  split at h
  · rename_i i
    simp only [Res.bind_ok, toU64_ok] at h
    obtain ⟨j, ⟨rfl, hj⟩, h⟩ := h
    split at h
    · rename_i e fee he
      cases h
      exact .inl ⟨i, fee, _, rfl, hj, rfl, he, rfl, rfl⟩
    · rename_i hne
      simp only [Mem.mintRecord, Res.bind_ok] at h
      obtain ⟨c1, h1, h2⟩ := h
      refine .inr (.inl ⟨i, c1, rfl, hj, fun e he => ?_, h1, h2⟩)
      cases hf : env.fee with
      | none => rfl
      | some f => exact absurd hf (hne e f he)
  · rename_i hne
    exact .inr (.inr ⟨fun i hi => hne i hi, h⟩)

theorem Mem.onReimburse_cases {c c' : Mem} {x : ReimbIndex} {r : ReimbRequest} {rest : List (ReimbIndex × ReimbRequest)}
    {a : LedgerAnswer} {n : Next} (h : c.onReimburse x r rest a = .ok (c', n)) :
    (∃ i c1, a = .block i ∧ i < 2 ^ 64 ∧ c.process (reimbursedEvent x r i) = .ok c1 ∧ c1.reimburseLoop rest = .ok (c', n)) ∨
      ((∀ i, a ≠ .block i) ∧ c.reimburseLoop rest = .ok (c', n)) := by
  unfold Mem.onReimburse at h
  split at h
  · rename_i i
    simp only [Res.bind_ok, toU64_ok] at h
    obtain ⟨j, ⟨rfl, hj⟩, c1, h1, h2⟩ := h
    exact .inl ⟨i, c1, rfl, hj, h1, h2⟩
  · rename_i hne
    exact .inr ⟨fun i hi => hne i hi, h⟩

omit [Keccak] in
theorem Mem.onNativeFee_cases {c c' : Mem} {q : NativeCall} {fee : Wei} {a : LedgerAnswer} {now : Nat} {n : Next}
    (h : c.onNativeFee q fee a now = .ok (c', n)) :
    (∃ i amount, a = .block i ∧ i < 2 ^ 64 ∧ csub q.amount fee = some amount ∧ c' = c ∧
        n = .await (.ledger (.nativeBurn q c.m.st.nativeLedgerId amount now))) ∨
      ((∀ i, a ≠ .block i) ∧ ∃ e, c' = c.leave q.caller ∧ n = .finish (some (.native (.error e)))) := by
  simp only [Mem.onNativeFee, Res.bind_ok] at h
  obtain ⟨x, hx, h⟩ := h
  split at h
  · rename_i i
    simp only [Res.bind_ok, Res.expect_ok, Res.pure_ok, Mem.nativeStartBurn, Prod.mk.injEq] at h
    obtain ⟨amount, h1, rfl, rfl⟩ := h
    obtain ⟨h2, h3⟩ := transferResult_ok.1 hx
    exact .inl ⟨i, amount, h2, h3, h1, rfl, rfl⟩
  · simp only [Res.bind_ok, Res.pure_ok, Mem.nativeReturn, Prod.mk.injEq] at h
    obtain ⟨e, _, rfl, rfl⟩ := h
    exact .inr ⟨transferResult_error hx, e, rfl, rfl⟩

theorem Mem.onNativeBurn_cases {c c' : Mem} {q : NativeCall} {l : Principal} {amount : Wei} {a : LedgerAnswer} {now : Nat} {n : Next}
    (h : c.onNativeBurn q l amount now a = .ok (c', n)) :
    (∃ i c1, a = .block i ∧ i < 2 ^ 64 ∧
        c.process (.acceptedNativeWithdrawalRequest ⟨amount, q.destination, i, q.caller, none, some now⟩) = .ok c1 ∧
        c' = c1.leave q.caller ∧ n = .finish (some (.native (.ok i)))) ∨
      ((∀ i, a ≠ .block i) ∧ ∃ e fee, q.fee = some fee ∧ c' = c ∧
        n = .await (.ledger (.nativeRefund q l (refundAmount fee q.transferFee) e))) ∨
      ((∀ i, a ≠ .block i) ∧ q.fee = none ∧ ∃ e, c' = c.leave q.caller ∧ n = .finish (some (.native (.error e)))) := by
  simp only [Mem.onNativeBurn, Res.bind_ok] at h
  obtain ⟨x, hx, h⟩ := h
  split at h
  · rename_i i
    simp only [Res.bind_ok, Res.pure_ok, Mem.nativeReturn, Prod.mk.injEq] at h
    obtain ⟨c1, h1, rfl, rfl⟩ := h
    obtain ⟨h2, h3⟩ := burnResult_ok.1 hx
    exact .inl ⟨i, c1, h2, h3, h1, rfl, rfl⟩
  · rename_i e
    split at h
    · rename_i fee hf
      cases h
      exact .inr (.inl ⟨burnResult_error hx, e, fee, hf, rfl, rfl⟩)
    · rename_i hf
      simp only [Res.bind_ok, Res.pure_ok, Mem.nativeReturn, Prod.mk.injEq] at h
      obtain ⟨e, _, rfl, rfl⟩ := h
      exact .inr (.inr ⟨burnResult_error hx, hf, e, rfl, rfl⟩)

omit [Keccak] in
theorem Mem.onNativeRefund_cases {c c' : Mem} {q : NativeCall} {e : LedgerError} {a : LedgerAnswer} {n : Next}
    (h : c.onNativeRefund q e a = .ok (c', n)) : ∃ e', c' = c.leave q.caller ∧ n = .finish (some (.native (.error e'))) := by
  simp only [Mem.onNativeRefund, Res.bind_ok, Res.pure_ok, Mem.nativeReturn, Prod.mk.injEq] at h
  obtain ⟨_, _, e', _, rfl, rfl⟩ := h
  exact ⟨e', rfl, rfl⟩

omit [Keccak] in
theorem Mem.startNative_cases {c c' : Mem} {caller : Principal} {amount : Nat} {recipient : List Char} {now : Nat} {n : Next}
    (h : c.startNative caller amount recipient now = .ok (c', n)) :
    ∃ c1, c.lockCaller caller = .ok c1 ∧
      ((∃ e, c' = c1.leave caller ∧ n = .finish (some (.native (.error e)))) ∨
      ∃ destination, validateDestination recipient = some destination ∧ amount < U256 ∧
        c.m.st.nativeMinimumWithdrawalAmount ≤ amount ∧ c' = c1 ∧
        ((∃ fee t, c.m.st.withdrawalNativeFee = some fee ∧ csub fee c.m.st.nativeLedgerTransferFee = some t ∧
            n = .await (.ledger (.nativeFee ⟨caller, amount, destination, some fee, c.m.st.nativeLedgerTransferFee⟩
              c.m.st.nativeLedgerId fee t))) ∨
          (c.m.st.withdrawalNativeFee = none ∧
            n = .await (.ledger (.nativeBurn ⟨caller, amount, destination, none, c.m.st.nativeLedgerTransferFee⟩
              c.m.st.nativeLedgerId amount now))))) := by
  simp only [Mem.startNative, Res.bind_ok] at h
  obtain ⟨c1, h1, h⟩ := h
  refine ⟨c1, h1, ?_⟩
  have hm := Mem.lockCaller_m h1
  split at h
  · simp only [Res.pure_ok, Mem.nativeReturn, Prod.mk.injEq] at h
    obtain ⟨rfl, rfl⟩ := h
    exact .inl ⟨_, rfl, rfl⟩
  · rename_i dest hd
    simp only [Res.bind_ok, Res.expect_ok, u256OfNat_some] at h
    obtain ⟨am, ⟨rfl, hlt⟩, h⟩ := h
    split at h
    · simp only [Res.pure_ok, Mem.nativeReturn, Prod.mk.injEq] at h
      obtain ⟨rfl, rfl⟩ := h
      exact .inl ⟨_, rfl, rfl⟩
    · rename_i hmin
      refine .inr ⟨dest, hd, hlt, by rw [← hm]; exact Nat.not_lt.1 hmin, ?_⟩
      split at h
      · rename_i fee hf
        simp only [Res.bind_ok, Res.expect_ok, Res.pure_ok, Prod.mk.injEq] at h
        obtain ⟨t, ht, rfl, rfl⟩ := h
        rw [hm] at hf ht
        exact ⟨rfl, .inl ⟨fee, t, hf, ht, by rw [← hf, hm]⟩⟩
      · rename_i hf
        simp only [Res.pure_ok, Mem.nativeStartBurn, Prod.mk.injEq] at h
        obtain ⟨rfl, rfl⟩ := h
        rw [hm] at hf
        exact ⟨rfl, .inr ⟨hf, by rw [← hf, hm]⟩⟩

omit [Keccak] in
theorem Mem.erc20Fail_cases (c : Mem) (q : Erc20Charged) (e : WithdrawErc20Error) :
    (∃ fee, q.fee = some fee ∧ c.erc20Fail q e = (c, .await (.ledger (.erc20Refund q (refundAmount fee q.transferFee) e)))) ∨
      (q.fee = none ∧ c.erc20Fail q e = (c.leave q.caller, .finish (some (.erc20 (.error e))))) := by
  unfold Mem.erc20Fail
  split
  · rename_i fee hf; exact .inl ⟨fee, hf, rfl⟩
  · rename_i hf; exact .inr ⟨hf, rfl⟩

omit [Keccak] in
theorem Mem.onErc20Gas_cases {c c' : Mem} {q : Erc20Call} {g : Option GasFeeEstimate} {now : Nat} {n : Next}
    (h : c.onErc20Gas q g now = .ok (c', n)) :
    (g = none ∧ c' = c.leave q.caller ∧ n = .finish (some (.erc20 (.error .temporarilyUnavailable)))) ∨
      ∃ g', g = some g' ∧ c' = c ∧
        ((∃ fee t, c.m.st.withdrawalNativeFee = some fee ∧ csub fee q.transferFee = some t ∧
            n = .await (.ledger (.erc20Fee ⟨q, (g'.toPrice erc20GasLimit).maxTransactionFee, some fee⟩ t))) ∨
          (c.m.st.withdrawalNativeFee = none ∧
            n = .await (.ledger (.erc20NativeBurn ⟨q, (g'.toPrice erc20GasLimit).maxTransactionFee, none⟩ now)))) := by
  unfold Mem.onErc20Gas at h
  split at h
  · cases h; exact .inl ⟨rfl, rfl, rfl⟩
  · rename_i g'
    refine .inr ⟨g', rfl, ?_⟩
    simp only [] at h
    split at h
    · rename_i fee hf
      simp only [Res.bind_ok, Res.expect_ok, Res.pure_ok, Prod.mk.injEq] at h
      obtain ⟨t, ht, rfl, rfl⟩ := h
      exact ⟨rfl, .inl ⟨fee, t, hf, ht, by rw [← hf]⟩⟩
    · rename_i hf
      cases h
      exact ⟨rfl, .inr ⟨hf, by rw [← hf]⟩⟩

omit [Keccak] in
theorem Mem.onErc20Fee_cases {c c' : Mem} {q : Erc20Charged} {a : LedgerAnswer} {now : Nat} {n : Next}
    (h : c.onErc20Fee q a now = .ok (c', n)) :
    (∃ i, a = .block i ∧ i < 2 ^ 64 ∧ c' = c ∧ n = .await (.ledger (.erc20NativeBurn q now))) ∨
      ((∀ i, a ≠ .block i) ∧ ∃ e, c' = c.leave q.caller ∧ n = .finish (some (.erc20 (.error (.nativeFeeTransferError e))))) := by
  simp only [Mem.onErc20Fee, Res.bind_ok] at h
  obtain ⟨x, hx, h⟩ := h
  split at h
  · rename_i i
    cases h
    obtain ⟨h2, h3⟩ := transferResult_ok.1 hx
    exact .inl ⟨i, h2, h3, rfl, rfl⟩
  · rename_i e
    cases h
    exact .inr ⟨transferResult_error hx, e, rfl, rfl⟩

omit [Keccak] in
theorem Mem.onErc20NativeBurn_cases {c c' : Mem} {q : Erc20Charged} {a : LedgerAnswer} {now : Nat} {n : Next}
    (h : c.onErc20NativeBurn q now a = .ok (c', n)) :
    (∃ i, a = .block i ∧ i < 2 ^ 64 ∧ c' = c ∧ n = .await (.ledger (.erc20TokenBurn q now i))) ∨
      ((∀ i, a ≠ .block i) ∧ ∃ e, c.erc20Fail q (.nativeLedgerError e) = (c', n)) := by
  simp only [Mem.onErc20NativeBurn, Res.bind_ok] at h
  obtain ⟨x, hx, h⟩ := h
  split at h
  · rename_i i
    cases h
    obtain ⟨h2, h3⟩ := burnResult_ok.1 hx
    exact .inl ⟨i, h2, h3, rfl, rfl⟩
  · rename_i e
    simp only [Res.pure_ok] at h
    exact .inr ⟨burnResult_error hx, e, h⟩

theorem Mem.onErc20TokenBurn_cases {c c' : Mem} {q : Erc20Charged} {a : LedgerAnswer} {now ni : Nat} {n : Next}
    (h : c.onErc20TokenBurn q now ni a = .ok (c', n)) :
    (∃ i c1, a = .block i ∧ i < 2 ^ 64 ∧ c.process (.acceptedErc20WithdrawalRequest {
        maxTransactionFee := q.txFee
        withdrawalAmount := q.amount
        destination := q.destination
        nativeLedgerBurnIndex := ni
        erc20ContractAddress := q.token.erc20ContractAddress
        erc20LedgerId := q.token.erc20LedgerId
        erc20LedgerBurnIndex := i
        «from» := q.caller
        fromSubaccount := none
        createdAt := now }) = .ok c1 ∧
        c' = c1.leave q.caller ∧ n = .finish (some (.erc20 (.ok (ni, i))))) ∨
      ((∀ i, a ≠ .block i) ∧ ∃ e c1, burnResult a = .ok (.error e) ∧
        ((0 < erc20ReimbursedAmount q.txFee q.transferFee e ∧ c.process (.failedErc20WithdrawalRequest
            ⟨ni, erc20ReimbursedAmount q.txFee q.transferFee e, q.caller, none, none⟩) = .ok c1) ∨
          (erc20ReimbursedAmount q.txFee q.transferFee e = 0 ∧ c1 = c)) ∧
        c1.erc20Fail q (.erc20LedgerError ni e) = (c', n)) := by
  simp only [Mem.onErc20TokenBurn, Res.bind_ok] at h
  obtain ⟨x, hx, h⟩ := h
  split at h
  · rename_i i
    simp only [Res.bind_ok, Res.pure_ok, Mem.erc20Return, Prod.mk.injEq] at h
    obtain ⟨c1, h1, rfl, rfl⟩ := h
    obtain ⟨h2, h3⟩ := burnResult_ok.1 hx
    exact .inl ⟨i, c1, h2, h3, h1, rfl, rfl⟩
  · rename_i e
    simp only [Res.bind_ok, Res.pure_ok, Mem.erc20Reimburse] at h
    obtain ⟨c1, h1, h⟩ := h
    refine .inr ⟨burnResult_error hx, e, c1, hx, ?_, h⟩
    split at h1
    · rename_i hp; exact .inl ⟨hp, h1⟩
    · rename_i hp
      cases h1
      exact .inr ⟨Nat.eq_zero_of_not_pos hp, rfl⟩

omit [Keccak] in
theorem Mem.onErc20Refund_cases {c c' : Mem} {q : Erc20Charged} {e : WithdrawErc20Error} {a : LedgerAnswer} {n : Next}
    (h : c.onErc20Refund q e a = .ok (c', n)) : c' = c.leave q.caller ∧ n = .finish (some (.erc20 (.error e))) := by
  simp only [Mem.onErc20Refund, Res.bind_ok, Res.pure_ok, Mem.erc20Return, Prod.mk.injEq] at h
  obtain ⟨_, _, rfl, rfl⟩ := h
  exact ⟨rfl, rfl⟩

omit [Keccak] in
theorem Mem.startErc20_cases {c c' : Mem} {caller : Principal} {amount : Nat} {ledger : Principal} {recipient : List Char}
    {cached : Option GasFeeEstimate} {now : Nat} {n : Next}
    (h : c.startErc20 caller amount ledger recipient cached now = .ok (c', n)) :
    ∃ c1, c.lockCaller caller = .ok c1 ∧
      ((∃ e, c' = c1.leave caller ∧ n = .finish (some (.erc20 (.error e)))) ∨
      ∃ destination token, validateDestination recipient = some destination ∧ amount < U256 ∧
        c.m.st.findErc20TokenByLedgerId ledger = some token ∧
        let q : Erc20Call := ⟨caller, amount, destination, token, c.m.st.nativeLedgerTransferFee, c.m.st.nativeLedgerId⟩
        ((∃ g, cached = some g ∧ c1.onErc20Gas q (some g) now = .ok (c', n)) ∨
          (cached = none ∧ c1.onErc20Gas q none now = .ok (c', n)) ∨
          (cached = none ∧ c1.acquire .refreshGasFeeEstimate = some c' ∧ n = .await (.ext (.erc20Gas q))))) := by
  simp only [Mem.startErc20, Res.bind_ok] at h
  obtain ⟨c1, h1, h⟩ := h
  refine ⟨c1, h1, ?_⟩
  have hm := Mem.lockCaller_m h1
  split at h
  · simp only [Res.pure_ok, Mem.erc20Return, Prod.mk.injEq] at h
    obtain ⟨rfl, rfl⟩ := h
    exact .inl ⟨_, rfl, rfl⟩
  · rename_i dest hd
    simp only [Res.bind_ok, Res.expect_ok, u256OfNat_some] at h
    obtain ⟨am, ⟨rfl, hlt⟩, h⟩ := h
    split at h
    · simp only [Res.pure_ok, Mem.erc20Return, Prod.mk.injEq] at h
      obtain ⟨rfl, rfl⟩ := h
      exact .inl ⟨_, rfl, rfl⟩
    · rename_i token hk
      refine .inr ⟨dest, token, hd, hlt, by rw [← hm]; exact hk, ?_⟩
      rw [← hm]
      simp only
      split at h
      · rename_i g
        exact .inl ⟨g, rfl, h⟩
      · split at h
        · exact .inr (.inl ⟨rfl, h⟩)
        · rename_i c2 hc2
          simp only [Res.pure_ok, Prod.mk.injEq] at h
          obtain ⟨rfl, rfl⟩ := h
          exact .inr (.inr ⟨rfl, hc2, rfl⟩)

end
end EvmMinter
