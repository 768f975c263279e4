import Verif.Props.C72
/-!
# C90: which fees a withdrawal can bear
-/

namespace EvmMinter

open Spec Transactions

/-- **C90** (native withdrawals): a transaction is created exactly if the amount covers 21000 times twice the base fee plus the priority fee, and
the recipient gets the rest. Otherwise the withdrawal waits. -/
theorem C90_native (q : NativeRequest) (n : TransactionNonce) (g : GasFeeEstimate) (net : EvmNetwork) (hw : q.withdrawalAmount < 2 ^ 256 - 1) :
    (21000 * (2 * g.baseFeePerGas + g.maxPriorityFeePerGas) ≤ q.withdrawalAmount →
      ∃ tx, createTransaction (.native q) n g (estimateGasLimit (.native q)) net = .ok (.ok tx) ∧
        tx.amount = q.withdrawalAmount - 21000 * (2 * g.baseFeePerGas + g.maxPriorityFeePerGas)) ∧
    (q.withdrawalAmount < 21000 * (2 * g.baseFeePerGas + g.maxPriorityFeePerGas) →
      ∃ e, createTransaction (.native q) n g (estimateGasLimit (.native q)) net = .ok (.error e)) := by
  have hmax := C38_max_fee g
  have hspec := maxTransactionFee_spec (g.toPrice 21000)
  have e1 : (g.toPrice 21000).gasLimit = 21000 := rfl
  have e2 : (g.toPrice 21000).maxFeePerGas = g.maxFeePerGas := rfl
  have hu := u256_eq
  have hU : U256 = 2 ^ 256 := rfl
  rw [e1, e2] at hspec
  constructor
  · intro h
    have hc : csub q.withdrawalAmount (g.toPrice 21000).maxTransactionFee =
        some (q.withdrawalAmount - 21000 * (2 * g.baseFeePerGas + g.maxPriorityFeePerGas)) := by
      rw [csub_eq_some]
      rcases hspec with hs | hs <;> womega
    unfold createTransaction
    simp only [estimateGasLimit, nativeGasLimit, ensure, Res.ok_bind, hc]
    exact ⟨_, rfl, rfl⟩
  · intro h
    have hc : csub q.withdrawalAmount (g.toPrice 21000).maxTransactionFee = none := by
      unfold csub
      rw [if_neg]
      rcases hspec with hs | hs <;> womega
    unfold createTransaction
    simp only [estimateGasLimit, nativeGasLimit, ensure, Res.ok_bind, hc]
    exact ⟨_, rfl⟩

/-- **C90** (token withdrawals): a transaction is created exactly if the fee burned covers 65000 times the base fee plus the priority fee. -/
theorem C90_tokens (q : Erc20Request) (n : TransactionNonce) (g : GasFeeEstimate) (net : EvmNetwork) (hw : q.maxTransactionFee < 2 ^ 256 - 1) :
    (65000 * (g.baseFeePerGas + g.maxPriorityFeePerGas) ≤ q.maxTransactionFee →
      ∃ tx, createTransaction (.erc20 q) n g (estimateGasLimit (.erc20 q)) net = .ok (.ok tx)) ∧
    (q.maxTransactionFee < 65000 * (g.baseFeePerGas + g.maxPriorityFeePerGas) →
      ∃ e, createTransaction (.erc20 q) n g (estimateGasLimit (.erc20 q)) net = .ok (.error e)) := by
  have hmin : g.minMaxFeePerGas = min (g.baseFeePerGas + g.maxPriorityFeePerGas) (2 ^ 256 - 1) := by
    unfold GasFeeEstimate.minMaxFeePerGas cadd u256Max U256
    split
    · simp only [Option.getD_some]; womega
    · simp only [Option.getD_none]; womega
  have hi : intoWeiPerGas q.maxTransactionFee 65000 = some (q.maxTransactionFee / 65000) := rfl
  unfold createTransaction
  simp only [estimateGasLimit, erc20GasLimit, ensure, hi, expect, Res.ok_bind]
  constructor
  · intro h
    rw [if_neg (by rw [hmin]; womega)]
    exact ⟨_, rfl⟩
  · intro h
    rw [if_pos (by rw [hmin]; womega)]
    exact ⟨_, rfl⟩

/-- **C90** (what the price of a token withdrawal is good for): the fee that a user paid was set from an estimate that was fresh then. It suffices for
the transaction as long as base fee and priority fee together do not exceed twice the base fee plus the priority fee of that estimate, in
particular while the estimate is the same or the base fee has not more than doubled. -/
theorem C90_charged [Keccak] {w : World} {cache : CachedEstimate} {h : List PriceStep} (hp : Priced w cache h) {id : Nat} {r : Erc20Request}
    (he : (id, .acceptedErc20WithdrawalRequest r) ∈ w.trace) (hw : r.maxTransactionFee < 2 ^ 256 - 1) :
    ∃ g₀, Fresh h id g₀ ∧ ∀ (g : GasFeeEstimate) (n : TransactionNonce) (net : EvmNetwork),
      (∃ tx, createTransaction (.erc20 r) n g (estimateGasLimit (.erc20 r)) net = .ok (.ok tx)) ↔
        g.baseFeePerGas + g.maxPriorityFeePerGas ≤ 2 * g₀.baseFeePerGas + g₀.maxPriorityFeePerGas := by
  obtain ⟨g₀, h1, h2⟩ := C72_charged hp he
  refine ⟨g₀, h1, fun g n net => ?_⟩
  obtain ⟨a, b⟩ := C90_tokens r n g net hw
  constructor
  · rintro ⟨tx, htx⟩
    rcases Nat.lt_or_ge (2 * g₀.baseFeePerGas + g₀.maxPriorityFeePerGas) (g.baseFeePerGas + g.maxPriorityFeePerGas) with hc | hc
    · obtain ⟨e, he⟩ := b (by womega)
      rw [htx] at he
      cases he
    · exact hc
  · intro hc
    exact a (by womega)

namespace Example

/-- The withdrawals of the example at their limits: one unit of fee more, and they wait. -/
theorem C90_example :
    (∃ tx, createTransaction (.native { request1 with withdrawalAmount := 21000 * 1000 }) 5 ⟨495, 10⟩ 21000 .sepolia = .ok (.ok tx)) ∧
    (∃ e, createTransaction (.native { request1 with withdrawalAmount := 21000 * 1000 }) 5 ⟨495, 11⟩ 21000 .sepolia = .ok (.error e)) ∧
    (∃ tx, createTransaction (.erc20 request2) 5 ⟨990, 10⟩ 65000 .sepolia = .ok (.ok tx)) ∧
    (∃ e, createTransaction (.erc20 request2) 5 ⟨990, 11⟩ 65000 .sepolia = .ok (.error e)) := by
  refine ⟨(C90_native { request1 with withdrawalAmount := 21000 * 1000 } 5 ⟨495, 10⟩ .sepolia (by decide)).1 (by decide) |>.imp fun _ h => h.1,
    (C90_native { request1 with withdrawalAmount := 21000 * 1000 } 5 ⟨495, 11⟩ .sepolia (by decide)).2 (by decide),
    (C90_tokens request2 5 ⟨990, 10⟩ .sepolia (by decide)).1 (by decide),
    (C90_tokens request2 5 ⟨990, 11⟩ .sepolia (by decide)).2 (by decide)⟩

end Example
end EvmMinter
