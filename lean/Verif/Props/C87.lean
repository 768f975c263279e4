import Verif.Lemmas.Rising
import Verif.Spec.ExampleRun
/-!
# C87: a withdrawal is signed a bounded number of times
-/

namespace EvmMinter

open Spec Transactions

/-- A list of transactions that pay more and more, with the last of them. -/
theorem raised_chain (a : SignedTx) (l : List SignedTx) (h : (a :: l).IsChain fun x y => Raised x.tx y.tx)
    (hb : ∀ x ∈ l, x.tx.maxPriorityFeePerGas < 2 ^ 256 - 1) :
    ∃ z ∈ a :: l, a.tx.maxPriorityFeePerGas + a.tx.maxFeePerGas + l.length ≤ z.tx.maxPriorityFeePerGas + z.tx.maxFeePerGas ∧
      11 ^ l.length * a.tx.maxPriorityFeePerGas ≤ 10 ^ l.length * z.tx.maxPriorityFeePerGas := by
  induction l generalizing a with
  | nil => exact ⟨a, by simp, by simp, by simp⟩
  | cons b l ih =>
    rw [List.isChain_cons_cons] at h
    obtain ⟨z, hz, h1, h2⟩ := ih b h.2 fun x hx => hb x (by simp [hx])
    have hr := h.1
    refine ⟨z, by simp [List.mem_cons.1 hz], ?_, ?_⟩
    · have := hr.more
      simp only [List.length_cons]
      womega
    · have ht : 11 * a.tx.maxPriorityFeePerGas ≤ 10 * b.tx.maxPriorityFeePerGas := by
        rcases hr.tenth with h | h
        · exact h
        · have := hb b (by simp)
          womega
      simp only [List.length_cons]
      calc 11 ^ (l.length + 1) * a.tx.maxPriorityFeePerGas = 11 ^ l.length * (11 * a.tx.maxPriorityFeePerGas) := by
            rw [Nat.pow_succ, Nat.mul_assoc]
        _ ≤ 11 ^ l.length * (10 * b.tx.maxPriorityFeePerGas) := Nat.mul_le_mul_left _ ht
        _ = 10 * (11 ^ l.length * b.tx.maxPriorityFeePerGas) := by rw [Nat.mul_left_comm]
        _ ≤ 10 * (10 ^ l.length * z.tx.maxPriorityFeePerGas) := Nat.mul_le_mul_left _ h2
        _ = 10 ^ (l.length + 1) * z.tx.maxPriorityFeePerGas := by
            rw [← Nat.mul_assoc, Nat.pow_succ, Nat.mul_comm 10]

/-- The two bounds on the number of versions, if the fees of all of them are covered by an amount. -/
theorem raised_bound {l : List SignedTx} {gas amount : Nat} (h : l.IsChain fun x y => Raised x.tx y.tx)
    (hb : ∀ x ∈ l, x.tx.maxPriorityFeePerGas ≤ x.tx.maxFeePerGas ∧ gas * x.tx.maxFeePerGas ≤ amount)
    (hg : 0 < gas) (ha : amount < 2 ^ 256 - 1) :
    gas * (l.length - 1) ≤ 2 * amount ∧
    ∀ first, l.head? = some first →
      gas * (11 ^ (l.length - 1) * first.tx.maxPriorityFeePerGas) ≤ 10 ^ (l.length - 1) * amount := by
  cases l with
  | nil => exact ⟨by simp, by simp⟩
  | cons a l =>
    obtain ⟨z, hz, h1, h2⟩ := raised_chain a l h fun x hx => by
      obtain ⟨h1, h2⟩ := hb x (by simp [hx])
      have := Nat.le_mul_of_pos_left x.tx.maxFeePerGas hg
      womega
    obtain ⟨h3, h4⟩ := hb z hz
    have h5 : gas * z.tx.maxPriorityFeePerGas ≤ amount := Nat.le_trans (Nat.mul_le_mul_left _ h3) h4
    simp only [List.length_cons, Nat.add_sub_cancel, List.head?_cons, Option.some.injEq]
    refine ⟨?_, ?_⟩
    · have : gas * l.length ≤ gas * (z.tx.maxPriorityFeePerGas + z.tx.maxFeePerGas) := Nat.mul_le_mul_left _ (by womega)
      rw [Nat.mul_add] at this
      womega
    · rintro _ rfl
      calc gas * (11 ^ l.length * a.tx.maxPriorityFeePerGas) ≤ gas * (10 ^ l.length * z.tx.maxPriorityFeePerGas) :=
            Nat.mul_le_mul_left _ h2
        _ = 10 ^ l.length * (gas * z.tx.maxPriorityFeePerGas) := by rw [Nat.mul_left_comm]
        _ ≤ 10 ^ l.length * amount := Nat.mul_le_mul_left _ h5

theorem mem_signedFor {i : LedgerBurnIndex} {log : List Event} {x : SignedTx} :
    x ∈ signedFor i log ↔ .signedTransaction i x ∈ log := by
  unfold signedFor
  rw [List.mem_filterMap]
  constructor
  · rintro ⟨e, he, h⟩
    cases e <;> simp only [Option.ite_none_right_eq_some, Option.some.injEq, reduceCtorEq] at h
    obtain ⟨rfl, rfl⟩ := h
    exact he
  · exact fun h => ⟨_, h, by simp⟩

section
variable [Keccak]

/-- What is signed for a withdrawal has the nonce chosen for it. -/
theorem signed_created {log : List Event} {s : State} (h : Run log s) (hn : NonceNeverLowered log) {j : LedgerBurnIndex} {x : SignedTx}
    (hx : .signedTransaction j x ∈ log) : ∃ tx, .createdTransaction j tx ∈ log ∧ tx.nonce = x.tx.nonce := by
  obtain ⟨pre, post, s₁, s₂, rfl, hr, ⟨c, hc, _⟩, ha, hr₂⟩ := run_mem h hx (by simp)
  obtain ⟨inv, tl, _⟩ := run_txInv hr (nonceNeverLowered_prefix hn)
  obtain ⟨tx, h1, h2, _⟩ := tl.core3 _ _ _ (.inl ⟨c, MKM.getEntry_eq.1 hc, rfl⟩)
  exact ⟨tx, by simp [h1], h2⟩

/-- The transactions signed for a withdrawal are those signed with its nonce. -/
theorem signedFor_eq {log : List Event} {s : State} (h : Run log s) (hn : NonceNeverLowered log) {i : LedgerBurnIndex} {tx : Tx}
    (hc : .createdTransaction i tx ∈ log) : signedFor i log = signedWith tx.nonce log := by
  obtain ⟨inv, tl, _⟩ := run_txInv h hn
  have hk := tl.core1 _ _ hc
  unfold signedFor signedWith
  refine List.filterMap_congr fun e he => ?_
  cases e with
  | signedTransaction j x =>
    obtain ⟨tx', h1, h2⟩ := signed_created h hn he
    have hk' := tl.core1 _ _ h1
    have : j = i ↔ x.tx.nonce = tx.nonce := by
      constructor
      · rintro rfl
        rw [← h2]
        exact Core.unique_nonce inv hk' hk
      · intro hx
        rw [← h2] at hx
        rw [hx] at hk'
        exact (Core.unique inv hk' hk).1
    simp only [this]
  | _ => rfl

/-- **C87** (each version pays more): of the transactions signed for a withdrawal, each pays more than the one before. Neither of its two
fees is lower, one is higher, and the priority fee is at least 10% higher. -/
theorem C87_versions {log : List Event} {s : State} (h : Run log s) (hn : NonceNeverLowered log) (i : LedgerBurnIndex) :
    (signedFor i log).IsChain fun x y => Raised x.tx y.tx := by
  cases hl : signedFor i log with
  | nil => exact .nil
  | cons a l =>
    obtain ⟨tx, h1, h2⟩ := signed_created h hn (mem_signedFor.1 (by rw [hl]; simp : a ∈ signedFor i log))
    rw [← hl, signedFor_eq h hn h1]
    exact (run_rising h hn).chain _

/-- **C87** (native withdrawals): the number of transactions signed for a withdrawal is bounded by the amount burned. The first bound holds
always. The second, which is logarithmic in the amount, is of use if the first transaction offers a priority fee. -/
theorem C87_native {log : List Event} {s : State} (h : Run log s) (hn : NonceNeverLowered log) {r : NativeRequest}
    (hr : .acceptedNativeWithdrawalRequest r ∈ log) (hw : r.withdrawalAmount < 2 ^ 256 - 1) :
    21000 * ((signedFor r.ledgerBurnIndex log).length - 1) ≤ 2 * r.withdrawalAmount ∧
    ∀ first, (signedFor r.ledgerBurnIndex log).head? = some first →
      21000 * (11 ^ ((signedFor r.ledgerBurnIndex log).length - 1) * first.tx.maxPriorityFeePerGas) ≤
        10 ^ ((signedFor r.ledgerBurnIndex log).length - 1) * r.withdrawalAmount := by
  refine raised_bound (C87_versions h hn _) (fun x hx => ?_) (by decide) hw
  have hx := mem_signedFor.1 hx
  obtain ⟨_, _, _, h3⟩ := recorded_sound h hn hx (i := r.ledgerBurnIndex) (tx := x.tx) rfl
  obtain ⟨h4, _, h5, _⟩ := C15_native_value_plus_fee h hn hx rfl hr hw
  rw [h5] at h4
  exact ⟨h3.prio, by womega⟩

/-- **C87** (token withdrawals): the number of transactions signed for a withdrawal is bounded by the fee burned. -/
theorem C87_erc20 {log : List Event} {s : State} (h : Run log s) (hn : NonceNeverLowered log) {r : Erc20Request}
    (hr : .acceptedErc20WithdrawalRequest r ∈ log) (hw : r.maxTransactionFee < 2 ^ 256 - 1) :
    65000 * ((signedFor r.nativeLedgerBurnIndex log).length - 1) ≤ 2 * r.maxTransactionFee ∧
    ∀ first, (signedFor r.nativeLedgerBurnIndex log).head? = some first →
      65000 * (11 ^ ((signedFor r.nativeLedgerBurnIndex log).length - 1) * first.tx.maxPriorityFeePerGas) ≤
        10 ^ ((signedFor r.nativeLedgerBurnIndex log).length - 1) * r.maxTransactionFee := by
  refine raised_bound (C87_versions h hn _) (fun x hx => ?_) (by decide) hw
  have hx := mem_signedFor.1 hx
  obtain ⟨_, _, _, h3⟩ := recorded_sound h hn hx (i := r.nativeLedgerBurnIndex) (tx := x.tx) rfl
  obtain ⟨h4, _, _, h5, _⟩ := C16_erc20_fee_and_amount h hn hx rfl hr hw
  rw [h5] at h4
  exact ⟨h3.prio, h4⟩

end

namespace Example
attribute [local instance] keccak

/-- In the example two transactions are signed for withdrawal 20, the second with higher fees. -/
theorem C87_example : ∃ s, Run log s ∧ NonceNeverLowered log ∧ .acceptedNativeWithdrawalRequest request1 ∈ log ∧
    request1.withdrawalAmount < 2 ^ 256 - 1 ∧ signedFor request1.ledgerBurnIndex log = [⟨tx1, sig⟩, ⟨tx1', sig⟩] ∧
    0 < tx1.maxPriorityFeePerGas ∧ Raised tx1 tx1' := by
  obtain ⟨s, h, _⟩ := log_run
  exact ⟨s, h, nonces_ok, by simp [log], by decide, by decide +kernel, by decide,
    ⟨by decide, by decide, by decide, .inl (by decide)⟩⟩

end Example
end EvmMinter
