import Verif.Props.C87
/-!
# C88: nodes accept a replacement

In full the claim is that of every replacement recorded in an execution (`Run (pre ++ .replacedTransaction i tx :: post) s`) and the transaction `x`
signed last with its nonce, `NodeAccepts x.tx tx` holds. It is false, see `Example.C88_rejected`: the priority fee is raised by 10%, the maximum
fee is raised to what is needed only.
-/

namespace EvmMinter

open Spec Transactions

/-- The fees of a replacement, in terms of the estimate. -/
theorem replaced_fees {t : Resubmittable SignedTx} {g : GasFeeEstimate} {tx : Tx}
    (hgas : 0 < t.transaction.tx.gasLimit) (ha : t.resubmission.allowedMaxFee < 2 ^ 256 - 1)
    (h : t.resubmit g = .ok (.replaced tx)) :
    tx.maxFeePerGas = max (g.baseFeePerGas + tx.maxPriorityFeePerGas) t.transaction.tx.maxFeePerGas ∧
      tx.maxFeePerGas < 2 ^ 256 - 1 := by
  obtain ⟨p, rfl, hne, hle, htx, _, _⟩ := resubmit_replaced h
  obtain ⟨_, h1, h2, h3⟩ := resubmit_price hne
  have e1 : tx.maxPriorityFeePerGas = (t.transaction.tx.price.resubmit g).maxPriorityFeePerGas := by rw [htx]
  have e2 : tx.maxFeePerGas = (t.transaction.tx.price.resubmit g).maxFeePerGas := by rw [htx]
  have e4 : t.transaction.tx.price.maxFeePerGas = t.transaction.tx.maxFeePerGas := rfl
  have hg : (t.transaction.tx.price.resubmit g).gasLimit = t.transaction.tx.gasLimit := h2
  have hlt : tx.maxFeePerGas < 2 ^ 256 - 1 := by
    rcases maxTransactionFee_spec (t.transaction.tx.price.resubmit g) with h | h
    · rw [h.1, hg] at hle
      have := Nat.le_mul_of_pos_left (t.transaction.tx.price.resubmit g).maxFeePerGas hgas
      rw [e2]
      womega
    · rw [h.1] at hle; unfold u256Max at hle; womega
  refine ⟨?_, hlt⟩
  rw [← h1, e4] at h3
  rw [← e1, ← e2] at h3
  unfold GasFeeEstimate.minMaxFeePerGas cadd u256Max at h3
  dsimp only at h3
  split at h3
  · exact h3
  · simp only [Option.getD] at h3
    womega

/-- **C88, partial** (when a replacement is accepted): the priority fee is always raised enough. Nodes accept the replacement exactly if the
base fee of the estimate together with the new priority fee exceeds the old maximum fee, and by 10%. -/
theorem C88_accepted_partial (t : Resubmittable SignedTx) (g : GasFeeEstimate) (tx : Tx)
    (hp : 0 < t.transaction.tx.maxPriorityFeePerGas) (hv : t.transaction.tx.maxPriorityFeePerGas ≤ t.transaction.tx.maxFeePerGas)
    (hm : t.transaction.tx.maxFeePerGas < 2 ^ 256) (hg : g.Bounded)
    (hgas : 0 < t.transaction.tx.gasLimit) (ha : t.resubmission.allowedMaxFee < 2 ^ 256 - 1)
    (h : t.resubmit g = .ok (.replaced tx)) :
    t.transaction.tx.maxPriorityFeePerGas < tx.maxPriorityFeePerGas ∧
    110 * t.transaction.tx.maxPriorityFeePerGas / 100 ≤ tx.maxPriorityFeePerGas ∧
    (NodeAccepts t.transaction.tx tx ↔
      t.transaction.tx.maxFeePerGas < g.baseFeePerGas + tx.maxPriorityFeePerGas ∧
      110 * t.transaction.tx.maxFeePerGas / 100 ≤ g.baseFeePerGas + tx.maxPriorityFeePerGas) := by
  obtain ⟨h1, h2⟩ := replaced_fees hgas ha h
  have hr := resubmit_raises hg (Nat.lt_of_le_of_lt hv hm) h
  have hle : tx.maxPriorityFeePerGas ≤ tx.maxFeePerGas := by womega
  have ht : 11 * t.transaction.tx.maxPriorityFeePerGas ≤ 10 * tx.maxPriorityFeePerGas := by
    rcases hr.tenth with h | h
    · exact h
    · womega
  have a : t.transaction.tx.maxPriorityFeePerGas < tx.maxPriorityFeePerGas := by womega
  have b : 110 * t.transaction.tx.maxPriorityFeePerGas / 100 ≤ tx.maxPriorityFeePerGas := by
    have := Nat.div_mul_le_self (110 * t.transaction.tx.maxPriorityFeePerGas) 100
    womega
  refine ⟨a, b, ⟨fun h => ?_, fun h => ?_⟩⟩
  · have := h.fee
    have := h.feeBump
    refine ⟨by womega, ?_⟩
    rw [h1] at this
    rcases Nat.le_total (g.baseFeePerGas + tx.maxPriorityFeePerGas) t.transaction.tx.maxFeePerGas with hc | hc
    · womega
    · rw [Nat.max_eq_left hc] at this; exact this
  · refine ⟨by womega, a, ?_, b⟩
    rw [h1]
    exact Nat.le_trans h.2 (Nat.le_max_left _ _)

/-- **C88** (when it is certainly refused): if the old maximum fee covers the base fee and the new priority fee, the maximum fee is not raised at
all, and nodes refuse the replacement. -/
theorem C88_refused (t : Resubmittable SignedTx) (g : GasFeeEstimate) (tx : Tx)
    (hgas : 0 < t.transaction.tx.gasLimit) (ha : t.resubmission.allowedMaxFee < 2 ^ 256 - 1)
    (h : t.resubmit g = .ok (.replaced tx)) (hc : g.baseFeePerGas + tx.maxPriorityFeePerGas ≤ t.transaction.tx.maxFeePerGas) :
    tx.maxFeePerGas = t.transaction.tx.maxFeePerGas ∧ ¬ NodeAccepts t.transaction.tx tx := by
  obtain ⟨h1, _⟩ := replaced_fees hgas ha h
  rw [Nat.max_eq_right hc] at h1
  exact ⟨h1, fun hn => absurd hn.fee (by rw [h1]; exact Nat.lt_irrefl _)⟩

/-- **C88** (token withdrawals): all transactions of a token withdrawal have the same maximum fee, as the first already offers all that was burned.
So nodes refuse every replacement. -/
theorem C88_tokens [Keccak] {pre post : List Event} {s : State} {r : Erc20Request} {tx : Tx}
    (h : Run (pre ++ .replacedTransaction r.nativeLedgerBurnIndex tx :: post) s)
    (hn : NonceNeverLowered (pre ++ .replacedTransaction r.nativeLedgerBurnIndex tx :: post))
    (hr : .acceptedErc20WithdrawalRequest r ∈ pre) (hw : r.maxTransactionFee < 2 ^ 256 - 1) :
    tx.maxFeePerGas = r.maxTransactionFee / 65000 ∧
    ∀ x ∈ signedWith tx.nonce pre, x.tx.maxFeePerGas = r.maxTransactionFee / 65000 ∧ ¬ NodeAccepts x.tx tx := by
  have cap : ∀ {e : Event} {tx' : Tx}, e ∈ pre ++ .replacedTransaction r.nativeLedgerBurnIndex tx :: post →
      recordedFor e = some (r.nativeLedgerBurnIndex, tx') → tx'.maxFeePerGas = r.maxTransactionFee / 65000 := by
    intro e tx' he ht
    have hr' : Event.acceptedErc20WithdrawalRequest r ∈ pre ++ .replacedTransaction r.nativeLedgerBurnIndex tx :: post := by simp [hr]
    obtain ⟨r', h1, h2, h3⟩ := recorded_sound h hn he ht
    have := request_unique h hn h1 (r' := .erc20 r) hr' h2
    subst this
    obtain ⟨h4, _, _, h5, _⟩ := C16_erc20_fee_and_amount h hn he ht hr' hw
    rw [h5] at h4
    have h6 : r.maxTransactionFee / 65000 ≤ tx'.maxFeePerGas := Erc20Sound.cap h3.pay
    womega
  have htx := cap (e := .replacedTransaction r.nativeLedgerBurnIndex tx) (by simp) rfl
  refine ⟨htx, fun x hx => ?_⟩
  obtain ⟨⟨tx₀, h1, h2⟩, _⟩ := C17_replacements_raise_fees h hn
  have hc : Event.createdTransaction r.nativeLedgerBurnIndex tx₀ ∈
    pre ++ .replacedTransaction r.nativeLedgerBurnIndex tx :: post := by simp [h1]
  have hx' : x ∈ signedFor r.nativeLedgerBurnIndex (pre ++ .replacedTransaction r.nativeLedgerBurnIndex tx :: post) := by
    rw [signedFor_eq h hn hc, h2]
    unfold signedWith at hx ⊢
    rw [List.filterMap_append]
    exact List.mem_append_left _ hx
  have hxc := cap (mem_signedFor.1 hx') rfl
  exact ⟨hxc, fun hacc => absurd hacc.fee (by rw [hxc, htx]; exact Nat.lt_irrefl _)⟩

theorem foldl_offer_mem (x : SignedTx) (l : List SignedTx) : l.foldl offer x ∈ x :: l := by
  induction l generalizing x with
  | nil => simp
  | cons y l ih =>
    have := ih (offer x y)
    simp only [List.foldl_cons, List.mem_cons] at this ⊢
    unfold offer at this ⊢
    split at this <;> simp_all <;> tauto

theorem foldl_offer_same (x : SignedTx) (l : List SignedTx) (h : ∀ y ∈ l, y.tx.maxFeePerGas = x.tx.maxFeePerGas) : l.foldl offer x = x := by
  induction l with
  | nil => rfl
  | cons y l ih =>
    have hy : offer x y = x := if_neg fun hn => absurd hn.fee (by rw [h y (by simp)]; exact Nat.lt_irrefl _)
    rw [List.foldl_cons, hy]
    exact ih fun z hz => h z (by simp [hz])

/-- **C88** (what the nodes hold): a node that is offered all versions of the transaction of a withdrawal holds one that was signed for it, which the
minter recognises when it is mined (C43). For a token withdrawal it holds the first one, however often the transaction is replaced. -/
theorem C88_held [Keccak] {log : List Event} {s : State} (h : Run log s) (hn : NonceNeverLowered log) :
    (∀ i x, nodeHolds (signedFor i log) = some x → .signedTransaction i x ∈ log) ∧
    ∀ r : Erc20Request, .acceptedErc20WithdrawalRequest r ∈ log → r.maxTransactionFee < 2 ^ 256 - 1 →
      nodeHolds (signedFor r.nativeLedgerBurnIndex log) = (signedFor r.nativeLedgerBurnIndex log).head? := by
  constructor
  · intro i x hx
    cases hl : signedFor i log with
    | nil => rw [hl] at hx; cases hx
    | cons a l =>
      rw [hl] at hx
      cases hx
      exact mem_signedFor.1 (by rw [hl]; exact foldl_offer_mem a l)
  · intro r hr hw
    have cap : ∀ x ∈ signedFor r.nativeLedgerBurnIndex log, x.tx.maxFeePerGas = r.maxTransactionFee / 65000 := by
      intro x hx
      have he := mem_signedFor.1 hx
      obtain ⟨r', h1, h2, h3⟩ := recorded_sound h hn he (i := r.nativeLedgerBurnIndex) (tx := x.tx) rfl
      have := request_unique h hn h1 (r' := .erc20 r) hr h2
      subst this
      obtain ⟨h4, _, _, h5, _⟩ := C16_erc20_fee_and_amount h hn he rfl hr hw
      rw [h5] at h4
      have h6 : r.maxTransactionFee / 65000 ≤ x.tx.maxFeePerGas := Erc20Sound.cap h3.pay
      womega
    cases hl : signedFor r.nativeLedgerBurnIndex log with
    | nil => rfl
    | cons a l =>
      rw [hl] at cap
      show some (l.foldl offer a) = some a
      rw [foldl_offer_same a l fun y hy => by rw [cap y (by simp [hy]), cap a (by simp)]]

namespace Example
attribute [local instance] keccak

/-- **C88** in full is false: in the example log the replacement has the maximum fee of the transaction that was signed before with its
nonce. -/
theorem C88_rejected : ∃ pre i tx post s stx, Run (pre ++ .replacedTransaction i tx :: post) s ∧
    NonceNeverLowered (pre ++ .replacedTransaction i tx :: post) ∧
    (signedWith tx.nonce pre).getLast? = some stx ∧ ¬ NodeAccepts stx.tx tx := by
  obtain ⟨s, h, _⟩ := log_run
  have e : log = log.take 15 ++ .replacedTransaction 20 tx1' :: log.drop 16 := by simp [log]
  refine ⟨log.take 15, 20, tx1', log.drop 16, s, ⟨tx1, sig⟩, e ▸ h, e ▸ nonces_ok, by decide +kernel, fun hn => ?_⟩
  exact absurd hn.fee (by decide)

/-- The token withdrawal of the example, replaced because the estimate of the priority fee has risen to 11. -/
theorem C88_example_tokens : ∃ pre tx s, Run (pre ++ [.replacedTransaction request2.nativeLedgerBurnIndex tx]) s ∧
    .acceptedErc20WithdrawalRequest request2 ∈ pre ∧ signedWith tx.nonce pre = [⟨tx2, sig⟩] ∧
    tx.maxFeePerGas = tx2.maxFeePerGas ∧ tx2.maxPriorityFeePerGas < tx.maxPriorityFeePerGas := by
  obtain ⟨s, h1, h2⟩ := prefix_run (k := 2) (p := fun s =>
    (runCheck ⟨495, 11⟩ s [.replacedTransaction 21 { tx2 with maxPriorityFeePerGas := 11 }]).isSome) (by decide +kernel)
  obtain ⟨s', hs⟩ := Option.isSome_iff_exists.1 h2
  exact ⟨_, _, s', runCheck_sound h1 hs, by simp [log], by decide +kernel, rfl, by decide⟩

/-- Two versions of the first transaction of the example were signed, and nodes hold the first. -/
theorem C88_example_held : signedFor 20 log = [⟨tx1, sig⟩, ⟨tx1', sig⟩] ∧ nodeHolds (signedFor 20 log) = some ⟨tx1, sig⟩ ∧
    nodeHolds [⟨tx1, sig⟩, ⟨{ tx1 with maxFeePerGas := 1100, maxPriorityFeePerGas := 11 }, sig⟩] =
      some ⟨{ tx1 with maxFeePerGas := 1100, maxPriorityFeePerGas := 11 }, sig⟩ := by
  refine ⟨by decide +kernel, by decide +kernel, by decide +kernel⟩

/-- The token withdrawal of the example with its replacement signed: of the two versions nodes hold the first. -/
theorem C88_example_held_tokens : ∃ log' s, Run log' s ∧ .acceptedErc20WithdrawalRequest request2 ∈ log' ∧
    signedFor request2.nativeLedgerBurnIndex log' = [⟨tx2, sig⟩, ⟨{ tx2 with maxPriorityFeePerGas := 11 }, sig⟩] ∧
    nodeHolds (signedFor request2.nativeLedgerBurnIndex log') = some ⟨tx2, sig⟩ := by
  obtain ⟨s, h1, h2⟩ := prefix_run (k := 2) (p := fun s =>
    (runCheck ⟨495, 11⟩ s [.replacedTransaction 21 { tx2 with maxPriorityFeePerGas := 11 },
      .signedTransaction 21 ⟨{ tx2 with maxPriorityFeePerGas := 11 }, sig⟩]).isSome) (by decide +kernel)
  obtain ⟨s', hs⟩ := Option.isSome_iff_exists.1 h2
  exact ⟨_, s', runCheck_sound h1 hs, by simp [log], by decide +kernel, by decide +kernel⟩

/-- With a base fee of 1600 the replacement is accepted, with one of 1000 it is not, although both fees are higher. -/
theorem C88_example : ∃ tx tx', Resubmittable.resubmit ⟨⟨tx1, sig⟩, .reduceEthAmount 3000000000⟩ ⟨1600, 10⟩ = .ok (.replaced tx) ∧
    NodeAccepts tx1 tx ∧
    Resubmittable.resubmit ⟨⟨tx1, sig⟩, .reduceEthAmount 3000000000⟩ ⟨1000, 10⟩ = .ok (.replaced tx') ∧ ¬ NodeAccepts tx1 tx' ∧
    tx1.maxFeePerGas < tx'.maxFeePerGas ∧ tx1.maxPriorityFeePerGas < tx'.maxPriorityFeePerGas := by
  refine ⟨{ tx1 with maxPriorityFeePerGas := 11, maxFeePerGas := 1611, amount := 3000000000 - 21000 * 1611 },
    { tx1 with maxPriorityFeePerGas := 11, maxFeePerGas := 1011, amount := 3000000000 - 21000 * 1011 },
    by decide +kernel, ⟨by decide, by decide, by decide, by decide⟩, by decide +kernel, fun h => ?_, by decide, by decide⟩
  exact absurd h.feeBump (by decide)

end Example
end EvmMinter
