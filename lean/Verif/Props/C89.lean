import Verif.Props.C43
import Verif.Spec.ExampleRun
/-!
# C89: no withdrawal waits for the fee of another one

In full the claim is that a transaction that is not mined, pays too little and can pay for its replacement is replaced: for every execution `Run log s`,
transaction count `count` and estimate `g`, if the last version `last` of nonce `n`, `count ≤ n`, has `last.resubmit g = .ok (.replaced tx)`, then
`tx` is among the replacements. It is false, see `Example.C89_waits`.
-/

namespace EvmMinter

open Spec Transactions

section
variable [Keccak]

/-- **C89, partial**: a transaction that needs a replacement and can pay for it is replaced if every one with a smaller nonce that is not mined
either can pay what is asked of it. -/
theorem C89_replaced_partial {log : List Event} {s : State} (h : Run log s) (hn : NonceNeverLowered log)
    {count : TransactionCount} {g : GasFeeEstimate} {n : TransactionNonce} {i : LedgerBurnIndex} {l : List (Resubmittable SignedTx)}
    {last : Resubmittable SignedTx} {tx : Tx} (he : s.txs.sent.getEntry n = some (i, l)) (hc : count ≤ n)
    (hl : l.getLast? = some last) (hr : last.resubmit g = .ok (.replaced tx))
    (hlow : ∀ n' i' l' last', count ≤ n' → n' < n → s.txs.sent.getEntry n' = some (i', l') → l'.getLast? = some last' →
      ∀ a b, last'.resubmit g ≠ .ok (.insufficientFee a b)) :
    ∃ out, s.txs.createResubmit count g = .ok out ∧ .ok (i, tx) ∈ out := by
  obtain ⟨out, h1, _, h3, _⟩ := C43_replace h hn count g
  refine ⟨out, h1, ?_⟩
  rcases h3 n i l last tx he hc hl hr with h | ⟨n', i', l', last', a, b, g1, g2, g3, g4, g5⟩
  · exact h
  · exact absurd g5 (hlow n' i' l' last' g1 g2 g3 g4 a b)

/-- **C89** (what one withdrawal can hold up): if the first transaction that is not mined cannot pay for its replacement, then nothing is
replaced, however many other withdrawals could pay, and nothing changes, so that it stays like this as long as the estimate does. -/
theorem C89_held_up {log : List Event} {s : State} (h : Run log s) (hn : NonceNeverLowered log)
    {count : TransactionCount} {g : GasFeeEstimate} {n : TransactionNonce} {i : LedgerBurnIndex} {l : List (Resubmittable SignedTx)}
    {last : Resubmittable SignedTx} {allowed actual : Wei} (he : s.txs.sent.getEntry n = some (i, l)) (hc : count ≤ n)
    (hl : l.getLast? = some last) (hr : last.resubmit g = .ok (.insufficientFee allowed actual))
    (hfirst : ∀ n' i' l', s.txs.sent.getEntry n' = some (i', l') → count ≤ n' → n ≤ n') :
    s.txs.createResubmit count g = .ok [.error ⟨i, allowed, actual⟩] ∧
    ∀ m : Minter, m.st = s → m.resubmitBatch (some count) g = .ok m := by
  obtain ⟨inv, _⟩ := run_txInv h hn
  obtain ⟨r, h1, h2, h3⟩ := MKM.iter_total inv.sw
  have key : s.txs.createResubmit count g = .ok [.error ⟨i, allowed, actual⟩] := by
    have hord : (r.filter fun x => decide (x.1 ≥ count)).Pairwise fun x y => x.1 < y.1 :=
      (h3.imp fun h => natLt.1 h).filter _
    have hm : (n, i, l) ∈ r.filter fun x => decide (x.1 ≥ count) :=
      List.mem_filter.2 ⟨(h2 _ _ _).2 (MKM.getEntry_eq.1 he), by simpa using hc⟩
    have hhas : ∀ {x}, x ∈ (r.filter fun x => decide (x.1 ≥ count)) → s.txs.sent.Has x.1 x.2.1 x.2.2 ∧ count ≤ x.1 := by
      rintro ⟨n, i, l⟩ hx
      exact ⟨(h2 _ _ _).1 (List.mem_filter.1 hx).1, by simpa using (List.mem_filter.1 hx).2⟩
    unfold createResubmit
    rw [h1]
    show resubmitLoop g (r.filter fun x => decide (x.1 ≥ count)) = _
    generalize r.filter (fun x => decide (x.1 ≥ count)) = q at hord hm hhas
    cases q with
    | nil => cases hm
    | cons x t =>
      obtain ⟨k, j, sent⟩ := x
      obtain ⟨hh, hk⟩ := hhas (x := (k, j, sent)) (by simp)
      have hle := hfirst k j sent (MKM.getEntry_eq.2 hh) hk
      rcases List.mem_cons.1 hm with e | hm
      · cases e
        unfold resubmitLoop
        simp only [hl, expect, Res.ok_bind, hr]
        rfl
      · rw [List.pairwise_cons] at hord
        exact absurd (hord.1 _ hm) (Nat.not_lt.2 hle)
  refine ⟨key, ?_⟩
  rintro m rfl
  unfold Minter.resubmitBatch
  split
  · rfl
  · simp only [key]
    rfl

end

namespace Example
attribute [local instance] keccak

/-- The first events of the example log, but the token withdrawal comes first. -/
def waitLog : List Event := log.take 9 ++
  [ .createdTransaction 21 { tx2 with nonce := 5 },
    .createdTransaction 20 { tx1 with nonce := 6 },
    .signedTransaction 21 ⟨{ tx2 with nonce := 5 }, sig⟩,
    .signedTransaction 20 ⟨{ tx1 with nonce := 6 }, sig⟩ ]

/-- **C89** in full is false: the base fee has risen to 5000. The token withdrawal, which is first, cannot pay that. The other one could, but it is
not replaced. -/
theorem C89_waits : ∃ s l last tx, Run waitLog s ∧ NonceNeverLowered waitLog ∧ s.txs.sent.getEntry 6 = some (20, l) ∧
    l.getLast? = some last ∧ last.resubmit ⟨5000, 10⟩ = .ok (.replaced tx) ∧
    s.txs.createResubmit 5 ⟨5000, 10⟩ = .ok [.error ⟨21, 65000 * 1000, 65000 * 5011⟩] := by
  obtain ⟨s, h1, h2⟩ := start_run (k := 8) (p := fun s => match runCheck ⟨495, 10⟩ s (waitLog.drop 9) with
    | some s' => decide (s'.txs.sent.getEntry 6 = some (20, [⟨⟨{ tx1 with nonce := 6 }, sig⟩, .reduceEthAmount 3000000000⟩])) &&
        decide (s'.txs.createResubmit 5 ⟨5000, 10⟩ = .ok [.error ⟨21, 65000 * 1000, 65000 * 5011⟩])
    | none => false) (by decide +kernel)
  split at h2
  · rename_i s' hs
    rw [Bool.and_eq_true] at h2
    refine ⟨s', _, _, { tx1 with
        nonce := 6, maxPriorityFeePerGas := 11, maxFeePerGas := 5011, amount := 3000000000 - 21000 * 5011 },
      runCheck_sound h1 hs, ?_, of_decide_eq_true h2.1, rfl, by decide +kernel, of_decide_eq_true h2.2⟩
    intro l₁ a l₂ n hl ha
    have hm : Event.upgrade a ∈ waitLog := by rw [hl]; simp
    simp [waitLog, log] at hm
  · cases h2

/-- Without the token withdrawal, which is mined if the count is 6, it is replaced. -/
theorem C89_example : ∃ s tx, Run waitLog s ∧ s.txs.createResubmit 6 ⟨5000, 10⟩ = .ok [.ok (20, tx)] := by
  obtain ⟨s, h1, h2⟩ := start_run (k := 8) (p := fun s => match runCheck ⟨495, 10⟩ s (waitLog.drop 9) with
    | some s' => decide (s'.txs.createResubmit 6 ⟨5000, 10⟩ = .ok [.ok (20, { tx1 with
        nonce := 6, maxPriorityFeePerGas := 11, maxFeePerGas := 5011, amount := 3000000000 - 21000 * 5011 })])
    | none => false) (by decide +kernel)
  split at h2
  · rename_i s' hs
    exact ⟨s', _, runCheck_sound h1 hs, of_decide_eq_true h2⟩
  · cases h2

end Example
end EvmMinter
