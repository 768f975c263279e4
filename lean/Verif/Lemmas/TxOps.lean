import Verif.Lemmas.Proj
/-!
# What each pipeline operation does when it succeeds
-/

namespace EvmMinter

/-- The fields of a transaction that resubmission must not change. -/
structure TxCore where
  chainId : Nat
  nonce : TransactionNonce
  gasLimit : GasAmount
  destination : Address
  data : Bytes
  accessList : List AccessListItem
deriving DecidableEq, Repr

def Tx.core (t : Tx) : TxCore := ⟨t.chainId, t.nonce, t.gasLimit, t.destination, t.data, t.accessList⟩

namespace Transactions

theorem equalIgnoring_iff {a b : Tx} : equalIgnoringFeeAndAmount a b = true ↔ a.core = b.core := by
  cases a; cases b
  simp only [equalIgnoringFeeAndAmount, beq_iff_eq, Tx.mk.injEq, Tx.core, TxCore.mk.injEq]
  grind

theorem core_nonce {a b : Tx} (h : a.core = b.core) : a.nonce = b.nonce := congrArg TxCore.nonce h

theorem core_destination {a b : Tx} (h : a.core = b.core) : a.destination = b.destination :=
  congrArg TxCore.destination h

structure MapsWF (t : Transactions) : Prop where
  cw : t.created.WF
  sw : t.sent.WF
  fw : t.finalized.WF

theorem recordWithdrawalRequest_ok {t t' : Transactions} {r : Request} (w : t.MapsWF)
    (h : t.recordWithdrawalRequest r = .ok t') :
    t' = { t with pending := t.pending ++ [r] } ∧ (∀ r' ∈ t.pending, r'.burnIndex ≠ r.burnIndex) ∧
    (∀ n c, ¬ t.created.Has n r.burnIndex c) ∧ (∀ n l, ¬ t.sent.Has n r.burnIndex l) ∧
    (∀ n f, ¬ t.finalized.Has n r.burnIndex f) := by
  simp only [recordWithdrawalRequest, Res.bind_ok, Res.ensure_ok, Res.pure_ok, Bool.not_eq_true',
    Bool.or_eq_false_iff, List.any_eq_false, beq_iff_eq] at h
  obtain ⟨_, ⟨⟨⟨h1, h2⟩, h3⟩, h4⟩, rfl⟩ := h
  refine ⟨rfl, h1, ?_, ?_, ?_⟩
  · intro n c hc
    have := (MKM.containsAlt_eq w.cw).2 ⟨n, c, hc⟩; simp [h2] at this
  · intro n c hc
    have := (MKM.containsAlt_eq w.sw).2 ⟨n, c, hc⟩; simp [h3] at this
  · intro n c hc
    have := (MKM.containsAlt_eq w.fw).2 ⟨n, c, hc⟩; simp [h4] at this

/-- Removing a request from the queue. -/
def pendingWithout (p : List Request) (r : Request) : List Request := p.filter (fun r' => !(r' == r))

theorem mem_pendingWithout {p : List Request} {r x : Request} :
    x ∈ pendingWithout p r ↔ x ∈ p ∧ x ≠ r := by
  simp [pendingWithout]

theorem recordCreatedTransaction_ok {t t' : Transactions} {i : LedgerBurnIndex} {tx : Tx}
    (h : t.recordCreatedTransaction i tx = .ok t') :
    ∃ r created, r ∈ t.pending ∧ t.pending.find? (fun r => r.burnIndex == i) = some r ∧ r.burnIndex = i ∧
      r.destination = tx.destination ∧
      amountOk r tx = true ∧ tx.nonce = t.nextNonce ∧ t.nextNonce + 1 < U256 ∧
      t.processed.get i = none ∧ t.maybeReimburse.get i = none ∧
      t.created.tryInsert tx.nonce i ⟨tx, strategyOf r⟩ = .ok created ∧
      t' = { t with
        pending := pendingWithout t.pending r
        nextNonce := t.nextNonce + 1
        created := created
        processed := t.processed.insert i r
        maybeReimburse := t.maybeReimburse.insert i () } := by
  simp only [recordCreatedTransaction, Res.bind_ok, Res.expect_ok, Res.ensure_ok, beq_iff_eq,
    removeWithdrawalRequest] at h
  obtain ⟨r, h1, _, h2, _, h3, _, h4, nn, h5, h6⟩ := h
  have hb : r.burnIndex = i := by simpa using List.find?_some h1
  have hm : r ∈ t.pending := List.mem_of_find?_eq_some h1
  cases hc : t.created.tryInsert tx.nonce r.burnIndex ⟨tx, strategyOf r⟩ with
  | error e => rw [hc] at h6; cases h6
  | ok created =>
    rw [hc] at h6
    simp only [Res.bind_ok, Res.ensure_ok, Bool.not_eq_true', FMap.contains_eq_false, Res.pure_ok] at h6
    obtain ⟨_, h7, _, h8, rfl⟩ := h6
    simp only [cinc, cadd_eq_some] at h5
    obtain ⟨rfl, h5⟩ := h5
    subst hb
    exact ⟨r, created, hm, h1, rfl, h2, h3, h4, h5, h7, h8, hc, rfl⟩

theorem recordSignedTransaction_ok {t t' : Transactions} {stx : SignedTx}
    (h : t.recordSignedTransaction stx = .ok t') :
    ∃ i c created sent, t.created.Has stx.tx.nonce i c ∧ c.transaction = stx.tx ∧
      (∃ o, t.created.removeEntry stx.tx.nonce = .ok (o, created)) ∧
      ((∃ i' l, t.sent.Has stx.tx.nonce i' l ∧
          sent = { t.sent with byAlt := t.sent.byAlt.insert i' (l ++ [⟨stx, c.resubmission⟩]) }) ∨
        ((∀ i' l, ¬ t.sent.Has stx.tx.nonce i' l) ∧
          t.sent.tryInsert stx.tx.nonce i [⟨stx, c.resubmission⟩] = .ok sent)) ∧
      t' = { t with created := created, sent := sent } := by
  simp only [recordSignedTransaction, Res.bind_ok, Res.expect_ok, Res.ensure_ok, beq_iff_eq] at h
  obtain ⟨c, h1, _, h2, ⟨o, created⟩, h3, ⟨n, i, v⟩, h4, h5⟩ := h
  simp only at h4 h5
  subst h4
  rcases MKM.removeEntry_ok h3 with ⟨h, _⟩ | ⟨a, v', ho, hh, hcr⟩
  · cases h
  · simp only [Option.some.injEq, Prod.mk.injEq] at ho
    obtain ⟨rfl, rfl, rfl⟩ := ho
    obtain ⟨a, ha⟩ := MKM.get_eq.1 h1
    obtain ⟨rfl, rfl⟩ := MKM.Has.unique_key hh ha
    cases hm : t.sent.modify stx.tx.nonce (fun l => l ++ [⟨stx, v.resubmission⟩]) with
    | some sent =>
      rw [hm] at h5
      simp only [Res.pure_ok] at h5
      obtain ⟨i', l, hl, rfl⟩ := MKM.modify_some hm
      exact ⟨i, v, created, _, hh, h2, ⟨_, h3⟩, .inl ⟨i', l, hl, rfl⟩, h5.symm⟩
    | none =>
      rw [hm] at h5
      simp only at h5
      cases hi : t.sent.tryInsert stx.tx.nonce i [⟨stx, v.resubmission⟩] with
      | error e => rw [hi] at h5; cases h5
      | ok sent =>
        rw [hi] at h5
        simp only [Res.pure_ok] at h5
        exact ⟨i, v, created, _, hh, h2, ⟨_, h3⟩, .inr ⟨fun i' l => MKM.modify_none hm i' l, hi⟩, h5.symm⟩

theorem expectLastSent_ok {t : Transactions} {n : TransactionNonce} {i : LedgerBurnIndex}
    {last : Resubmittable SignedTx} (h : t.expectLastSent n = .ok (i, last)) :
    ∃ l, t.sent.Has n i l ∧ l.getLast? = some last := by
  simp only [expectLastSent, Res.bind_ok, Res.expect_ok, Res.pure_ok, Prod.mk.injEq] at h
  obtain ⟨⟨i', l⟩, h1, last', h2, rfl, rfl⟩ := h
  exact ⟨l, MKM.getEntry_eq.1 h1, h2⟩

theorem recordResubmitTransaction_ok {t t' : Transactions} {tx : Tx}
    (h : t.recordResubmitTransaction tx = .ok t') :
    ∃ i l last created₁ created, t.sent.Has tx.nonce i l ∧ l.getLast? = some last ∧
      last.transaction.tx.core = tx.core ∧
      (∃ o, t.created.removeEntry tx.nonce = .ok (o, created₁)) ∧
      created₁.tryInsert tx.nonce i ⟨tx, last.resubmission⟩ = .ok created ∧
      t' = { t with created := created } := by
  simp only [recordResubmitTransaction, Res.bind_ok, Res.ensure_ok] at h
  obtain ⟨⟨i, last⟩, h1, _, h2, created₁, h3, h4⟩ := h
  obtain ⟨l, hl, hlast⟩ := expectLastSent_ok h1
  simp only [cleanupFailedResubmitted, Res.bind_ok, Res.pure_ok] at h3
  obtain ⟨⟨o, c1⟩, h3, rfl⟩ := h3
  simp only at h4
  cases hi : c1.tryInsert tx.nonce i ⟨tx, last.resubmission⟩ with
  | error e => rw [hi] at h4; cases h4
  | ok created =>
    rw [hi] at h4
    simp only [Res.pure_ok] at h4
    exact ⟨i, l, last, c1, created, hl, hlast, equalIgnoring_iff.1 h2, ⟨o, h3⟩, hi, h4.symm⟩

theorem recordReimbursementRequest_ok {t t' : Transactions} {x : ReimbIndex} {r : ReimbRequest}
    (h : t.recordReimbursementRequest x r = .ok t') :
    t.maybeReimburse.get x.withdrawalId = none ∧ t.reimbursed.get x = none ∧
    t.reimbursementRequests.get x = none ∧
    t' = { t with reimbursementRequests := t.reimbursementRequests.insert x r } := by
  simp only [recordReimbursementRequest, Res.bind_ok, Res.ensure_ok, Res.pure_ok, Bool.not_eq_true',
    FMap.contains_eq_false] at h
  obtain ⟨_, h1, _, h2, _, h3, h4⟩ := h
  exact ⟨h1, h2, h3, h4.symm⟩

theorem tryFinalize_ok [Keccak] {s : SignedTx} {r : Receipt} {f : FinalizedTx}
    (h : s.tryFinalize r = .ok f) :
    f = ⟨s, r⟩ ∧ s.hash = r.transactionHash ∧ r.effectiveGasPrice ≤ s.tx.maxFeePerGas ∧
      r.gasUsed ≤ s.tx.gasLimit := by
  unfold SignedTx.tryFinalize at h
  split at h
  · cases h
  · split at h
    · cases h
    · split at h
      · cases h
      · simp only [Except.ok.injEq] at h
        rename_i h1 h2 h3
        exact ⟨h.symm, by simpa using h1, Nat.not_lt.1 h2, Nat.not_lt.1 h3⟩

theorem recordFinalizedTransaction_ok [Keccak] {t t' : Transactions} (w : t.MapsWF) {i : LedgerBurnIndex}
    {receipt : Receipt} (h : t.recordFinalizedTransaction i receipt = .ok t') :
    ∃ n l stx sent created finalized r, t.sent.Has n i l ∧ stx ∈ l ∧
      stx.transaction.hash = receipt.transactionHash ∧
      receipt.effectiveGasPrice ≤ stx.transaction.tx.maxFeePerGas ∧
      receipt.gasUsed ≤ stx.transaction.tx.gasLimit ∧
      (∃ o, t.sent.removeEntry stx.transaction.tx.nonce = .ok (o, sent)) ∧
      (∃ o, t.created.removeEntry stx.transaction.tx.nonce = .ok (o, created)) ∧
      t.finalized.tryInsert stx.transaction.tx.nonce i ⟨stx.transaction, receipt⟩ = .ok finalized ∧
      (∃ u, t.maybeReimburse.get i = some u) ∧ t.processed.get i = some r ∧
      ((receipt.status = .success ∧
          t' = { t with sent, created, finalized, maybeReimburse := t.maybeReimburse.erase i }) ∨
        (receipt.status = .failure ∧
          (t.maybeReimburse.erase i).get (ReimbIndex.ofRequest r).withdrawalId = none ∧
          t.reimbursed.get (.ofRequest r) = none ∧ t.reimbursementRequests.get (.ofRequest r) = none ∧
          t' = { t with
            sent, created, finalized, maybeReimburse := t.maybeReimburse.erase i
            reimbursementRequests := t.reimbursementRequests.insert (.ofRequest r)
              (failureReimbursement i r ⟨stx.transaction, receipt⟩) })) := by
  simp only [recordFinalizedTransaction, Res.bind_ok, Res.expect_ok] at h
  obtain ⟨l, h1, stx, h2, h3⟩ := h
  obtain ⟨n, hl⟩ := (MKM.getAlt_eq w.sw).1 h1
  have hm := List.mem_of_find?_eq_some h2
  cases hf : stx.transaction.tryFinalize receipt with
  | error e => rw [hf] at h3; cases h3
  | ok fin =>
    obtain ⟨rfl, e1, e2, e3⟩ := tryFinalize_ok hf
    rw [hf] at h3
    simp only [Res.bind_ok, cleanupFailedResubmitted, Res.pure_ok] at h3
    obtain ⟨⟨o, sent⟩, h3, created, ⟨⟨o', cr⟩, h4, rfl⟩, h5⟩ := h3
    simp only at h5
    cases hi : t.finalized.tryInsert stx.transaction.tx.nonce i ⟨stx.transaction, receipt⟩ with
    | error e => rw [hi] at h5; cases h5
    | ok finalized =>
      rw [hi] at h5
      simp only [Res.bind_ok, Res.ensure_ok, FMap.contains_eq_true, Res.expect_ok] at h5
      obtain ⟨_, h6, r, h7, h8⟩ := h5
      refine ⟨n, l, stx, sent, cr, finalized, r, hl, hm, e1, e2, e3, ⟨o, h3⟩, ⟨o', h4⟩, hi, h6, h7, ?_⟩
      cases hst : receipt.status with
      | success =>
        simp only [hst, reduceCtorEq, if_false, Res.pure_ok] at h8
        exact .inl ⟨rfl, h8.symm⟩
      | failure =>
        simp only [hst, if_true] at h8
        obtain ⟨a1, a2, a3, a4⟩ := recordReimbursementRequest_ok h8
        exact .inr ⟨rfl, a1, a2, a3, a4⟩

theorem recordFinalizedReimbursement_ok {t t' : Transactions} {x : ReimbIndex} {b : LedgerMintIndex}
    (h : t.recordFinalizedReimbursement x b = .ok t') :
    ∃ r, t.reimbursementRequests.get x = some r ∧ t.reimbursed.get x = none ∧
      t' = { t with
        reimbursementRequests := t.reimbursementRequests.erase x
        reimbursed := t.reimbursed.insert x (.ok ⟨b, x.burnInBlock, r.reimbursedAmount, r.transactionHash⟩) } := by
  simp only [recordFinalizedReimbursement, Res.bind_ok, Res.expect_ok, Res.ensure_ok, Bool.not_eq_true',
    FMap.contains_eq_false, Res.pure_ok] at h
  obtain ⟨r, h1, _, h2, h3⟩ := h
  exact ⟨r, h1, h2, h3.symm⟩

end Transactions

end EvmMinter
