import Verif.Lemmas.TxOps
/-!
# The pipeline invariant
-/

namespace EvmMinter

namespace Transactions

/-- Invariant of the withdrawal pipeline, for histories in which no upgrade lowers the next nonce. -/
structure TxInv (t : Transactions) : Prop where
  cw : t.created.WF
  sw : t.sent.WF
  fw : t.finalized.WF
  pend : t.pending.Pairwise (fun a b => a.burnIndex ≠ b.burnIndex)
  pendProc : ∀ r ∈ t.pending, t.processed.get r.burnIndex = none
  procIdx : ∀ i r, t.processed.get i = some r → r.burnIndex = i
  cProc : ∀ n i c, t.created.Has n i c → ∃ r, t.processed.get i = some r ∧
    c.resubmission = strategyOf r ∧ r.destination = c.transaction.destination
  sProc : ∀ n i l, t.sent.Has n i l → ∃ r, t.processed.get i = some r ∧
    ∀ x ∈ l, x.resubmission = strategyOf r ∧ r.destination = x.transaction.tx.destination
  fProc : ∀ n i f, t.finalized.Has n i f → ∃ r, t.processed.get i = some r ∧
    r.destination = f.signed.tx.destination
  procIn : ∀ i r, t.processed.get i = some r → (∃ n c, t.created.Has n i c) ∨
    (∃ n l, t.sent.Has n i l) ∨ (∃ n f, t.finalized.Has n i f)
  cN : ∀ n i c, t.created.Has n i c → n < t.nextNonce ∧ c.transaction.nonce = n
  sN : ∀ n i l, t.sent.Has n i l → n < t.nextNonce ∧ l ≠ [] ∧ ∀ x ∈ l, x.transaction.tx.nonce = n
  fN : ∀ n i f, t.finalized.Has n i f → n < t.nextNonce ∧ f.signed.tx.nonce = n
  cs : ∀ n i c n' i' l, t.created.Has n i c → t.sent.Has n' i' l → (n = n' ↔ i = i')
  cf : ∀ n i c n' i' f, t.created.Has n i c → t.finalized.Has n' i' f → n ≠ n' ∧ i ≠ i'
  sf : ∀ n i l n' i' f, t.sent.Has n i l → t.finalized.Has n' i' f → n ≠ n' ∧ i ≠ i'
  cCore : ∀ n i c l, t.created.Has n i c → t.sent.Has n i l → ∀ x ∈ l, x.transaction.tx.core = c.transaction.core
  sCore : ∀ n i l, t.sent.Has n i l → ∀ x ∈ l, ∀ y ∈ l, x.transaction.tx.core = y.transaction.tx.core
  maybe : ∀ i, t.maybeReimburse.get i ≠ none ↔ (∃ n c, t.created.Has n i c) ∨ (∃ n l, t.sent.Has n i l)
  reimb : ∀ x, t.reimbursementRequests.get x ≠ none → t.reimbursed.get x = none

theorem TxInv.maps {t : Transactions} (h : t.TxInv) : t.MapsWF := ⟨h.cw, h.sw, h.fw⟩

theorem txInv_new (n : TransactionNonce) : (Transactions.new n).TxInv := by
  have hc : ∀ n i c, ¬ (Transactions.new n).created.Has n i c := fun _ _ _ => MKM.not_has_empty
  constructor <;> simp [Transactions.new, MKM.wf_empty, MKM.not_has_empty]

theorem TxInv.withNonce {t : Transactions} (h : t.TxInv) {o : Option Nat}
    (hn : ∀ n, o = some n → t.nextNonce ≤ n) : (withNonce t o).TxInv := by
  cases o with
  | none => exact h
  | some n =>
    have hn := hn n rfl
    obtain ⟨h1, h2, h3, h4, h5, h6, h7, h8, h9, h10, h11, h12, h13, h14, h15, h16, h17, h18, h19, h20⟩ := h
    refine ⟨h1, h2, h3, h4, h5, h6, h7, h8, h9, h10, ?_, ?_, ?_, h14, h15, h16, h17, h18, h19, h20⟩
    · intro k i c hc; exact ⟨Nat.lt_of_lt_of_le (h11 k i c hc).1 hn, (h11 k i c hc).2⟩
    · intro k i c hc; exact ⟨Nat.lt_of_lt_of_le (h12 k i c hc).1 hn, (h12 k i c hc).2⟩
    · intro k i c hc; exact ⟨Nat.lt_of_lt_of_le (h13 k i c hc).1 hn, (h13 k i c hc).2⟩

theorem TxInv.recordWithdrawalRequest {t t' : Transactions} (h : t.TxInv) {r : Request}
    (hr : t.recordWithdrawalRequest r = .ok t') : t'.TxInv := by
  obtain ⟨rfl, e1, e2, e3, e4⟩ := recordWithdrawalRequest_ok h.maps hr
  obtain ⟨h1, h2, h3, h4, h5, h6, h7, h8, h9, h10, h11, h12, h13, h14, h15, h16, h17, h18, h19, h20⟩ := h
  refine ⟨h1, h2, h3, ?_, ?_, h6, h7, h8, h9, h10, h11, h12, h13, h14, h15, h16, h17, h18, h19, h20⟩
  · simp only [List.pairwise_append, List.pairwise_cons, List.Pairwise.nil, List.mem_singleton]
    exact ⟨h4, by simp, fun a ha b hb => hb ▸ e1 a ha⟩
  · intro x hx
    simp only [List.mem_append, List.mem_singleton] at hx
    rcases hx with hx | rfl
    · exact h5 x hx
    · cases hp : t.processed.get x.burnIndex with
      | none => rfl
      | some y =>
        rcases h10 _ _ hp with ⟨n, c, hc⟩ | ⟨n, c, hc⟩ | ⟨n, c, hc⟩
        · exact absurd hc (e2 n c)
        · exact absurd hc (e3 n c)
        · exact absurd hc (e4 n c)

theorem pairwise_unique {l : List Request} (h : l.Pairwise (fun a b => a.burnIndex ≠ b.burnIndex))
    {a b : Request} (ha : a ∈ l) (hb : b ∈ l) (e : a.burnIndex = b.burnIndex) : a = b := by
  induction l with
  | nil => cases ha
  | cons x t ih =>
    rw [List.pairwise_cons] at h
    rcases List.mem_cons.1 ha with ea | ha' <;> rcases List.mem_cons.1 hb with eb | hb'
    · rw [ea, eb]
    · rw [ea] at e; exact absurd e (h.1 b hb')
    · rw [eb] at e; exact absurd e.symm (h.1 a ha')
    · exact ih h.2 ha' hb'

theorem TxInv.recordCreatedTransaction {t t' : Transactions} (h : t.TxInv) {i : LedgerBurnIndex} {tx : Tx}
    (hr : t.recordCreatedTransaction i tx = .ok t') : t'.TxInv := by
  obtain ⟨r, created, e1, _, e2, e3, e4, e5, e6, e7, e8, e9, rfl⟩ := recordCreatedTransaction_ok hr
  obtain ⟨h1, h2, h3, h4, h5, h6, h7, h8, h9, h10, h11, h12, h13, h14, h15, h16, h17, h18, h19, h20⟩ := h
  have hcw := MKM.tryInsert_wf h1 e9
  have hch := fun k a v => MKM.tryInsert_has h1 e9 (k' := k) (a' := a) (v' := v)
  have noC : ∀ n c, ¬ t.created.Has n i c := fun n c hc => by
    obtain ⟨_, h, _⟩ := h7 n i c hc; simp [e7] at h
  have noS : ∀ n c, ¬ t.sent.Has n i c := fun n c hc => by
    obtain ⟨_, h, _⟩ := h8 n i c hc; simp [e7] at h
  have noF : ∀ n c, ¬ t.finalized.Has n i c := fun n c hc => by
    obtain ⟨_, h, _⟩ := h9 n i c hc; simp [e7] at h
  refine ⟨hcw, h2, h3, ?_, ?_, ?_, ?_, ?_, ?_, ?_, ?_, ?_, ?_, ?_, ?_, h16, ?_, h18, ?_, h20⟩
  · exact h4.sublist List.filter_sublist
  · intro x hx
    obtain ⟨hx, hne⟩ := mem_pendingWithout.1 hx
    simp only [FMap.get_insert]
    split
    · rename_i e; exact absurd (pairwise_unique h4 hx e1 (e.trans e2.symm)) hne
    · exact h5 x hx
  · intro j q hj
    simp only [FMap.get_insert] at hj
    split at hj
    · rename_i e; subst e; simp only [Option.some.injEq] at hj; subst hj; exact e2
    · exact h6 j q hj
  · intro n j c hc
    rcases (hch n j c).1 hc with ⟨rfl, rfl, rfl⟩ | hc'
    · exact ⟨r, by simp, rfl, e3⟩
    · obtain ⟨q, hq, hq'⟩ := h7 n j c hc'
      have : j ≠ i := by rintro rfl; exact noC n c hc'
      exact ⟨q, by simp [this, hq], hq'⟩
  · intro n j c hc
    obtain ⟨q, hq, hq'⟩ := h8 n j c hc
    have : j ≠ i := by rintro rfl; exact noS n c hc
    exact ⟨q, by simp [this, hq], hq'⟩
  · intro n j c hc
    obtain ⟨q, hq, hq'⟩ := h9 n j c hc
    have : j ≠ i := by rintro rfl; exact noF n c hc
    exact ⟨q, by simp [this, hq], hq'⟩
  · intro j q hj
    simp only [FMap.get_insert] at hj
    split at hj
    · rename_i e; subst e; exact .inl ⟨_, _, (hch _ _ _).2 (.inl ⟨rfl, rfl, rfl⟩)⟩
    · rcases h10 j q hj with ⟨n, c, hc⟩ | h | h
      · exact .inl ⟨n, c, (hch _ _ _).2 (.inr hc)⟩
      · exact .inr (.inl h)
      · exact .inr (.inr h)
  · intro n j c hc
    rcases (hch n j c).1 hc with ⟨rfl, rfl, rfl⟩ | hc
    · exact ⟨by rw [e5]; exact Nat.lt_succ_self _, rfl⟩
    · have := h11 n j c hc; exact ⟨Nat.lt_succ_of_lt this.1, this.2⟩
  · intro n j c hc; have := h12 n j c hc; exact ⟨Nat.lt_succ_of_lt this.1, this.2⟩
  · intro n j c hc; have := h13 n j c hc; exact ⟨Nat.lt_succ_of_lt this.1, this.2⟩
  · intro n j c n' j' l hc hs
    rcases (hch n j c).1 hc with ⟨rfl, rfl, rfl⟩ | hc
    · have hlt := (h12 n' j' l hs).1
      have hne : ¬ j = j' := by rintro rfl; exact noS _ _ hs
      have : ¬ tx.nonce = n' := by intro e; rw [← e, e5] at hlt; exact Nat.lt_irrefl _ hlt
      simp [hne, this]
    · exact h14 n j c n' j' l hc hs
  · intro n j c n' j' l hc hs
    rcases (hch n j c).1 hc with ⟨rfl, rfl, rfl⟩ | hc
    · have hlt := (h13 n' j' l hs).1
      have hne : ¬ j = j' := by rintro rfl; exact noF _ _ hs
      have : ¬ tx.nonce = n' := by intro e; rw [← e, e5] at hlt; exact Nat.lt_irrefl _ hlt
      exact ⟨this, hne⟩
    · exact h15 n j c n' j' l hc hs
  · intro n j c l hc hs
    rcases (hch n j c).1 hc with ⟨rfl, rfl, rfl⟩ | hc
    · exact absurd hs (noS _ _)
    · exact h17 n j c l hc hs
  · intro j
    simp only [FMap.get_insert]
    split
    · rename_i e; subst e
      simp only [ne_eq, reduceCtorEq, not_false_eq_true, true_iff]
      exact .inl ⟨_, _, (hch _ _ _).2 (.inl ⟨rfl, rfl, rfl⟩)⟩
    · rename_i hne
      rw [h19 j]
      constructor
      · rintro (⟨n, c, hc⟩ | h)
        · exact .inl ⟨n, c, (hch _ _ _).2 (.inr hc)⟩
        · exact .inr h
      · rintro (⟨n, c, hc⟩ | h)
        · rcases (hch n j c).1 hc with ⟨rfl, rfl, rfl⟩ | hc
          · exact absurd rfl hne
          · exact .inl ⟨n, c, hc⟩
        · exact .inr h

theorem TxInv.recordSignedTransaction {t t' : Transactions} (h : t.TxInv) {stx : SignedTx}
    (hr : t.recordSignedTransaction stx = .ok t') : t'.TxInv := by
  obtain ⟨i, c, created, sent, e1, e2, ⟨o, e3⟩, e4, rfl⟩ := recordSignedTransaction_ok hr
  obtain ⟨h1, h2, h3, h4, h5, h6, h7, h8, h9, h10, h11, h12, h13, h14, h15, h16, h17, h18, h19, h20⟩ := h
  have hcw := MKM.removeEntry_wf h1 e3
  have hch := fun k a v => MKM.removeEntry_has h1 e3 (k' := k) (a' := a) (v' := v)
  obtain ⟨q, hq1, hq2, hq3⟩ := h7 _ _ _ e1
  have hN := h11 _ _ _ e1
  -- uniform description of the sent map
  have hs : sent.WF ∧ ∃ old : List (Resubmittable SignedTx),
      (old = [] ∧ (∀ i' l, ¬ t.sent.Has stx.tx.nonce i' l) ∨ t.sent.Has stx.tx.nonce i old) ∧
      ∀ n j l, sent.Has n j l ↔ (n = stx.tx.nonce ∧ j = i ∧ l = old ++ [⟨stx, c.resubmission⟩]) ∨
        (n ≠ stx.tx.nonce ∧ t.sent.Has n j l) := by
    rcases e4 with ⟨i', l, hl, rfl⟩ | ⟨hn, hi⟩
    · have : i = i' := (h14 _ _ _ _ _ _ e1 hl).1 rfl
      subst this
      refine ⟨MKM.update_wf h2 hl, l, .inr hl, ?_⟩
      intro n j l'
      rw [MKM.update_has h2 hl]
    · refine ⟨MKM.tryInsert_wf h2 hi, [], .inl ⟨rfl, hn⟩, ?_⟩
      intro n j l
      rw [MKM.tryInsert_has h2 hi]
      constructor
      · rintro (h | h)
        · exact .inl h
        · refine .inr ⟨?_, h⟩
          rintro rfl; exact hn _ _ h
      · rintro (h | h)
        · exact .inl h
        · exact .inr h.2
  obtain ⟨hsw, old, hold, hsh⟩ := hs
  have altNe : ∀ n j c', created.Has n j c' → j ≠ i := by
    rintro n j c' hc rfl
    obtain ⟨hne, hc⟩ := (hch n j c').1 hc
    exact hne (MKM.Has.unique_alt h1 hc e1).1
  have sAltNe : ∀ n j l, t.sent.Has n j l → n ≠ stx.tx.nonce → j ≠ i := by
    rintro n j l hl hne rfl
    exact hne ((h14 _ _ _ _ _ _ e1 hl).2 rfl).symm
  refine ⟨hcw, hsw, h3, h4, h5, h6, ?_, ?_, h9, ?_, ?_, ?_, h13, ?_, ?_, ?_, ?_, ?_, ?_, h20⟩
  · intro n j c' hc; exact h7 n j c' ((hch _ _ _).1 hc).2
  · intro n j l hl
    rcases (hsh n j l).1 hl with ⟨rfl, rfl, rfl⟩ | ⟨_, hl⟩
    · refine ⟨q, hq1, ?_⟩
      intro x hx
      simp only [List.mem_append, List.mem_singleton] at hx
      rcases hx with hx | rfl
      · rcases hold with ⟨rfl, _⟩ | hold
        · cases hx
        · obtain ⟨q', hq', hq''⟩ := h8 _ _ _ hold
          rw [hq1] at hq'
          simp only [Option.some.injEq] at hq'; subst hq'
          exact hq'' x hx
      · exact ⟨hq2, by rw [hq3, e2]⟩
    · exact h8 n j l hl
  · intro j r hj
    rcases h10 j r hj with ⟨n, c', hc⟩ | ⟨n, l, hl⟩ | h
    · by_cases hne : n = stx.tx.nonce
      · subst hne
        obtain ⟨rfl, rfl⟩ := MKM.Has.unique_key hc e1
        exact .inr (.inl ⟨_, _, (hsh _ _ _).2 (.inl ⟨rfl, rfl, rfl⟩)⟩)
      · exact .inl ⟨n, c', (hch _ _ _).2 ⟨hne, hc⟩⟩
    · by_cases hne : n = stx.tx.nonce
      · subst hne
        have : i = j := (h14 _ _ _ _ _ _ e1 hl).1 rfl
        subst this
        exact .inr (.inl ⟨_, _, (hsh _ _ _).2 (.inl ⟨rfl, rfl, rfl⟩)⟩)
      · exact .inr (.inl ⟨n, l, (hsh _ _ _).2 (.inr ⟨hne, hl⟩)⟩)
    · exact .inr (.inr h)
  · intro n j c' hc; exact h11 n j c' ((hch _ _ _).1 hc).2
  · intro n j l hl
    rcases (hsh n j l).1 hl with ⟨rfl, rfl, rfl⟩ | ⟨_, hl⟩
    · refine ⟨hN.1, by simp, ?_⟩
      intro x hx
      simp only [List.mem_append, List.mem_singleton] at hx
      rcases hx with hx | rfl
      · rcases hold with ⟨rfl, _⟩ | hold
        · cases hx
        · exact (h12 _ _ _ hold).2.2 x hx
      · rfl
    · exact h12 n j l hl
  · intro n j c' n' j' l hc hl
    have hne := altNe n j c' hc
    obtain ⟨hn, hc⟩ := (hch _ _ _).1 hc
    rcases (hsh n' j' l).1 hl with ⟨rfl, rfl, rfl⟩ | ⟨_, hl⟩
    · simp [hn, hne]
    · exact h14 n j c' n' j' l hc hl
  · intro n j c' n' j' f hc hf; exact h15 n j c' n' j' f ((hch _ _ _).1 hc).2 hf
  · intro n j l n' j' f hl hf
    rcases (hsh n j l).1 hl with ⟨rfl, rfl, rfl⟩ | ⟨_, hl⟩
    · exact h15 _ _ _ n' j' f e1 hf
    · exact h16 n j l n' j' f hl hf
  · intro n j c' l hc hl
    have hne := altNe n j c' hc
    obtain ⟨hn, hc⟩ := (hch _ _ _).1 hc
    rcases (hsh n j l).1 hl with ⟨rfl, _, _⟩ | ⟨_, hl⟩
    · exact absurd rfl hn
    · exact h17 n j c' l hc hl
  · intro n j l hl
    rcases (hsh n j l).1 hl with ⟨rfl, rfl, rfl⟩ | ⟨_, hl⟩
    · have key : ∀ x ∈ old ++ [⟨stx, c.resubmission⟩], x.transaction.tx.core = stx.tx.core := by
        intro x hx
        simp only [List.mem_append, List.mem_singleton] at hx
        rcases hx with hx | rfl
        · rcases hold with ⟨rfl, _⟩ | hold
          · cases hx
          · rw [h17 _ _ _ _ e1 hold x hx, e2]
        · rfl
      intro x hx y hy
      rw [key x hx, key y hy]
    · exact h18 n j l hl
  · intro j
    rw [h19 j]
    constructor
    · rintro (⟨n, c', hc⟩ | ⟨n, l, hl⟩)
      · by_cases hne : n = stx.tx.nonce
        · subst hne
          obtain ⟨rfl, rfl⟩ := MKM.Has.unique_key hc e1
          exact .inr ⟨_, _, (hsh _ _ _).2 (.inl ⟨rfl, rfl, rfl⟩)⟩
        · exact .inl ⟨n, c', (hch _ _ _).2 ⟨hne, hc⟩⟩
      · by_cases hne : n = stx.tx.nonce
        · subst hne
          have : i = j := (h14 _ _ _ _ _ _ e1 hl).1 rfl
          subst this
          exact .inr ⟨_, _, (hsh _ _ _).2 (.inl ⟨rfl, rfl, rfl⟩)⟩
        · exact .inr ⟨n, l, (hsh _ _ _).2 (.inr ⟨hne, hl⟩)⟩
    · rintro (⟨n, c', hc⟩ | ⟨n, l, hl⟩)
      · exact .inl ⟨n, c', ((hch _ _ _).1 hc).2⟩
      · rcases (hsh n j l).1 hl with ⟨rfl, rfl, rfl⟩ | ⟨_, hl⟩
        · exact .inl ⟨_, _, e1⟩
        · exact .inr ⟨n, l, hl⟩

theorem TxInv.recordResubmitTransaction {t t' : Transactions} (h : t.TxInv) {tx : Tx}
    (hr : t.recordResubmitTransaction tx = .ok t') : t'.TxInv := by
  obtain ⟨i, l, last, created₁, created, e1, e2, e3, ⟨o, e4⟩, e5, rfl⟩ := recordResubmitTransaction_ok hr
  obtain ⟨h1, h2, h3, h4, h5, h6, h7, h8, h9, h10, h11, h12, h13, h14, h15, h16, h17, h18, h19, h20⟩ := h
  have hcw1 := MKM.removeEntry_wf h1 e4
  have hch1 := fun k a v => MKM.removeEntry_has h1 e4 (k' := k) (a' := a) (v' := v)
  have hcw := MKM.tryInsert_wf hcw1 e5
  have hlast : last ∈ l := List.mem_of_getLast? e2
  have hch : ∀ n j c, created.Has n j c ↔ (n = tx.nonce ∧ j = i ∧ c = ⟨tx, last.resubmission⟩) ∨
      (n ≠ tx.nonce ∧ t.created.Has n j c) := by
    intro n j c
    rw [MKM.tryInsert_has hcw1 e5, hch1]
  have altNe : ∀ n j c, n ≠ tx.nonce → t.created.Has n j c → j ≠ i := by
    rintro n j c hne hc rfl
    exact hne ((h14 _ _ _ _ _ _ hc e1).2 rfl)
  obtain ⟨q, hq1, hq2⟩ := h8 _ _ _ e1
  refine ⟨hcw, h2, h3, h4, h5, h6, ?_, h8, h9, ?_, ?_, h12, h13, ?_, ?_, h16, ?_, h18, ?_, h20⟩
  · intro n j c hc
    rcases (hch n j c).1 hc with ⟨rfl, rfl, rfl⟩ | ⟨_, hc⟩
    · exact ⟨q, hq1, (hq2 last hlast).1, by rw [(hq2 last hlast).2, core_destination e3]⟩
    · exact h7 n j c hc
  · intro j r hj
    rcases h10 j r hj with ⟨n, c, hc⟩ | h | h
    · by_cases hne : n = tx.nonce
      · subst hne
        have : j = i := (h14 _ _ _ _ _ _ hc e1).1 rfl
        subst this
        exact .inl ⟨_, _, (hch _ _ _).2 (.inl ⟨rfl, rfl, rfl⟩)⟩
      · exact .inl ⟨n, c, (hch _ _ _).2 (.inr ⟨hne, hc⟩)⟩
    · exact .inr (.inl h)
    · exact .inr (.inr h)
  · intro n j c hc
    rcases (hch n j c).1 hc with ⟨rfl, rfl, rfl⟩ | ⟨_, hc⟩
    · exact ⟨(h12 _ _ _ e1).1, rfl⟩
    · exact h11 n j c hc
  · intro n j c n' j' l' hc hl
    rcases (hch n j c).1 hc with ⟨rfl, rfl, rfl⟩ | ⟨_, hc⟩
    · constructor
      · rintro rfl; exact (MKM.Has.unique_key e1 hl).1
      · rintro rfl; exact (MKM.Has.unique_alt h2 e1 hl).1
    · exact h14 n j c n' j' l' hc hl
  · intro n j c n' j' f hc hf
    rcases (hch n j c).1 hc with ⟨rfl, rfl, rfl⟩ | ⟨_, hc⟩
    · exact h16 _ _ _ n' j' f e1 hf
    · exact h15 n j c n' j' f hc hf
  · intro n j c l' hc hl
    rcases (hch n j c).1 hc with ⟨rfl, rfl, rfl⟩ | ⟨_, hc⟩
    · obtain ⟨_, rfl⟩ := MKM.Has.unique_key e1 hl
      intro x hx
      rw [h18 _ _ _ e1 x hx last hlast, e3]
    · exact h17 n j c l' hc hl
  · intro j
    rw [h19 j]
    constructor
    · rintro (⟨n, c, hc⟩ | h)
      · by_cases hne : n = tx.nonce
        · subst hne
          have : j = i := (h14 _ _ _ _ _ _ hc e1).1 rfl
          subst this
          exact .inr ⟨_, _, e1⟩
        · exact .inl ⟨n, c, (hch _ _ _).2 (.inr ⟨hne, hc⟩)⟩
      · exact .inr h
    · rintro (⟨n, c, hc⟩ | h)
      · rcases (hch n j c).1 hc with ⟨rfl, rfl, rfl⟩ | ⟨_, hc⟩
        · exact .inr ⟨_, _, e1⟩
        · exact .inl ⟨n, c, hc⟩
      · exact .inr h

theorem TxInv.recordReimbursementRequest {t t' : Transactions} (h : t.TxInv) {x : ReimbIndex}
    {r : ReimbRequest} (hr : t.recordReimbursementRequest x r = .ok t') : t'.TxInv := by
  obtain ⟨e1, e2, e3, rfl⟩ := recordReimbursementRequest_ok hr
  obtain ⟨h1, h2, h3, h4, h5, h6, h7, h8, h9, h10, h11, h12, h13, h14, h15, h16, h17, h18, h19, h20⟩ := h
  refine ⟨h1, h2, h3, h4, h5, h6, h7, h8, h9, h10, h11, h12, h13, h14, h15, h16, h17, h18, h19, ?_⟩
  intro y hy
  simp only [FMap.get_insert] at hy
  split at hy
  · rename_i e; subst e; exact e2
  · exact h20 y hy

theorem TxInv.recordFinalizedReimbursement {t t' : Transactions} (h : t.TxInv) {x : ReimbIndex}
    {b : LedgerMintIndex} (hr : t.recordFinalizedReimbursement x b = .ok t') : t'.TxInv := by
  obtain ⟨r, e1, e2, rfl⟩ := recordFinalizedReimbursement_ok hr
  obtain ⟨h1, h2, h3, h4, h5, h6, h7, h8, h9, h10, h11, h12, h13, h14, h15, h16, h17, h18, h19, h20⟩ := h
  refine ⟨h1, h2, h3, h4, h5, h6, h7, h8, h9, h10, h11, h12, h13, h14, h15, h16, h17, h18, h19, ?_⟩
  intro y hy
  simp only [FMap.get_erase] at hy
  split at hy
  · exact absurd rfl hy
  · rename_i ne; simp only [FMap.get_insert, if_neg ne]; exact h20 y hy

theorem TxInv.recordQuarantinedReimbursement {t : Transactions} (h : t.TxInv) (x : ReimbIndex) :
    (t.recordQuarantinedReimbursement x).TxInv := by
  obtain ⟨h1, h2, h3, h4, h5, h6, h7, h8, h9, h10, h11, h12, h13, h14, h15, h16, h17, h18, h19, h20⟩ := h
  refine ⟨h1, h2, h3, h4, h5, h6, h7, h8, h9, h10, h11, h12, h13, h14, h15, h16, h17, h18, h19, ?_⟩
  intro y hy
  simp only [Transactions.recordQuarantinedReimbursement, FMap.get_erase] at hy
  split at hy
  · exact absurd rfl hy
  · rename_i ne
    simp only [Transactions.recordQuarantinedReimbursement, FMap.get_insert, if_neg ne]; exact h20 y hy

theorem TxInv.recordFinalizedTransaction [Keccak] {t t' : Transactions} (h : t.TxInv) {i : LedgerBurnIndex}
    {receipt : Receipt} (hr : t.recordFinalizedTransaction i receipt = .ok t') : t'.TxInv := by
  obtain ⟨n, l, stx, sent, created, finalized, r, e1, e2, e3, e4, e5, ⟨o, e6⟩, ⟨o', e7⟩, e8, ⟨_, e9⟩, e10, e11⟩ :=
    recordFinalizedTransaction_ok h.maps hr
  have hreimb := h.reimb
  obtain ⟨h1, h2, h3, h4, h5, h6, h7, h8, h9, h10, h11, h12, h13, h14, h15, h16, h17, h18, h19, h20⟩ := h
  have hn : stx.transaction.tx.nonce = n := (h12 _ _ _ e1).2.2 stx e2
  rw [hn] at e6 e7 e8
  have hcw := MKM.removeEntry_wf h1 e7
  have hch := fun k a v => MKM.removeEntry_has h1 e7 (k' := k) (a' := a) (v' := v)
  have hsw := MKM.removeEntry_wf h2 e6
  have hsh := fun k a v => MKM.removeEntry_has h2 e6 (k' := k) (a' := a) (v' := v)
  have hfw := MKM.tryInsert_wf h3 e8
  have hfh := fun k a v => MKM.tryInsert_has h3 e8 (k' := k) (a' := a) (v' := v)
  obtain ⟨q, hq1, hq2⟩ := h8 _ _ _ e1
  have cAlt : ∀ m j c, t.created.Has m j c → (m ≠ n ↔ j ≠ i) := fun m j c hc =>
    not_congr (h14 _ _ _ _ _ _ hc e1)
  have sAlt : ∀ m j c, t.sent.Has m j c → (m ≠ n ↔ j ≠ i) := fun m j c hc => by
    refine not_congr ⟨?_, ?_⟩
    · rintro rfl; exact (MKM.Has.unique_key hc e1).1
    · rintro rfl; exact (MKM.Has.unique_alt h2 hc e1).1
  have main : ∀ rr : FMap ReimbIndex ReimbRequest, (∀ x, rr.get x ≠ none → t.reimbursed.get x = none) →
      ({ t with sent, created, finalized, maybeReimburse := t.maybeReimburse.erase i,
                reimbursementRequests := rr } : Transactions).TxInv := by
    intro rr hrr
    refine ⟨hcw, hsw, hfw, h4, h5, h6, ?_, ?_, ?_, ?_, ?_, ?_, ?_, ?_, ?_, ?_, ?_, ?_, ?_, hrr⟩
    · intro m j c hc; exact h7 m j c ((hch _ _ _).1 hc).2
    · intro m j c hc; exact h8 m j c ((hsh _ _ _).1 hc).2
    · intro m j f hf
      rcases (hfh m j f).1 hf with ⟨rfl, rfl, rfl⟩ | hf
      · exact ⟨q, hq1, (hq2 stx e2).2⟩
      · exact h9 m j f hf
    · intro j r' hj
      by_cases hji : j = i
      · subst hji; exact .inr (.inr ⟨_, _, (hfh _ _ _).2 (.inl ⟨rfl, rfl, rfl⟩)⟩)
      · rcases h10 j r' hj with ⟨m, c, hc⟩ | ⟨m, c, hc⟩ | ⟨m, c, hc⟩
        · exact .inl ⟨m, c, (hch _ _ _).2 ⟨(cAlt m j c hc).2 hji, hc⟩⟩
        · exact .inr (.inl ⟨m, c, (hsh _ _ _).2 ⟨(sAlt m j c hc).2 hji, hc⟩⟩)
        · exact .inr (.inr ⟨m, c, (hfh _ _ _).2 (.inr hc)⟩)
    · intro m j c hc; exact h11 m j c ((hch _ _ _).1 hc).2
    · intro m j c hc; exact h12 m j c ((hsh _ _ _).1 hc).2
    · intro m j f hf
      rcases (hfh m j f).1 hf with ⟨rfl, rfl, rfl⟩ | hf
      · exact ⟨(h12 _ _ _ e1).1, hn⟩
      · exact h13 m j f hf
    · intro m j c m' j' l' hc hl; exact h14 m j c m' j' l' ((hch _ _ _).1 hc).2 ((hsh _ _ _).1 hl).2
    · intro m j c m' j' f hc hf
      obtain ⟨hne, hc'⟩ := (hch _ _ _).1 hc
      rcases (hfh m' j' f).1 hf with ⟨rfl, rfl, rfl⟩ | hf
      · exact ⟨hne, (cAlt m j c hc').1 hne⟩
      · exact h15 m j c m' j' f hc' hf
    · intro m j c m' j' f hc hf
      obtain ⟨hne, hc'⟩ := (hsh _ _ _).1 hc
      rcases (hfh m' j' f).1 hf with ⟨rfl, rfl, rfl⟩ | hf
      · exact ⟨hne, (sAlt m j c hc').1 hne⟩
      · exact h16 m j c m' j' f hc' hf
    · intro m j c l' hc hl; exact h17 m j c l' ((hch _ _ _).1 hc).2 ((hsh _ _ _).1 hl).2
    · intro m j l' hl; exact h18 m j l' ((hsh _ _ _).1 hl).2
    · intro j
      simp only [FMap.get_erase]
      split
      · rename_i hji; subst hji
        simp only [ne_eq, not_true_eq_false, false_iff, not_or, not_exists]
        refine ⟨?_, ?_⟩
        · intro m c hc
          obtain ⟨hne, hc⟩ := (hch _ _ _).1 hc
          exact (cAlt m j c hc).1 hne rfl
        · intro m c hc
          obtain ⟨hne, hc⟩ := (hsh _ _ _).1 hc
          exact (sAlt m j c hc).1 hne rfl
      · rename_i hji
        rw [h19 j]
        constructor
        · rintro (⟨m, c, hc⟩ | ⟨m, c, hc⟩)
          · exact .inl ⟨m, c, (hch _ _ _).2 ⟨(cAlt m j c hc).2 hji, hc⟩⟩
          · exact .inr ⟨m, c, (hsh _ _ _).2 ⟨(sAlt m j c hc).2 hji, hc⟩⟩
        · rintro (⟨m, c, hc⟩ | ⟨m, c, hc⟩)
          · exact .inl ⟨m, c, ((hch _ _ _).1 hc).2⟩
          · exact .inr ⟨m, c, ((hsh _ _ _).1 hc).2⟩
  rcases e11 with ⟨_, rfl⟩ | ⟨_, _, b2, b3, rfl⟩
  · exact main _ h20
  · refine main _ ?_
    intro x hx
    simp only [FMap.get_insert] at hx
    split at hx
    · rename_i e; subst e; exact b2
    · exact h20 x hx

/-- Condition on an upgrade: it does not lower the next transaction nonce. -/
def nonceOk (t : Transactions) : Event → Prop
  | .upgrade a => ∀ n, a.nextTransactionNonce = some n → t.nextNonce ≤ n
  | _ => True

theorem TxInv.event [Keccak] {t t' : Transactions} (h : t.TxInv) {e : Event} (hn : t.nonceOk e)
    (ht : txEvent t e = .ok t') : t'.TxInv := by
  cases e <;> simp only [txEvent] at ht
  case upgrade a => simp only [Except.ok.injEq] at ht; subst ht; exact h.withNonce hn
  case acceptedNativeWithdrawalRequest r => exact h.recordWithdrawalRequest ht
  case acceptedErc20WithdrawalRequest r => exact h.recordWithdrawalRequest ht
  case createdTransaction => exact h.recordCreatedTransaction ht
  case signedTransaction => exact h.recordSignedTransaction ht
  case replacedTransaction => exact h.recordResubmitTransaction ht
  case finalizedTransaction => exact h.recordFinalizedTransaction ht
  case reimbursedNativeWithdrawal => exact h.recordFinalizedReimbursement ht
  case reimbursedErc20Withdrawal => exact h.recordFinalizedReimbursement ht
  case failedErc20WithdrawalRequest => exact h.recordReimbursementRequest ht
  case quarantinedReimbursement =>
    simp only [Except.ok.injEq] at ht; subst ht; exact h.recordQuarantinedReimbursement _
  all_goals (simp only [Except.ok.injEq] at ht; subst ht; exact h)

end Transactions

end EvmMinter
