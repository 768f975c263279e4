import Verif.Props.C42
/-!
# C43: only transactions not yet mined are sent or replaced, and exactly the mined ones are finalized
-/

namespace EvmMinter

open Spec Transactions

section
variable [Keccak]

/-! ### Sending -/

omit [Keccak] in
theorem pairwise_filterMap {α β : Type} {R : β → β → Prop} (f : α → Option β) (l : List α)
    (h : l.Pairwise fun a a' => ∀ b b', f a = some b → f a' = some b' → R b b') : (l.filterMap f).Pairwise R := by
  rw [List.pairwise_filterMap]
  exact h.imp fun h b hb b' hb' => h b b' hb hb'

omit [Keccak] in
theorem natLt {a b : Nat} : (TOrd.lt a b = true) ↔ a < b := by
  show decide (a < b) = true ↔ _
  simp

/-- **C43** (what the sent transactions are): the minter keeps for a nonce, in the order of signing, all transactions signed with it, from the
first signature on until the withdrawal for which the nonce was chosen is finalized. -/
theorem C43_sent {log : List Event} {s : State} (h : Run log s) (hn : NonceNeverLowered log) (n : TransactionNonce) :
    (∀ i l, s.txs.sent.getEntry n = some (i, l) → l.map (·.transaction) = signedWith n log) ∧
    ∀ i, (∃ l, s.txs.sent.getEntry n = some (i, l)) ↔ signedWith n log ≠ [] ∧
      (∃ tx, .createdTransaction i tx ∈ log ∧ tx.nonce = n) ∧ ∀ receipt, .finalizedTransaction i receipt ∉ log := by
  obtain ⟨inv, tl, _⟩ := run_txInv h hn
  have S := run_sentOrder h hn
  refine ⟨fun i l hl => S.order _ _ _ (MKM.getEntry_eq.1 hl), fun i => ⟨?_, ?_⟩⟩
  · rintro ⟨l, hl⟩
    rw [MKM.getEntry_eq] at hl
    have hne := (inv.sN _ _ _ hl).2.1
    obtain ⟨x, hx⟩ := List.exists_mem_of_ne_nil _ hne
    obtain ⟨tx, h1, h2, _⟩ := tl.core3 _ _ _ (.inr (.inl ⟨l, x, hl, hx, rfl⟩))
    refine ⟨?_, ⟨tx, h1, h2⟩, fun receipt hr => ?_⟩
    · rw [← S.order _ _ _ hl]
      exact fun h => hne (List.map_eq_nil_iff.1 h)
    · obtain ⟨m, f, hf, _⟩ := tl.finIn _ _ hr
      exact absurd rfl (inv.sf _ _ _ _ _ _ hl hf).2
  · rintro ⟨h1, ⟨tx, h2, rfl⟩, h3⟩
    have hc := tl.core1 _ _ h2
    rcases S.done _ h1 with ⟨j, l, hl⟩ | ⟨j, f, hf⟩
    · obtain ⟨x, hx⟩ := List.exists_mem_of_ne_nil _ (inv.sN _ _ _ hl).2.1
      obtain rfl := (Core.unique inv hc (.inr (.inl ⟨l, x, hl, hx, rfl⟩))).1
      exact ⟨l, MKM.getEntry_eq.2 hl⟩
    · obtain rfl := (Core.unique inv hc (.inr (.inr ⟨f, hf, rfl⟩))).1
      exact absurd (tl.finLog _ _ _ hf).1 (h3 _)

/-- **C43.** The transactions that are sent are the first `size`, by nonce, of the latest versions of the transactions
with a nonce at or above the transaction count, that is, of those not mined. -/
theorem C43_send {log : List Event} {s : State} (h : Run log s) (hn : NonceNeverLowered log)
    (count : TransactionCount) (size : Nat) :
    ∃ all : List SignedTx, s.txs.toSendBatch count size = .ok (all.take size) ∧
      all.Pairwise (fun x y => x.tx.nonce < y.tx.nonce) ∧
      ∀ x, x ∈ all ↔ count ≤ x.tx.nonce ∧ ∃ i l rs, s.txs.sent.getEntry x.tx.nonce = some (i, l) ∧
        l.getLast? = some ⟨x, rs⟩ := by
  obtain ⟨inv, _⟩ := run_txInv h hn
  obtain ⟨r, h1, h2, h3⟩ := MKM.iter_total inv.sw
  refine ⟨(r.filterMap fun x => (x.2.2.getLast?.map fun y => (x.1, x.2.1, y)).filter
    fun z => decide (z.1 ≥ count)).map fun z => z.2.2.transaction, ?_, ?_, ?_⟩
  · unfold toSendBatch
    rw [h1, ← List.map_take]; rfl
  · rw [List.pairwise_map]
    apply pairwise_filterMap
    rw [List.pairwise_iff_forall_sublist]
    rintro ⟨n, i, l⟩ ⟨n', i', l'⟩ hs b b' hb hb'
    have hlt : n < n' := natLt.1 (List.pairwise_iff_forall_sublist.1 h3 hs)
    have hm := (h2 n i l).1 (hs.subset (by simp))
    have hm' := (h2 n' i' l').1 (hs.subset (by simp))
    simp only [Option.filter_eq_some_iff, Option.map_eq_some_iff] at hb hb'
    obtain ⟨⟨y, hy, rfl⟩, _⟩ := hb
    obtain ⟨⟨y', hy', rfl⟩, _⟩ := hb'
    rw [(inv.sN _ _ _ hm).2.2 y (List.mem_of_getLast? hy), (inv.sN _ _ _ hm').2.2 y' (List.mem_of_getLast? hy')]
    exact hlt
  · intro x
    simp only [List.mem_map, List.mem_filterMap, Option.filter_eq_some_iff, Option.map_eq_some_iff]
    constructor
    · rintro ⟨z, ⟨⟨n, i, l⟩, hm, ⟨y, hy, rfl⟩, hc⟩, rfl⟩
      have hm := (h2 _ _ _).1 hm
      have hN := (inv.sN _ _ _ hm).2.2 y (List.mem_of_getLast? hy)
      simp only [decide_eq_true_eq] at hc
      simp only [hN]
      exact ⟨hc, i, l, y.resubmission, MKM.getEntry_eq.2 hm, hy⟩
    · rintro ⟨hc, i, l, rs, he, hl⟩
      have hm := MKM.getEntry_eq.1 he
      exact ⟨_, ⟨(x.tx.nonce, i, l), (h2 _ _ _).2 hm, ⟨_, hl, rfl⟩, by simpa using hc⟩, rfl⟩

/-! ### Finalizing -/

theorem toFinalizeLoop_ok (l : List (LedgerBurnIndex × SignedTx)) : ∀ (acc f : FMap Hash LedgerBurnIndex),
    toFinalizeLoop acc l = .ok f →
    ∀ hash i, f.get hash = some i ↔ acc.get hash = some i ∨ ∃ x, (i, x) ∈ l ∧ x.hash = hash := by
  induction l with
  | nil => intro acc f h hash i; cases h; simp
  | cons y t ih =>
    intro acc f h hash i
    obtain ⟨j, y⟩ := y
    have hstep : (∀ k, acc.get y.hash = some k → k = j) ∧ toFinalizeLoop (acc.insert y.hash j) t = .ok f := by
      unfold toFinalizeLoop at h
      split at h
      · rename_i prev hp
        simp only [Res.bind_ok, Res.ensure_ok, beq_iff_eq] at h
        obtain ⟨_, e, h⟩ := h
        refine ⟨fun k hk => ?_, h⟩
        rw [hp] at hk; cases hk; exact e
      · rename_i hp
        refine ⟨fun k hk => ?_, h⟩
        rw [hp] at hk; cases hk
    rw [ih _ _ hstep.2 hash i, FMap.get_insert]
    simp only [List.mem_cons, Prod.mk.injEq]
    constructor
    · rintro (hg | ⟨x, hx, he⟩)
      · split at hg
        · rename_i e; cases hg; exact .inr ⟨y, .inl ⟨rfl, rfl⟩, e.symm⟩
        · exact .inl hg
      · exact .inr ⟨x, .inr hx, he⟩
    · rintro (hg | ⟨x, ⟨rfl, rfl⟩ | hx, he⟩)
      · left
        split
        · rename_i e; subst e; rw [hstep.1 i hg]
        · exact hg
      · left; rw [if_pos he.symm]
      · exact .inr ⟨x, hx, he⟩

theorem toFinalizeLoop_total (l : List (LedgerBurnIndex × SignedTx)) : ∀ (acc : FMap Hash LedgerBurnIndex),
    (∀ a ∈ l, ∀ b ∈ l, a.2.hash = b.2.hash → a.1 = b.1) →
    (∀ a ∈ l, ∀ i, acc.get a.2.hash = some i → i = a.1) → ∃ f, toFinalizeLoop acc l = .ok f := by
  induction l with
  | nil => intro acc _ _; exact ⟨acc, rfl⟩
  | cons y t ih =>
    intro acc h1 h2
    obtain ⟨j, y⟩ := y
    obtain ⟨f, hf⟩ := ih (acc.insert y.hash j) (fun a ha b hb => h1 a (by simp [ha]) b (by simp [hb])) (by
      intro a ha i hi
      rw [FMap.get_insert] at hi
      split at hi
      · rename_i e; cases hi; exact h1 (j, y) (by simp) a (by simp [ha]) e.symm
      · exact h2 a (by simp [ha]) i hi)
    refine ⟨f, ?_⟩
    unfold toFinalizeLoop
    cases hg : acc.get y.hash with
    | none => exact hf
    | some prev =>
      have := h2 (j, y) (by simp) prev hg
      simp only [ensure, this, beq_self_eq_true, if_true, Res.ok_bind]
      exact hf

/-- **C43.** Unless two transactions sent for different withdrawals have the same hash, the set of transactions to
finalize exists, and it contains exactly the hashes of all versions of the transactions with a nonce below the
finalized transaction count, that is, of those mined, each with its withdrawal. -/
theorem C43_finalize {log : List Event} {s : State} (h : Run log s) (hn : NonceNeverLowered log)
    (count : TransactionCount)
    (hinj : ∀ n i l n' i' l', s.txs.sent.getEntry n = some (i, l) → s.txs.sent.getEntry n' = some (i', l') →
      ∀ x ∈ l, ∀ y ∈ l', x.transaction.hash = y.transaction.hash → i = i') :
    ∃ f, s.txs.sentToFinalize count = .ok f ∧
      ∀ hash i, f.get hash = some i ↔ ∃ n l x, s.txs.sent.getEntry n = some (i, l) ∧ n < count ∧ x ∈ l ∧
        x.transaction.hash = hash := by
  obtain ⟨inv, _⟩ := run_txInv h hn
  obtain ⟨r, h1, h2, h3⟩ := MKM.iter_total inv.sw
  have hmem : ∀ i x, (i, x) ∈ ((r.filter fun x => decide (x.1 < count)).flatMap fun x =>
      x.2.2.map fun s => (x.2.1, s.transaction)) ↔
      ∃ n l y, s.txs.sent.getEntry n = some (i, l) ∧ n < count ∧ y ∈ l ∧ y.transaction = x := by
    intro i x
    simp only [List.mem_flatMap, List.mem_filter, List.mem_map, Prod.mk.injEq, decide_eq_true_eq]
    constructor
    · rintro ⟨⟨n, j, l⟩, ⟨hr, hlt⟩, y, hy, rfl, rfl⟩
      exact ⟨n, l, y, MKM.getEntry_eq.2 ((h2 _ _ _).1 hr), hlt, hy, rfl⟩
    · rintro ⟨n, l, y, he, hlt, hy, rfl⟩
      exact ⟨(n, i, l), ⟨(h2 _ _ _).2 (MKM.getEntry_eq.1 he), hlt⟩, y, hy, rfl, rfl⟩
  obtain ⟨f, hf⟩ := toFinalizeLoop_total ((r.filter fun x => decide (x.1 < count)).flatMap fun x =>
      x.2.2.map fun s => (x.2.1, s.transaction)) ∅ (by
    rintro ⟨i, x⟩ ha ⟨i', x'⟩ hb he
    obtain ⟨n, l, y, e1, _, e2, rfl⟩ := (hmem _ _).1 ha
    obtain ⟨n', l', y', e1', _, e2', rfl⟩ := (hmem _ _).1 hb
    exact hinj _ _ _ _ _ _ e1 e1' y e2 y' e2' he) (by intro a _ i hi; simp at hi)
  refine ⟨f, ?_, ?_⟩
  · unfold sentToFinalize; rw [h1]; exact hf
  · intro hash i
    rw [toFinalizeLoop_ok _ _ _ hf hash i]
    simp only [FMap.get_empty, reduceCtorEq, false_or]
    constructor
    · rintro ⟨x, hx, rfl⟩
      obtain ⟨n, l, y, e1, e2, e3, rfl⟩ := (hmem _ _).1 hx
      exact ⟨n, l, y, e1, e2, e3, rfl⟩
    · rintro ⟨n, l, y, e1, e2, e3, rfl⟩
      exact ⟨_, (hmem _ _).2 ⟨n, l, y, e1, e2, e3, rfl⟩, rfl⟩

/-! ### Replacing -/

omit [Keccak] in
theorem resubmit_total (t : Resubmittable SignedTx) (g : GasFeeEstimate) : ∃ o, t.resubmit g = .ok o := by
  unfold Resubmittable.resubmit
  dsimp only
  split
  · exact ⟨_, rfl⟩
  · split
    · exact ⟨_, rfl⟩
    · rename_i hle
      cases ht : t.resubmission with
      | reduceEthAmount w =>
        rw [ht] at hle
        have : (t.transaction.tx.price.resubmit g).maxTransactionFee ≤ w := Nat.not_lt.1 hle
        simp only [csub, if_pos this]
        exact ⟨_, rfl⟩
      | guaranteeEthAmount w => exact ⟨_, rfl⟩

/-- The replacements computed for the entries, in order, up to the first entry that cannot pay for its own. -/
def Replacements (g : GasFeeEstimate) :
    List (TransactionNonce × LedgerBurnIndex × List (Resubmittable SignedTx)) →
    List (Except InsufficientFee (LedgerBurnIndex × Tx)) → Prop
  | [], out => out = []
  | (_, i, l) :: t, out => ∃ last, l.getLast? = some last ∧
    ((∃ tx out', last.resubmit g = .ok (.replaced tx) ∧ out = .ok (i, tx) :: out' ∧ Replacements g t out') ∨
    (last.resubmit g = .ok .unchanged ∧ Replacements g t out) ∨
    (∃ a b, last.resubmit g = .ok (.insufficientFee a b) ∧ out = [.error ⟨i, a, b⟩]))

omit [Keccak] in
theorem resubmitLoop_spec (g : GasFeeEstimate)
    (l : List (TransactionNonce × LedgerBurnIndex × List (Resubmittable SignedTx))) (hne : ∀ x ∈ l, x.2.2 ≠ []) :
    ∃ out, resubmitLoop g l = .ok out ∧ Replacements g l out := by
  induction l with
  | nil => exact ⟨[], rfl, rfl⟩
  | cons x t ih =>
    obtain ⟨out, h1, h2⟩ := ih fun x hx => hne x (by simp [hx])
    obtain ⟨n, i, l⟩ := x
    have hl : l ≠ [] := hne (n, i, l) (by simp)
    obtain ⟨last, hlast⟩ : ∃ last, l.getLast? = some last := by
      cases hg : l.getLast? with
      | none => exact absurd (List.getLast?_eq_none_iff.1 hg) hl
      | some x => exact ⟨x, rfl⟩
    obtain ⟨o, ho⟩ := resubmit_total last g
    unfold resubmitLoop
    simp only [hlast, expect, Res.ok_bind, ho]
    cases o with
    | unchanged => exact ⟨out, h1, last, hlast, .inr (.inl ⟨ho, h2⟩)⟩
    | replaced tx =>
      refine ⟨.ok (i, tx) :: out, ?_, last, hlast, .inl ⟨tx, out, ho, rfl, h2⟩⟩
      simp only [h1, Res.ok_bind]; rfl
    | insufficientFee a b => exact ⟨_, rfl, last, hlast, .inr (.inr ⟨a, b, ho, rfl⟩)⟩

omit [Keccak] in
theorem Replacements.mem {g : GasFeeEstimate} {l : List (TransactionNonce × LedgerBurnIndex × List (Resubmittable SignedTx))}
    {out : List (Except InsufficientFee (LedgerBurnIndex × Tx))} (h : Replacements g l out) {i : LedgerBurnIndex} {tx : Tx}
    (hm : .ok (i, tx) ∈ out) : ∃ n sent last, (n, i, sent) ∈ l ∧ sent.getLast? = some last ∧
      last.resubmit g = .ok (.replaced tx) := by
  induction l generalizing out with
  | nil => cases h; cases hm
  | cons x t ih =>
    obtain ⟨n, j, sent⟩ := x
    obtain ⟨last, hl, ⟨tx', out', h1, rfl, h2⟩ | ⟨h1, h2⟩ | ⟨a, b, h1, rfl⟩⟩ := h
    · rcases List.mem_cons.1 hm with e | hm
      · cases e; exact ⟨n, sent, last, by simp, hl, h1⟩
      · obtain ⟨n', s', l', g1, g2, g3⟩ := ih h2 hm
        exact ⟨n', s', l', by simp [g1], g2, g3⟩
    · obtain ⟨n', s', l', g1, g2, g3⟩ := ih h2 hm
      exact ⟨n', s', l', by simp [g1], g2, g3⟩
    · simp at hm

omit [Keccak] in
theorem Replacements.complete {g : GasFeeEstimate}
    {l : List (TransactionNonce × LedgerBurnIndex × List (Resubmittable SignedTx))}
    {out : List (Except InsufficientFee (LedgerBurnIndex × Tx))} (h : Replacements g l out)
    (hord : l.Pairwise fun x y => x.1 < y.1) {n : TransactionNonce}
    {i : LedgerBurnIndex} {sent : List (Resubmittable SignedTx)} {last : Resubmittable SignedTx} {tx : Tx}
    (hm : (n, i, sent) ∈ l) (hl : sent.getLast? = some last) (hr : last.resubmit g = .ok (.replaced tx)) :
    .ok (i, tx) ∈ out ∨ ∃ n' i' sent' last' a b, n' < n ∧ (n', i', sent') ∈ l ∧ sent'.getLast? = some last' ∧
      last'.resubmit g = .ok (.insufficientFee a b) := by
  induction l generalizing out with
  | nil => cases hm
  | cons x t ih =>
    obtain ⟨k, j, sent'⟩ := x
    rw [List.pairwise_cons] at hord
    have later : ∀ out', Replacements g t out' → (n, i, sent) ∈ t → .ok (i, tx) ∈ out' ∨
        ∃ n' i' sent' last' a b, n' < n ∧ (n', i', sent') ∈ t ∧ sent'.getLast? = some last' ∧
        last'.resubmit g = .ok (.insufficientFee a b) := fun out' h hm => ih h hord.2 hm
    obtain ⟨last', hl', ⟨tx', out', h1, rfl, h2⟩ | ⟨h1, h2⟩ | ⟨a, b, h1, rfl⟩⟩ := h <;>
      rcases List.mem_cons.1 hm with e | hm
    · cases e; rw [hl] at hl'; cases hl'; rw [hr] at h1; cases h1; exact .inl (by simp)
    · rcases later _ h2 hm with h | ⟨n', i', s', l', a, b, g1, g2, g3⟩
      · exact .inl (by simp [h])
      · exact .inr ⟨n', i', s', l', a, b, g1, by simp [g2], g3⟩
    · cases e; rw [hl] at hl'; cases hl'; rw [hr] at h1; cases h1
    · rcases later _ h2 hm with h | ⟨n', i', s', l', a, b, g1, g2, g3⟩
      · exact .inl h
      · exact .inr ⟨n', i', s', l', a, b, g1, by simp [g2], g3⟩
    · cases e; rw [hl] at hl'; cases hl'; rw [hr] at h1; cases h1
    · exact .inr ⟨k, j, sent', last', a, b, hord.1 _ hm, by simp, hl', h1⟩

omit [Keccak] in
theorem Replacements.nonces {g : GasFeeEstimate}
    {l : List (TransactionNonce × LedgerBurnIndex × List (Resubmittable SignedTx))}
    {out : List (Except InsufficientFee (LedgerBurnIndex × Tx))} (h : Replacements g l out)
    (hord : l.Pairwise fun x y => x.1 < y.1) (hN : ∀ x ∈ l, ∀ y ∈ x.2.2, y.transaction.tx.nonce = x.1) :
    (out.filterMap Except.toOption).Pairwise
      fun x y => x.2.nonce < y.2.nonce := by
  induction l generalizing out with
  | nil => cases h; exact .nil
  | cons x t ih =>
    obtain ⟨k, j, sent⟩ := x
    rw [List.pairwise_cons] at hord
    have ih' : ∀ out', Replacements g t out' → _ := fun out' h => ih h hord.2 fun x hx => hN x (by simp [hx])
    have hnonce : ∀ {n : TransactionNonce} {i : LedgerBurnIndex} {sent' : List (Resubmittable SignedTx)}
        {last : Resubmittable SignedTx} {tx : Tx}, (n, i, sent') ∈ (k, j, sent) :: t → sent'.getLast? = some last →
        last.resubmit g = .ok (.replaced tx) → tx.nonce = n := by
      intro n i sent' last tx hm hl hr
      obtain ⟨p, _, _, _, e, _⟩ := resubmit_replaced hr
      rw [e]
      exact hN _ hm last (List.mem_of_getLast? hl)
    obtain ⟨last, hl, ⟨tx, out', h1, rfl, h2⟩ | ⟨h1, h2⟩ | ⟨a, b, h1, rfl⟩⟩ := h
    · show ((j, tx) :: out'.filterMap Except.toOption).Pairwise _
      rw [List.pairwise_cons]
      refine ⟨?_, ih' _ h2⟩
      rintro ⟨i, tx'⟩ hm
      have hm : .ok (i, tx') ∈ out' := by
        obtain ⟨x, hx, he⟩ := List.mem_filterMap.1 hm
        cases x with
        | ok y => cases he; exact hx
        | error e => cases he
      obtain ⟨n', s', l', g1, g2, g3⟩ := h2.mem hm
      show tx.nonce < tx'.nonce
      rw [hnonce List.mem_cons_self hl h1, hnonce (List.mem_cons_of_mem _ g1) g2 g3]
      exact hord.1 _ g1
    · exact ih' _ h2
    · exact .nil

/-- **C43.** The computation of replacements never panics. It replaces the latest versions of transactions with a
nonce at or above the transaction count, that is, of those not mined, keeping the nonce; it replaces every such
transaction that needs it, unless one with a smaller nonce cannot pay for its replacement. -/
theorem C43_replace {log : List Event} {s : State} (h : Run log s) (hn : NonceNeverLowered log)
    (count : TransactionCount) (g : GasFeeEstimate) :
    ∃ out, s.txs.createResubmit count g = .ok out ∧
      (∀ i tx, .ok (i, tx) ∈ out → count ≤ tx.nonce ∧ ∃ l last, s.txs.sent.getEntry tx.nonce = some (i, l) ∧
        l.getLast? = some last ∧ last.resubmit g = .ok (.replaced tx)) ∧
      (∀ n i l last tx, s.txs.sent.getEntry n = some (i, l) → count ≤ n → l.getLast? = some last →
        last.resubmit g = .ok (.replaced tx) → .ok (i, tx) ∈ out ∨
        ∃ n' i' l' last' a b, count ≤ n' ∧ n' < n ∧ s.txs.sent.getEntry n' = some (i', l') ∧
          l'.getLast? = some last' ∧ last'.resubmit g = .ok (.insufficientFee a b)) ∧
      (out.filterMap Except.toOption).Pairwise
        (fun x y => x.2.nonce < y.2.nonce) := by
  obtain ⟨inv, _⟩ := run_txInv h hn
  obtain ⟨r, h1, h2, h3⟩ := MKM.iter_total inv.sw
  have hord : (r.filter fun x => decide (x.1 ≥ count)).Pairwise fun x y => x.1 < y.1 :=
    (h3.imp fun h => natLt.1 h).filter _
  have hhas : ∀ {x}, x ∈ (r.filter fun x => decide (x.1 ≥ count)) → s.txs.sent.Has x.1 x.2.1 x.2.2 := by
    rintro ⟨n, i, l⟩ hx
    exact (h2 _ _ _).1 (List.mem_filter.1 hx).1
  obtain ⟨out, h4, h5⟩ := resubmitLoop_spec g (r.filter fun x => decide (x.1 ≥ count))
    (fun x hx => (inv.sN _ _ _ (hhas hx)).2.1)
  refine ⟨out, ?_, ?_, ?_, ?_⟩
  · unfold createResubmit; rw [h1]; exact h4
  · intro i tx hm
    obtain ⟨n, l, last, h6, h7, h8⟩ := h5.mem hm
    have hh := hhas h6
    have hN := (inv.sN _ _ _ hh).2.2 last (List.mem_of_getLast? h7)
    have htn : tx.nonce = last.transaction.tx.nonce := by
      obtain ⟨p, _, _, _, e, _⟩ := resubmit_replaced h8
      rw [e]
    rw [htn, hN]
    exact ⟨by simpa using (List.mem_filter.1 h6).2, l, last, MKM.getEntry_eq.2 hh, h7, h8⟩
  · intro n i l last tx he hc hl hr
    have hm : (n, i, l) ∈ r.filter fun x => decide (x.1 ≥ count) :=
      List.mem_filter.2 ⟨(h2 _ _ _).2 (MKM.getEntry_eq.1 he), by simpa using hc⟩
    rcases h5.complete hord hm hl hr with h | ⟨n', i', l', last', a, b, g1, g2, g3, g4⟩
    · exact .inl h
    · exact .inr ⟨n', i', l', last', a, b, by simpa using (List.mem_filter.1 g2).2, g1,
        MKM.getEntry_eq.2 (hhas g2), g3, g4⟩
  · exact h5.nonces hord fun x hx y hy => (inv.sN _ _ _ (hhas hx)).2.2 y hy

end

/-! ### Examples -/

section
open Example

/-- At the end of the example log nothing is sent; before the two finalizations the nonce 5 has two signed transactions, in the order of
signing. -/
example : signedWith 5 log = [⟨tx1, sig⟩, ⟨tx1', sig⟩] ∧ (∃ s, Run log s ∧ NonceNeverLowered log ∧ s.txs.sent.getEntry 5 = none) := by
  obtain ⟨s, h, _⟩ := log_run
  refine ⟨by decide +kernel, s, h, nonces_ok, ?_⟩
  rcases he : s.txs.sent.getEntry 5 with _ | ⟨i, l⟩
  · rfl
  · obtain ⟨_, ⟨tx, h1, h2⟩, h3⟩ := ((C43_sent h nonces_ok 5).2 i).1 ⟨l, he⟩
    exfalso
    simp only [log, List.mem_cons, reduceCtorEq, Event.createdTransaction.injEq, List.not_mem_nil, false_or, or_false] at h1
    rcases h1 with ⟨rfl, rfl⟩ | ⟨rfl, rfl⟩
    · exact h3 receipt1 (by simp [log])
    · exact absurd h2 (by decide)

/-- Both transactions are sent (nonces 5 and 6); the count says that the first is mined: the second is sent again,
the first (one version so far) is to be finalized. -/
example : ∃ s, Run (log.take 13) s ∧ s.txs.toSendBatch 6 5 = .ok [⟨tx2, sig⟩] ∧
    (s.txs.sentToFinalize 6).map FMap.toList = .ok [((SignedTx.mk tx1 sig).hash, 20)] ∧
    s.txs.createResubmit 5 ⟨495, 11⟩ = .ok [.ok (20, tx1'), .ok (21, { tx2 with maxPriorityFeePerGas := 11 })] ∧
    s.txs.createResubmit 6 ⟨495, 11⟩ = .ok [.ok (21, { tx2 with maxPriorityFeePerGas := 11 })] := by
  obtain ⟨s, h, h'⟩ := start_run (k := 12) (p := fun s => decide (s.txs.toSendBatch 6 5 = .ok [⟨tx2, sig⟩] ∧
    (s.txs.sentToFinalize 6).map FMap.toList = .ok [((SignedTx.mk tx1 sig).hash, 20)] ∧
    s.txs.createResubmit 5 ⟨495, 11⟩ = .ok [.ok (20, tx1'), .ok (21, { tx2 with maxPriorityFeePerGas := 11 })] ∧
    s.txs.createResubmit 6 ⟨495, 11⟩ = .ok [.ok (21, { tx2 with maxPriorityFeePerGas := 11 })])) (by decide +kernel)
  exact ⟨s, h, by simpa using h'⟩

end

end EvmMinter
