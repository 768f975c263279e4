import Verif.Lemmas.Nonces
/-!
# C78: the oldest withdrawal under way
-/

namespace EvmMinter
open Spec Transactions

namespace Spec

/-- The withdrawal was accepted and no receipt is recorded for it yet. -/
def UnderWay (log : List Event) (r : Request) : Prop :=
  r.intoEvent ∈ log ∧ ∀ rc, Event.finalizedTransaction r.burnIndex rc ∉ log

/-- When the withdrawal was accepted, as far as it is recorded. -/
def AcceptedAt (t : Nat) : Request → Prop
  | .native q => q.createdAt = some t
  | .erc20 q => q.createdAt = t

end Spec

theorem minOf_none {l : List Nat} : minOf l = none ↔ l = [] := by
  cases l <;> simp [minOf]

theorem foldl_min_le : ∀ (l : List Nat) (a : Nat), l.foldl min a ≤ a ∧ ∀ b ∈ l, l.foldl min a ≤ b := by
  intro l
  induction l with
  | nil => intro a; simp
  | cons x t ih =>
    intro a
    obtain ⟨h1, h2⟩ := ih (min a x)
    refine ⟨Nat.le_trans h1 (Nat.min_le_left a x), fun b hb => ?_⟩
    rcases List.mem_cons.1 hb with rfl | hb
    · exact Nat.le_trans h1 (Nat.min_le_right a b)
    · exact h2 b hb

theorem foldl_min_mem : ∀ (l : List Nat) (a : Nat), l.foldl min a = a ∨ l.foldl min a ∈ l := by
  intro l
  induction l with
  | nil => intro a; simp
  | cons x t ih =>
    intro a
    rcases ih (min a x) with h | h
    · rcases Nat.le_total a x with hx | hx
      · left; simp only [List.foldl_cons]; rw [h]; omega
      · right; simp only [List.foldl_cons]; rw [h]; simp [Nat.min_eq_right hx]
    · right; simp [h]

theorem minOf_some {l : List Nat} {m : Nat} : minOf l = some m ↔ m ∈ l ∧ ∀ b ∈ l, m ≤ b := by
  cases l with
  | nil => simp [minOf]
  | cons a t =>
    simp only [minOf, Option.some.injEq]
    have h1 := foldl_min_le t a
    have h2 : t.foldl min a ∈ a :: t := by
      rcases foldl_min_mem t a with h | h
      · rw [h]; simp
      · simp [h]
    have h3 : ∀ b ∈ a :: t, t.foldl min a ≤ b := by
      intro b hb
      rcases List.mem_cons.1 hb with rfl | hb
      · exact h1.1
      · exact h1.2 b hb
    constructor
    · rintro rfl; exact ⟨h2, h3⟩
    · rintro ⟨h4, h5⟩
      exact Nat.le_antisymm (h3 _ h4) (h5 _ h2)

section
variable [Keccak] {log : List Event} {s : State}

/-- The requests that `oldest_incomplete_withdrawal_timestamp` looks at are those under way. -/
theorem underWay_iff (h : Run log s) (hn : NonceNeverLowered log) {r : Request} :
    r ∈ s.txs.pending ++ s.txs.maybeReimburseRequests ↔ UnderWay log r := by
  obtain ⟨inv, tl, _⟩ := run_txInv h hn
  have hmay : r ∈ s.txs.maybeReimburseRequests ↔
      s.txs.processed.get r.burnIndex = some r ∧ s.txs.maybeReimburse.get r.burnIndex ≠ none := by
    unfold maybeReimburseRequests
    rw [List.mem_filterMap]
    constructor
    · rintro ⟨⟨i, r'⟩, hx, he⟩
      simp only at he
      split at he
      · rename_i hc
        cases he
        have hi := FMap.mem_toList.1 hx
        rw [inv.procIdx i r hi]
        obtain ⟨u, hu⟩ := FMap.contains_eq_true.1 hc
        exact ⟨hi, by simp [hu]⟩
      · cases he
    · rintro ⟨h1, h2⟩
      refine ⟨(r.burnIndex, r), FMap.mem_toList.2 h1, ?_⟩
      cases hg : s.txs.maybeReimburse.get r.burnIndex with
      | none => exact absurd hg h2
      | some u => simp [FMap.contains_eq_true.2 ⟨u, hg⟩]
  rw [List.mem_append, hmay, inv.maybe]
  constructor
  · rintro (hp | ⟨h1, h2⟩)
    · refine ⟨(tl.acc r).2 (.inl hp), fun rc hrc => ?_⟩
      obtain ⟨n, f, hf, _⟩ := tl.finIn _ _ hrc
      obtain ⟨q, hq, _⟩ := inv.fProc _ _ _ hf
      rw [inv.pendProc r hp] at hq; cases hq
    · refine ⟨(tl.acc r).2 (.inr h1), fun rc hrc => ?_⟩
      obtain ⟨n, f, hf, _⟩ := tl.finIn _ _ hrc
      rcases h2 with ⟨n', c, hc⟩ | ⟨n', l, hl⟩
      · exact (inv.cf _ _ _ _ _ _ hc hf).2 rfl
      · exact (inv.sf _ _ _ _ _ _ hl hf).2 rfl
  · rintro ⟨h1, h2⟩
    rcases (tl.acc r).1 h1 with h1 | h1
    · exact .inl h1
    · refine .inr ⟨h1, ?_⟩
      rcases inv.procIn _ _ h1 with h | h | ⟨n, f, hf⟩
      · exact .inl h
      · exact .inr h
      · exact absurd (tl.finLog _ _ _ hf).1 (h2 _)

theorem acceptedAt_iff {r : Request} {t : Nat} : r.createdAt = some t ↔ AcceptedAt t r := by
  cases r <;> simp [Request.createdAt, AcceptedAt]

/-- **C78.** `oldest_incomplete_withdrawal_timestamp` is the smallest time at which a withdrawal still under way was accepted, and there is
none exactly when no such time is recorded. -/
theorem C78_oldest (h : Run log s) (hn : NonceNeverLowered log) :
    (∀ t, s.txs.oldestIncomplete = some t ↔
      (∃ r, UnderWay log r ∧ AcceptedAt t r) ∧ ∀ r t', UnderWay log r → AcceptedAt t' r → t ≤ t') ∧
    (s.txs.oldestIncomplete = none ↔ ∀ r t, UnderWay log r → ¬ AcceptedAt t r) := by
  have hm : ∀ t, t ∈ (s.txs.pending ++ s.txs.maybeReimburseRequests).filterMap Request.createdAt ↔ ∃ r, UnderWay log r ∧ AcceptedAt t r := by
    intro t
    rw [List.mem_filterMap]
    exact ⟨fun ⟨r, h1, h2⟩ => ⟨r, (underWay_iff h hn).1 h1, acceptedAt_iff.1 h2⟩,
      fun ⟨r, h1, h2⟩ => ⟨r, (underWay_iff h hn).2 h1, acceptedAt_iff.2 h2⟩⟩
  unfold oldestIncomplete
  refine ⟨fun t => ?_, ?_⟩
  · rw [minOf_some, hm]
    exact ⟨fun ⟨h1, h2⟩ => ⟨h1, fun r t' h3 h4 => h2 t' ((hm t').2 ⟨r, h3, h4⟩)⟩,
      fun ⟨h1, h2⟩ => ⟨h1, fun t' h3 => by obtain ⟨r, h4, h5⟩ := (hm t').1 h3; exact h2 r t' h4 h5⟩⟩
  · rw [minOf_none, List.eq_nil_iff_forall_not_mem]
    exact ⟨fun h1 r t h2 h3 => h1 t ((hm t).2 ⟨r, h2, h3⟩),
      fun h1 t ht => by obtain ⟨r, h2, h3⟩ := (hm t).1 ht; exact h1 r t h2 h3⟩

/-- **C78.** No withdrawal is under way exactly when the next round of `process_retrieve_tokens_requests` has nothing to do
(`has_pending_requests`). -/
theorem C78_idle (h : Run log s) (hn : NonceNeverLowered log) : s.txs.hasPending = false ↔ ∀ r, ¬ UnderWay log r := by
  obtain ⟨inv, tl, _⟩ := run_txInv h hn
  have hc : ∀ {V : Type} {m : MKM TransactionNonce LedgerBurnIndex V}, m.WF → (m.byKey.isEmpty = true ↔ ∀ n i v, ¬ m.Has n i v) := by
    intro V m w
    constructor
    · intro he n i v hh
      have := FMap.mem_toList.2 hh.1
      simp only [FMap.isEmpty, List.isEmpty_iff] at he
      rw [show m.byKey.toList = [] from he] at this
      cases this
    · intro hh
      simp only [FMap.isEmpty, List.isEmpty_iff]
      apply List.eq_nil_iff_forall_not_mem.2
      rintro ⟨n, i⟩ hx
      have hx := FMap.mem_toList.1 hx
      obtain ⟨v, hv⟩ := w.alt_of_key hx
      exact hh n i v ⟨hx, hv⟩
  have key : s.txs.hasPending = false ↔ s.txs.pending = [] ∧ (∀ n i c, ¬ s.txs.created.Has n i c) ∧ ∀ n i l, ¬ s.txs.sent.Has n i l := by
    unfold hasPending
    simp only [Bool.or_eq_false_iff, Bool.not_eq_false', List.isEmpty_iff, hc inv.cw, hc inv.sw, and_assoc]
  rw [key]
  constructor
  · rintro ⟨h1, h2, h3⟩ r hr
    rw [← underWay_iff h hn, h1, List.nil_append] at hr
    unfold maybeReimburseRequests at hr
    obtain ⟨⟨i, q⟩, hx, he⟩ := List.mem_filterMap.1 hr
    simp only at he
    split at he
    · rename_i hcn
      obtain ⟨u, hu⟩ := FMap.contains_eq_true.1 hcn
      rcases (inv.maybe i).1 (by simp [hu]) with ⟨n, c, hh⟩ | ⟨n, l, hh⟩
      · exact h2 _ _ _ hh
      · exact h3 _ _ _ hh
    · cases he
  · intro hno
    have hproc : ∀ i, s.txs.maybeReimburse.get i ≠ none → ∀ r, s.txs.processed.get i = some r → False := by
      intro i hi r hr
      have := inv.procIdx i r hr
      subst this
      refine hno r ((underWay_iff h hn).1 (List.mem_append.2 (.inr ?_)))
      unfold maybeReimburseRequests
      refine List.mem_filterMap.2 ⟨(r.burnIndex, r), FMap.mem_toList.2 hr, ?_⟩
      cases hg : s.txs.maybeReimburse.get r.burnIndex with
      | none => exact absurd hg hi
      | some u => simp [FMap.contains_eq_true.2 ⟨u, hg⟩]
    refine ⟨List.eq_nil_iff_forall_not_mem.2 fun r hr => hno r ((underWay_iff h hn).1 (List.mem_append.2 (.inl hr))), ?_, ?_⟩
    · intro n i c hh
      obtain ⟨r, hr, _⟩ := inv.cProc _ _ _ hh
      exact hproc i ((inv.maybe i).2 (.inl ⟨n, c, hh⟩)) r hr
    · intro n i l hh
      obtain ⟨r, hr, _⟩ := inv.sProc _ _ _ hh
      exact hproc i ((inv.maybe i).2 (.inr ⟨n, l, hh⟩)) r hr

end

namespace Example
attribute [local instance] keccak

/-- Two withdrawals are accepted at different times: the first, whose burn began at 17, is the oldest. When its receipt is recorded, the second one
is, from 27; then there is none. -/
theorem C78_example :
    after initArg sending (fun w => decide (w.mem.m.st.txs.oldestIncomplete = some 17)) = true ∧
    after initArg sent (fun w => decide (w.mem.m.st.txs.oldestIncomplete = some 27 ∧ w.mem.m.st.txs.hasPending = true)) = true ∧
    after initArg (sent ++ [.start (.retrieve (some gasEstimate)) 50, .answer 0 (.count (some 7)) 51, .answer 0 (.count (some 7)) 52,
      .answer 0 (.receipts [.ok (some usdcReceipt)]) 53]) (fun w => decide (w.mem.m.st.txs.oldestIncomplete = none ∧
        w.mem.m.st.txs.hasPending = false)) = true := by
  decide +kernel

end Example
end EvmMinter
