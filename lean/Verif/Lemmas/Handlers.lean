import Verif.Props.C43
/-!
# The batches of the withdrawal task lead from executions to executions
-/

namespace EvmMinter

open Spec Transactions

section
variable [Keccak]

theorem Run.processEvent {m m' : Minter} {e : Event} (h : Run m.log m.st) (he : Emits m.st e)
    (hp : m.processEvent e = .ok m') : Run m'.log m'.st ∧ m'.log = m.log ++ [e] ∧ applyEvent m.st e = .ok m'.st := by
  simp only [Minter.processEvent, Res.bind_ok, Res.pure_ok] at hp
  obtain ⟨s, hs, rfl⟩ := hp
  exact ⟨Run.event _ _ _ _ h he hs, rfl, hs⟩

theorem Run.processEvents {l : List Event} (hl : ∀ e ∈ l, ∀ s : State, Emits s e) : ∀ {m m' : Minter},
    Run m.log m.st → m.processEvents l = .ok m' → Run m'.log m'.st ∧ m'.log = m.log ++ l := by
  induction l with
  | nil => intro m m' h hp; cases hp; exact ⟨h, by simp⟩
  | cons e t ih =>
    intro m m' h hp
    simp only [Minter.processEvents, Res.bind_ok] at hp
    obtain ⟨m₁, h1, h2⟩ := hp
    obtain ⟨h3, h4, _⟩ := h.processEvent (hl e (by simp) _) h1
    obtain ⟨h5, h6⟩ := ih (fun e he => hl e (by simp [he])) h3 h2
    exact ⟨h5, by rw [h6, h4]; simp⟩

theorem nonceNeverLowered_snoc {log : List Event} {e : Event} (h : NonceNeverLowered log)
    (he : ∀ a, e ≠ .upgrade a) : NonceNeverLowered (log ++ [e]) := by
  intro l₁ a l₂ n hl hna
  rcases List.eq_nil_or_concat l₂ with rfl | ⟨l₂', x, rfl⟩
  · have := (List.append_inj' hl rfl).2
    simp only [List.cons.injEq, and_true] at this
    exact absurd this (he a)
  · have he' : log ++ [e] = (l₁ ++ .upgrade a :: l₂') ++ [x] := by simpa using hl
    exact h l₁ a l₂' n (List.append_inj' he' rfl).1 hna

theorem MKM.tryInsert_total {K A V : Type} [DecidableEq K] [TOrd K] [DecidableEq A] [TOrd A] {m : MKM K A V} (w : m.WF)
    {k : K} {a : A} {v : V} (h1 : ∀ a' v', ¬ m.Has k a' v') (h2 : ∀ k' v', ¬ m.Has k' a v') :
    ∃ m', m.tryInsert k a v = .ok m' := by
  refine ⟨_, MKM.tryInsert_ok.2 ⟨?_, ?_, rfl⟩⟩
  · cases hg : m.byAlt.get a with
    | none => rfl
    | some v' =>
      obtain ⟨k', hk⟩ := w.key_of_alt hg
      exact absurd ⟨hk, hg⟩ (h2 k' v')
  · cases hg : m.byKey.get k with
    | none => rfl
    | some a' =>
      obtain ⟨v', hv⟩ := w.alt_of_key hg
      exact absurd ⟨hg, hv⟩ (h1 a' v')

omit [Keccak] in
/-- Recording a replacement computed from the last transaction sent does not panic. -/
theorem resubmit_record_total {t : Transactions} (inv : t.TxInv) {tx : Tx} {i : LedgerBurnIndex}
    {l : List (Resubmittable SignedTx)} {last : Resubmittable SignedTx} {g : GasFeeEstimate}
    (hh : t.sent.Has tx.nonce i l) (hlast : l.getLast? = some last) (hr : last.resubmit g = .ok (.replaced tx)) :
    ∃ t', t.recordResubmitTransaction tx = .ok t' := by
  have hcore : last.transaction.tx.core = tx.core := by
    obtain ⟨p, e1, e2, _, e, _⟩ := resubmit_replaced hr
    rw [e]; unfold Tx.core
    rw [e1] at *
    have := (resubmit_price e2).2.2.1
    simp only [this]
    rfl
  obtain ⟨o, c₁, hrem⟩ := MKM.removeEntry_total inv.cw tx.nonce
  have hfresh : ∃ c₂, c₁.tryInsert tx.nonce i ⟨tx, last.resubmission⟩ = .ok c₂ := by
    have hw₁ := MKM.removeEntry_wf inv.cw hrem
    refine MKM.tryInsert_total hw₁ ?_ ?_
    · intro a v hc
      exact ((MKM.removeEntry_has inv.cw hrem).1 hc).1 rfl
    · intro k v hc
      obtain ⟨hne, hc⟩ := (MKM.removeEntry_has inv.cw hrem).1 hc
      exact hne ((inv.cs _ _ _ _ _ _ hc hh).2 rfl)
  obtain ⟨c₂, hc₂⟩ := hfresh
  refine ⟨{ t with created := c₂ }, ?_⟩
  unfold recordResubmitTransaction expectLastSent cleanupFailedResubmitted
  rw [MKM.getEntry_eq.2 hh]
  simp only [expect, Res.ok_bind, hlast, ensure, equalIgnoring_iff.2 hcore, if_true, hrem, pure_bind, hc₂]
  rfl

omit [Keccak] in
/-- Recording a signature of a created transaction does not panic. -/
theorem signed_record_total {t : Transactions} (inv : t.TxInv) {stx : SignedTx} {i : LedgerBurnIndex}
    {c : Resubmittable Tx} (hh : t.created.Has stx.tx.nonce i c) (hc : c.transaction = stx.tx) :
    ∃ t', t.recordSignedTransaction stx = .ok t' := by
  obtain ⟨o, c₁, hrem⟩ := MKM.removeEntry_total inv.cw stx.tx.nonce
  rcases MKM.removeEntry_ok hrem with ⟨_, _, h⟩ | ⟨a, v, rfl, hh', _⟩
  · exact absurd hh (h _ _)
  · obtain ⟨rfl, rfl⟩ := MKM.Has.unique_key hh hh'
    unfold recordSignedTransaction
    rw [MKM.get_eq.2 ⟨_, hh⟩]
    simp only [expect, Res.ok_bind, ensure, hc, beq_self_eq_true, if_true, hrem]
    cases hm : t.sent.modify stx.tx.nonce (fun l => l ++ [⟨stx, c.resubmission⟩]) with
    | some sent => exact ⟨_, rfl⟩
    | none =>
      obtain ⟨s₂, hs₂⟩ := MKM.tryInsert_total (v := [(⟨stx, c.resubmission⟩ : Resubmittable SignedTx)]) inv.sw
        (MKM.modify_none hm)
        (fun k v hs => MKM.modify_none hm _ _ ((inv.cs _ _ _ _ _ _ hh hs).2 rfl ▸ hs))
      simp only [hs₂]
      exact ⟨_, rfl⟩

theorem run_replacements (l : List (LedgerBurnIndex × Tx)) {g : GasFeeEstimate} (hg : g.Bounded) : ∀ {m : Minter},
    Run m.log m.st → NonceNeverLowered m.log →
    (∀ i tx, (i, tx) ∈ l → ∃ sent last, m.st.txs.sent.getEntry tx.nonce = some (i, sent) ∧
      sent.getLast? = some last ∧ last.resubmit g = .ok (.replaced tx)) →
    ∃ m', m.processEvents (l.map fun x => .replacedTransaction x.1 x.2) = .ok m' ∧ Run m'.log m'.st ∧
      m'.log = m.log ++ l.map (fun x => .replacedTransaction x.1 x.2) ∧ m'.st.txs.sent = m.st.txs.sent ∧
      m'.st.txs.pending = m.st.txs.pending ∧ NonceNeverLowered m'.log ∧
      m'.st = { m.st with txs := m'.st.txs } := by
  induction l with
  | nil => intro m h hn _; exact ⟨m, rfl, h, by simp, rfl, rfl, hn, rfl⟩
  | cons x t ih =>
    intro m h hn hl
    obtain ⟨i, tx⟩ := x
    obtain ⟨inv, _⟩ := run_txInv h hn
    obtain ⟨sent, last, h1, h2, h3⟩ := hl i tx (by simp)
    obtain ⟨t', ht'⟩ := resubmit_record_total inv (MKM.getEntry_eq.1 h1) h2 h3
    have happ : applyEvent m.st (.replacedTransaction i tx) = .ok { m.st with txs := t' } := by
      simp only [applyEvent]; unfold liftTxs; rw [ht']; rfl
    have hem : Emits m.st (.replacedTransaction i tx) := ⟨sent, last, g, hg, h1, h2, h3⟩
    have hr' := Run.event _ _ _ _ h hem happ
    obtain ⟨_, _, _, _, _, _, _, _, _, _, e⟩ := recordResubmitTransaction_ok ht'
    have hsent : t'.sent = m.st.txs.sent := by rw [e]
    have hpend : t'.pending = m.st.txs.pending := by rw [e]
    obtain ⟨m', g1, g2, g3, g4, g5, g6, g7⟩ := ih (m := ⟨{ m.st with txs := t' }, m.log ++ [.replacedTransaction i tx]⟩) hr'
      (nonceNeverLowered_snoc hn (by simp)) (by
        intro j tx' hm
        show ∃ sent last, t'.sent.getEntry tx'.nonce = _ ∧ _
        rw [hsent]; exact hl j tx' (by simp [hm]))
    refine ⟨m', ?_, g2, by rw [g3]; simp, by rw [g4]; exact hsent, by rw [g5]; exact hpend, g6, by rw [g7]⟩
    simp only [List.map_cons, Minter.processEvents, Minter.processEvent, happ, Res.ok_bind]
    exact g1

/-- `resubmit_transactions_batch` never panics, and it leads to an execution that differs by replacements of
transactions not mined only. -/
theorem run_resubmitBatch {m : Minter} (h : Run m.log m.st) (hn : NonceNeverLowered m.log) {g : GasFeeEstimate}
    (hg : g.Bounded) (count : Option TransactionCount) :
    ∃ m', ∃ out : List (LedgerBurnIndex × Tx), m.resubmitBatch count g = .ok m' ∧ Run m'.log m'.st ∧ NonceNeverLowered m'.log ∧
      m'.log = m.log ++ out.map (fun x => .replacedTransaction x.1 x.2) ∧
      (∀ x ∈ out, ∃ c, count = some c ∧ c ≤ x.2.nonce) ∧ m'.st.txs.pending = m.st.txs.pending ∧
      m'.st.txs.sent = m.st.txs.sent ∧ m'.st = { m.st with txs := m'.st.txs } := by
  unfold Minter.resubmitBatch
  split
  · exact ⟨m, [], rfl, h, hn, by simp, by simp, rfl, rfl, rfl⟩
  · cases count with
    | none => exact ⟨m, [], rfl, h, hn, by simp, by simp, rfl, rfl, rfl⟩
    | some c =>
      obtain ⟨out, h1, h2, _, _⟩ := C43_replace h hn c g
      have hmem : ∀ i tx, (i, tx) ∈ out.filterMap Except.toOption → .ok (i, tx) ∈ out := by
        intro i tx hx
        obtain ⟨x, hx, he⟩ := List.mem_filterMap.1 hx
        cases x with
        | ok y => cases he; exact hx
        | error e => cases he
      obtain ⟨m', g1, g2, g3, g4, g5, g6, g7⟩ := run_replacements (out.filterMap Except.toOption) hg h hn
        (fun i tx hx => (h2 i tx (hmem i tx hx)).2)
      refine ⟨m', out.filterMap Except.toOption, ?_, g2, g6, g3, ?_, g5, g4, g7⟩
      · simp only [h1, Res.ok_bind]
        rw [← g1, List.map_filterMap]
        congr; funext x
        cases x <;> rfl
      · rintro ⟨i, tx⟩ hx
        exact ⟨c, rfl, (h2 i tx (hmem i tx hx)).1⟩

/-- Recording signatures of created transactions, in order of the nonces, never panics. -/
theorem run_recordSigned (l : List (LedgerBurnIndex × Tx × Option Signature)) : ∀ {m : Minter},
    Run m.log m.st → NonceNeverLowered m.log → l.Pairwise (fun x y => x.2.1.nonce < y.2.1.nonce) →
    (∀ i tx sig, (i, tx, sig) ∈ l → ∃ c, m.st.txs.created.getEntry tx.nonce = some (i, c) ∧ c.transaction = tx) →
    ∃ m', m.recordSigned l = .ok m' ∧ Run m'.log m'.st ∧ NonceNeverLowered m'.log ∧
      m'.log = m.log ++ l.filterMap (fun x => x.2.2.map fun sig => .signedTransaction x.1 ⟨x.2.1, sig⟩) ∧
      m'.st = { m.st with txs := m'.st.txs } := by
  induction l with
  | nil => intro m h hn _ _; exact ⟨m, rfl, h, hn, by simp, rfl⟩
  | cons x t ih =>
    intro m h hn hord hl
    obtain ⟨i, tx, sig⟩ := x
    rw [List.pairwise_cons] at hord
    cases sig with
    | none =>
      obtain ⟨m', g1, g2⟩ := ih h hn hord.2 (fun i tx sig hx => hl i tx sig (by simp [hx]))
      exact ⟨m', g1, g2⟩
    | some sig =>
      obtain ⟨inv, _⟩ := run_txInv h hn
      obtain ⟨c, h1, h2⟩ := hl i tx (some sig) (by simp)
      obtain ⟨t', ht'⟩ := signed_record_total inv (stx := ⟨tx, sig⟩) (MKM.getEntry_eq.1 h1) h2
      have happ : applyEvent m.st (.signedTransaction i ⟨tx, sig⟩) = .ok { m.st with txs := t' } := by
        simp only [applyEvent]; unfold liftTxs; rw [ht']; rfl
      have hem : Emits m.st (.signedTransaction i ⟨tx, sig⟩) := ⟨c, h1, h2⟩
      have hr' := Run.event _ _ _ _ h hem happ
      obtain ⟨_, _, created, _, _, _, ⟨_, hrem⟩, _, e⟩ := recordSignedTransaction_ok ht'
      have hcr : t'.created = created := by rw [e]
      obtain ⟨m', g1, g2, g3, g4, g5⟩ := ih (m := ⟨{ m.st with txs := t' }, m.log ++ [.signedTransaction i ⟨tx, sig⟩]⟩)
        hr' (nonceNeverLowered_snoc hn (by simp)) hord.2 (by
          intro j tx' sig' hm
          obtain ⟨c', hc', hc''⟩ := hl j tx' sig' (by simp [hm])
          refine ⟨c', ?_, hc''⟩
          show t'.created.getEntry _ = _
          rw [hcr, MKM.getEntry_eq, MKM.removeEntry_has inv.cw hrem]
          have hlt := hord.1 _ hm
          exact ⟨fun e => by rw [e] at hlt; exact Nat.lt_irrefl _ hlt, MKM.getEntry_eq.1 hc'⟩)
      refine ⟨m', ?_, g2, g3, by rw [g4]; simp, by rw [g5]⟩
      show m.processEvents (_ :: _) = _
      simp only [Minter.processEvents, Minter.processEvent, happ, Res.ok_bind]
      exact g1

/-- The batch to sign at a state meets the requirements of `run_recordSigned`. -/
theorem toSignBatch_spec {log : List Event} {s : State} (h : Run log s) (hn : NonceNeverLowered log) (size : Nat) :
    ∃ l, s.txs.toSignBatch size = .ok l ∧ l.length ≤ size ∧ l.Pairwise (fun x y => x.2.nonce < y.2.nonce) ∧
      ∀ i tx, (i, tx) ∈ l → ∃ c, s.txs.created.getEntry tx.nonce = some (i, c) ∧ c.transaction = tx := by
  obtain ⟨inv, _⟩ := run_txInv h hn
  obtain ⟨r, h1, h2, h3⟩ := MKM.iter_total inv.cw
  have hN : ∀ x ∈ r, x.2.2.transaction.nonce = x.1 := by
    rintro ⟨n, i, c⟩ hx
    exact (inv.cN _ _ _ ((h2 _ _ _).1 hx)).2
  refine ⟨(r.take size).map fun x => (x.2.1, x.2.2.transaction), ?_, ?_, ?_, ?_⟩
  · unfold toSignBatch; rw [h1]; rfl
  · rw [List.length_map, List.length_take]; omega
  · rw [List.pairwise_map]
    have h4 := h3.sublist (List.take_sublist size r)
    rw [List.pairwise_iff_forall_sublist] at h4 ⊢
    intro a b hs
    have hsub := fun x hx => (List.take_sublist size r).subset (hs.subset (a := x) hx)
    rw [hN a (hsub a (by simp)), hN b (hsub b (by simp))]
    exact natLt.1 (h4 hs)
  · intro i tx hx
    obtain ⟨⟨n, j, c⟩, hm, e⟩ := List.mem_map.1 hx
    cases e
    have hm := (List.take_sublist size r).subset hm
    have hh := (h2 _ _ _).1 hm
    exact ⟨c, by rw [MKM.getEntry_eq, (inv.cN _ _ _ hh).2]; exact hh, rfl⟩

/-- `finalize_transactions_batch`, if it does not panic, leads to an execution. -/
theorem run_recordReceipts {m m' : Minter} (h : Run m.log m.st) {f : FMap Hash LedgerBurnIndex}
    {results : List Minter.ReceiptResult} (hm : m.recordReceipts f results = .ok m') : Run m'.log m'.st := by
  unfold Minter.recordReceipts at hm
  split at hm
  · cases hm; exact h
  · simp only [Res.bind_ok] at hm
    obtain ⟨_, _, hm⟩ := hm
    refine (Run.processEvents ?_ h hm).1
    intro e he s
    obtain ⟨x, _, rfl⟩ := List.mem_map.1 he
    trivial

end

end EvmMinter
