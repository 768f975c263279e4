import Verif.Lemmas.SoundInv
import Verif.Spec.Status
/-!
# Status of withdrawals
-/

namespace EvmMinter

open Spec Transactions

variable [Keccak]

/-- An event of an execution, with the invariants before and after. -/
theorem run_event_induct {P : List Event → Transactions → Prop}
    (hperm : ∀ log t p, t.TxInv → TxLog log t → t.pending.Perm p → P log t → P log (t.setP p))
    (hinit : ∀ a n, P [.init a] (Transactions.new n))
    (hstep : ∀ log s e s', Run log s → s.txs.TxInv → TxLog log s.txs → s'.txs.TxInv → TxLog (log ++ [e]) s'.txs →
      Emits s e → applyEvent s e = .ok s' → P log s.txs → P (log ++ [e]) s'.txs)
    {log : List Event} {s : State} (h : Run log s) (hn : NonceNeverLowered log) : P log s.txs := by
  induction h with
  | init a s h =>
    obtain ⟨_, _, _, _, _, _, _, ht, _⟩ := ofInit_ok h
    rw [ht]; exact hinit a _
  | event log s e s' hr he ha ih =>
    have hn' := nonceNeverLowered_prefix hn
    have i1 := run_txInv hr hn'
    have i2 := run_txInv (.event _ _ _ _ hr he ha) hn
    exact hstep log s e s' hr i1.1 i1.2.1 i2.1 i2.2.1 he ha (ih hn')
  | reschedule log s r t hr hm ht ih =>
    obtain ⟨s₀, h1, h2, h3, h4⟩ := run_replay hr
    obtain ⟨h5, h6⟩ := reschedule_ok (h2.perm h3) hm ht
    have i1 := run_txInv hr hn
    show P log t
    rw [h5] at h6 ⊢
    exact hperm log s.txs _ i1.1 i1.2.1 h6 (ih hn)
  | scraped log s b hr ih => exact ih hn
  | restart log s s' hr hs ih =>
    obtain ⟨s₀, h1, h2, h3, h4⟩ := run_replay hr
    rw [h1, Except.ok.injEq] at hs
    subst hs
    have i1 := run_txInv hr hn
    have := hperm log s.txs s₀.txs.pending i1.1 i1.2.1 h3.symm (ih hn)
    have e : s.txs = s₀.txs.setP s.txs.pending := congrArg State.txs h4
    rw [e] at this
    exact this

/-- Every reimbursement, also a quarantined one, was owed. -/
theorem run_reimbursed_owed {log : List Event} {s : State} (h : Run log s) (hn : NonceNeverLowered log) :
    ∀ x, s.txs.reimbursed.get x ≠ none → ∃ rr, Owed log s.txs x rr := by
  refine run_event_induct (P := fun log t => ∀ x, t.reimbursed.get x ≠ none → ∃ rr, Owed log t x rr)
    ?_ ?_ ?_ h hn
  · intro log t p _ _ _ hP x hx
    exact hP x hx
  · intro a n x hx
    exact absurd rfl hx
  · intro log s e s' hr i1 l1 i2 l2 he ha hP x hx
    have hi : ∀ a, e ≠ .init a := by rintro a rfl; exact he
    have hs := finStep i1 hi (applyEvent_txs ha)
    have keep : s.txs.reimbursed.get x ≠ none → ∃ rr, Owed (log ++ [e]) s'.txs x rr := by
      intro h
      obtain ⟨rr, h⟩ := hP x h
      exact ⟨rr, h.mono hs⟩
    have hs' := hs
    cases hs' with
    | finalize i rc _ m l y r a1 a2 a3 a4 a5 a6 a7 a8 a9 a10 a11 a12 => exact keep (a11 ▸ hx)
    | owe r _ a1 a2 a3 => exact keep (a3 ▸ hx)
    | paid e y b rr _ c1 c2 c3 c4 c5 c6 c7 c8 =>
      rw [c8, FMap.get_insert] at hx
      split at hx
      · rename_i hxy; subst hxy
        exact ⟨rr, (l1.owed _ _ c5).mono hs⟩
      · exact keep hx
    | quarantine y _ c1 c2 c3 c4 c5 =>
      rw [c5, FMap.get_insert] at hx
      split at hx
      · rename_i hxy; subst hxy
        obtain ⟨rr, hrr⟩ := he
        exact ⟨rr, (l1.owed _ _ hrr).mono hs⟩
      · exact keep hx
    | other _ _ c1 c2 c3 c4 c5 c6 => exact keep (c6 ▸ hx)

/-- A failed ERC-20 burn and an accepted request never share a native burn index. -/
theorem run_no_clash {log : List Event} {s : State} (h : Run log s) (hn : NonceNeverLowered log) :
    ∀ rr : ReimbRequest, .failedErc20WithdrawalRequest rr ∈ log → ∀ r : Request, r.intoEvent ∈ log →
      r.burnIndex ≠ rr.ledgerBurnIndex := by
  refine run_event_induct (P := fun log _ => ∀ rr : ReimbRequest, .failedErc20WithdrawalRequest rr ∈ log →
    ∀ r : Request, r.intoEvent ∈ log → r.burnIndex ≠ rr.ledgerBurnIndex) ?_ ?_ ?_ h hn
  · intro log t p _ _ _ hP; exact hP
  · intro a n rr hrr; simp at hrr
  · intro log s e s' hr i1 l1 i2 l2 he ha hP rr hrr r hr'
    simp only [List.mem_append, List.mem_singleton] at hrr hr'
    rcases hrr with hrr | rfl
    · rcases hr' with hr' | rfl
      · exact hP rr hrr r hr'
      · intro hb
        have hne := l1.failedErc20 rr hrr
        rw [← hb] at hne
        cases r with
        | native q => rcases hne with h | h
                      · exact h he.2.1.1
                      · exact h he.2.1.2
        | erc20 q => rcases hne with h | h
                     · exact h he.1.1
                     · exact h he.1.2
    · rcases hr' with hr' | hr'
      · intro hb
        obtain ⟨h1, h2⟩ := he
        rcases (l1.acc r).1 hr' with h | h
        · exact h1 r h hb
        · rw [hb, h2] at h; cases h
      · cases r <;> simp [Request.intoEvent] at hr'

/-- The fee of every finalized transaction was computed without overflow. -/
theorem run_effectiveFee {log : List Event} {s : State} (h : Run log s) (hn : NonceNeverLowered log) :
    ∀ n i f, s.txs.finalized.Has n i f →
      f.receipt.effectiveFee = .ok (f.receipt.effectiveGasPrice * f.receipt.gasUsed) := by
  refine run_event_induct (P := fun _ t => ∀ n i f, t.finalized.Has n i f →
      f.receipt.effectiveFee = .ok (f.receipt.effectiveGasPrice * f.receipt.gasUsed)) ?_ ?_ ?_ h hn
  · intro log t p _ _ _ hP; exact hP
  · intro a n k i f hf; exact absurd hf MKM.not_has_empty
  · intro log s e s' hr i1 l1 i2 l2 he ha hP n i f hf
    have hi : ∀ a, e ≠ .init a := by rintro a rfl; exact he
    rcases fin_new (finStep i1 hi (applyEvent_txs ha)) hf with h | rfl
    · exact hP n i f h
    · simp only [applyEvent] at ha
      obtain ⟨t, _, ha⟩ := stateRecordFinalized_ok ha
      simp only [State.updateBalanceUponWithdrawal, Res.bind_ok] at ha
      obtain ⟨fee, hfee, _⟩ := ha
      rw [hfee]
      simp only [Receipt.effectiveFee, Res.expect_ok, transactionCost, cmul_eq_some] at hfee
      rw [hfee.1]

/-- The status of burn index `i`, read off the pipeline. -/
inductive Stat (t : Transactions) (i : LedgerBurnIndex) : Status → Prop where
  | notFound : (∀ r ∈ t.pending, r.burnIndex ≠ i) → t.processed.get i = none → Stat t i .notFound
  | pending (r : Request) : r ∈ t.pending → r.burnIndex = i → Stat t i .pending
  | created (n : TransactionNonce) (c : Resubmittable Tx) : t.created.Has n i c → Stat t i .txCreated
  | sent (n : TransactionNonce) (l : List (Resubmittable SignedTx)) (x : Resubmittable SignedTx) :
      (∀ m c, ¬ t.created.Has m i c) → t.sent.Has n i l → l.getLast? = some x → Stat t i (.txSent x.transaction.hash)
  | success (n : TransactionNonce) (f : FinalizedTx) : t.finalized.Has n i f → f.receipt.status = .success →
      Stat t i (.success f.receipt.transactionHash (f.receipt.effectiveGasPrice * f.receipt.gasUsed))
  | owed (n : TransactionNonce) (f : FinalizedTx) (r : Request) : t.finalized.Has n i f →
      f.receipt.status = .failure → t.processed.get i = some r →
      (∀ b, t.reimbursed.get (.ofRequest r) ≠ some (.ok b)) → Stat t i (.pendingReimbursement f.receipt.transactionHash)
  | paid (n : TransactionNonce) (f : FinalizedTx) (r : Request) (b : Reimbursed) : t.finalized.Has n i f →
      f.receipt.status = .failure → t.processed.get i = some r →
      t.reimbursed.get (.ofRequest r) = some (.ok b) →
      Stat t i (.reimbursed f.receipt.transactionHash b.reimbursedAmount b.reimbursedInBlock)

omit [Keccak] in
theorem getAlt_none {K A V : Type} [DecidableEq K] [DecidableEq A] [TOrd K] [TOrd A] {m : MKM K A V} (w : m.WF)
    {a : A} (h : ∀ k v, ¬ m.Has k a v) : m.getAlt a = none := by
  cases e : m.getAlt a with
  | none => rfl
  | some v =>
    obtain ⟨k, hk⟩ := (MKM.getAlt_eq w).1 e
    exact absurd hk (h k v)

/-- Reimbursement index `x` belongs to native burn index `i`. -/
theorem owed_index {log : List Event} {s : State} (h : Run log s) (hn : NonceNeverLowered log)
    {x : ReimbIndex} {rr : ReimbRequest} (ho : Owed log s.txs x rr) {r : Request}
    (hr : s.txs.processed.get x.withdrawalId = some r) :
    x = .ofRequest r ∧ ∃ n f, s.txs.finalized.Has n x.withdrawalId f ∧ f.receipt.status = .failure := by
  obtain ⟨inv, hl, _⟩ := run_txInv h hn
  rcases ho with ⟨n, i, f, r', h1, h2, h3, h4, h5⟩ | ⟨h1, h2⟩
  · have : x.withdrawalId = i := by
      rw [h4, ← inv.procIdx i r' h3]; cases r' <;> rfl
    rw [this] at hr ⊢
    rw [h3] at hr; cases hr
    exact ⟨h4, n, f, h1, h2⟩
  · subst h2
    have hb := inv.procIdx _ _ hr
    exfalso
    refine run_no_clash h hn rr h1 r ((hl.acc r).2 (.inr ?_)) hb
    rw [hb]; exact hr

theorem findReimbursed_eq {log : List Event} {s : State} (h : Run log s) (hn : NonceNeverLowered log)
    {i : LedgerBurnIndex} {r : Request} (hr : s.txs.processed.get i = some r) :
    s.txs.findReimbursed i = s.txs.reimbursed.get (.ofRequest r) := by
  obtain ⟨inv, hl, _⟩ := run_txInv h hn
  have hb := inv.procIdx _ _ hr
  have key : ∀ x v, (x, v) ∈ s.txs.reimbursed.toList → x.withdrawalId = i → x = .ofRequest r := by
    intro x v hx hi
    rw [FMap.mem_toList] at hx
    obtain ⟨rr, ho⟩ := run_reimbursed_owed h hn x (by simp [hx])
    exact (owed_index h hn ho (by rw [hi]; exact hr)).1
  have he : s.txs.findReimbursed i =
      (s.txs.reimbursed.toList.find? fun x => x.1.withdrawalId == i).map (·.2) := by
    unfold findReimbursed
    congr 2
    funext x
    obtain ⟨x, v⟩ := x
    cases x <;> rfl
  rw [he]
  cases hf : s.txs.reimbursed.toList.find? (fun x => x.1.withdrawalId == i) with
  | some y =>
    obtain ⟨x, v⟩ := y
    have h1 := List.mem_of_find?_eq_some hf
    have h2 := List.find?_some hf
    have := key x v h1 (by simpa using h2)
    subst this
    rw [FMap.mem_toList] at h1
    simp [h1]
  | none =>
    rw [List.find?_eq_none] at hf
    cases hg : s.txs.reimbursed.get (.ofRequest r) with
    | none => rfl
    | some v =>
      have := hf _ (FMap.mem_toList.2 hg)
      exfalso; apply this
      simp only [beq_iff_eq]
      rw [← hb]; cases r <;> rfl

theorem status_of_stat {log : List Event} {s : State} (h : Run log s) (hn : NonceNeverLowered log)
    {i : LedgerBurnIndex} {st : Status} (hs : Stat s.txs i st) : s.txs.transactionStatus i = .ok st := by
  obtain ⟨inv, hl, _⟩ := run_txInv h hn
  have noPend : ∀ r, s.txs.processed.get i = some r → (s.txs.pending.any fun r => r.burnIndex == i) = false := by
    intro r hr
    simp only [List.any_eq_false, beq_iff_eq]
    intro r' hr' hb
    have := inv.pendProc r' hr'
    rw [hb, hr] at this; cases this
  have fin : ∀ n f, s.txs.finalized.Has n i f → s.txs.created.getAlt i = none ∧ s.txs.sent.getAlt i = none ∧
      s.txs.finalized.getAlt i = some f ∧ ∃ r, s.txs.processed.get i = some r := by
    intro n f hf
    obtain ⟨r, hr, _⟩ := inv.fProc _ _ _ hf
    exact ⟨getAlt_none inv.cw (fun k v hk => (inv.cf _ _ _ _ _ _ hk hf).2 rfl),
      getAlt_none inv.sw (fun k v hk => (inv.sf _ _ _ _ _ _ hk hf).2 rfl),
      (MKM.getAlt_eq inv.fw).2 ⟨n, hf⟩, r, hr⟩
  unfold transactionStatus
  cases hs with
  | notFound h1 h2 =>
    have hp : (s.txs.pending.any fun r => r.burnIndex == i) = false := by
      simpa only [List.any_eq_false, beq_iff_eq] using h1
    have hc : s.txs.created.getAlt i = none := getAlt_none inv.cw fun k v hk => by
      obtain ⟨r, hr, _⟩ := inv.cProc _ _ _ hk; rw [h2] at hr; cases hr
    have hse : s.txs.sent.getAlt i = none := getAlt_none inv.sw fun k v hk => by
      obtain ⟨r, hr, _⟩ := inv.sProc _ _ _ hk; rw [h2] at hr; cases hr
    have hfi : s.txs.finalized.getAlt i = none := getAlt_none inv.fw fun k v hk => by
      obtain ⟨r, hr, _⟩ := inv.fProc _ _ _ hk; rw [h2] at hr; cases hr
    simp [hp, processedStatus, hc, hse, hfi]; rfl
  | pending r h1 h2 =>
    have hp : (s.txs.pending.any fun r => r.burnIndex == i) = true := by
      rw [List.any_eq_true]; exact ⟨r, h1, by simpa using h2⟩
    simp [hp]
  | created n c h1 =>
    obtain ⟨r, hr, _⟩ := inv.cProc _ _ _ h1
    have hc := (MKM.getAlt_eq inv.cw).2 ⟨n, h1⟩
    simp [noPend r hr, processedStatus, hc]; rfl
  | sent n l x h1 h2 h3 =>
    obtain ⟨r, hr, _⟩ := inv.sProc _ _ _ h2
    have hc : s.txs.created.getAlt i = none := getAlt_none inv.cw h1
    have hse := (MKM.getAlt_eq inv.sw).2 ⟨n, h2⟩
    simp [noPend r hr, processedStatus, hc, hse, h3]; rfl
  | success n f h1 h2 =>
    obtain ⟨e1, e2, e3, r, hr⟩ := fin n f h1
    have hf := findReimbursed_eq h hn hr
    have hno : s.txs.reimbursed.get (.ofRequest r) = none := by
      cases hg : s.txs.reimbursed.get (.ofRequest r) with
      | none => rfl
      | some v =>
        obtain ⟨rr, ho⟩ := run_reimbursed_owed h hn (.ofRequest r) (by simp [hg])
        have hw : (ReimbIndex.ofRequest r).withdrawalId = i := by
          rw [← inv.procIdx _ _ hr]; cases r <;> rfl
        obtain ⟨_, n', f', hf', hst⟩ := owed_index h hn ho (by rw [hw]; exact hr)
        rw [hw] at hf'
        obtain ⟨_, rfl⟩ := MKM.Has.unique_alt inv.fw h1 hf'
        rw [h2] at hst; cases hst
    simp [noPend r hr, processedStatus, e1, e2, e3, hf, hno, h2, run_effectiveFee h hn n i f h1]; rfl
  | owed n f r h1 h2 h3 h4 =>
    obtain ⟨e1, e2, e3, _⟩ := fin n f h1
    have hf := findReimbursed_eq h hn h3
    match hg : s.txs.reimbursed.get (.ofRequest r) with
    | none => simp [noPend r h3, processedStatus, e1, e2, e3, hf, hg, h2]; rfl
    | some .quarantined => simp [noPend r h3, processedStatus, e1, e2, e3, hf, hg, h2]; rfl
    | some (.ok b) => exact absurd hg (h4 b)
  | paid n f r b h1 h2 h3 h4 =>
    obtain ⟨e1, e2, e3, _⟩ := fin n f h1
    have hf := findReimbursed_eq h hn h3
    simp [noPend r h3, processedStatus, e1, e2, e3, hf, h4]; rfl

end EvmMinter
