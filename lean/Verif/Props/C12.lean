import Verif.Lemmas.TxLog
import Verif.Spec.Pipeline
import Verif.Spec.Example
/-!
# C12, C13, C14, C18, C19: the withdrawal pipeline over all histories
-/

namespace EvmMinter

open Spec Transactions

section
variable [Keccak]

theorem replay_split {pre post : List Event} {e : Event} {s : State} (h : replay (pre ++ e :: post) = .ok s)
    (hne : pre ≠ []) : ∃ s₁ s₂, replay pre = .ok s₁ ∧ applyEvent s₁ e = .ok s₂ ∧
      replay (pre ++ [e]) = .ok s₂ ∧ applyEvents s₂ post = .ok s := by
  obtain ⟨s₁, h1, h2⟩ := replay_prefix h hne
  simp only [applyEvents, Res.bind_ok] at h2
  obtain ⟨s₂, h3, h4⟩ := h2
  refine ⟨s₁, s₂, h1, h3, ?_, h4⟩
  rw [replay_snoc hne, h1]
  exact h3

theorem replay_head_init {e : Event} {t : List Event} {s : State} (h : replay (e :: t) = .ok s) :
    ∃ a, e = .init a := by
  cases e <;> simp [replay] at h
  exact ⟨_, rfl⟩

/-- Every position of an accepted log except the first. -/
theorem replay_at {pre post : List Event} {e : Event} {s : State} (h : replay (pre ++ e :: post) = .ok s)
    (hi : ∀ a, e ≠ .init a) : pre ≠ [] := by
  rintro rfl
  obtain ⟨a, ha⟩ := replay_head_init h
  exact hi a ha

omit [Keccak] in
theorem countP_zero {p : Request → Bool} {l : List Request} (h : ∀ r ∈ l, p r = false) : l.countP p = 0 := by
  rw [List.countP_eq_zero]; intro r hr; simp [h r hr]

omit [Keccak] in
theorem queued_one {t : Transactions} (h : t.TxInv) {r : Request} (hr : r ∈ t.pending) :
    t.pending.countP (fun x => x.burnIndex == r.burnIndex) = 1 := by
  have hp := h.pend
  revert hr hp
  generalize t.pending = l
  intro hr hp
  induction l with
  | nil => cases hr
  | cons x l ih =>
    rw [List.pairwise_cons] at hp
    rw [List.countP_cons]
    rcases List.mem_cons.1 hr with rfl | hr
    · rw [countP_zero]
      · simp
      · intro y hy; simpa using Ne.symm (hp.1 y hy)
    · rw [ih hr hp.2]
      have : (x.burnIndex == r.burnIndex) = false := by simpa using hp.1 r hr
      simp [this]

/-- **C12.** In every reachable state (upgrades not lowering the next nonce), every accepted withdrawal is in
exactly one stage (distinct stages have distinct profiles), a burn index of which no request was accepted is in
none, and no two accepted requests share a burn index. -/
theorem C12_exactly_one_stage {log : List Event} {s : State} (h : replay log = .ok s)
    (hn : NonceNeverLowered log) :
    (∀ i, count (isRequestOf i) log ≤ 1) ∧
    (∀ i, 0 < count (isRequestOf i) log ↔ ∃ st : Stage, profile s.txs i = st.profile) ∧
    (∀ i, count (isRequestOf i) log = 0 → profile s.txs i = ⟨0, false, false, false⟩) ∧
    (∀ st st' : Stage, st.profile = st'.profile → st = st') := by
  obtain ⟨inv, hN⟩ := txInv_of_replay h hn
  have hl := txLog_of_replay h hn
  have hC := fun i => MKM.containsAlt_eq inv.cw (a := i)
  have hS := fun i => MKM.containsAlt_eq inv.sw (a := i)
  have hF := fun i => MKM.containsAlt_eq inv.fw (a := i)
  have known : ∀ i, 0 < count (isRequestOf i) log → ∃ st : Stage, profile s.txs i = st.profile := by
    intro i hi
    obtain ⟨e, he, hp⟩ := count_pos_iff.1 hi
    obtain ⟨r, rfl, rfl⟩ := isRequestOf_iff.1 hp
    rcases (hl.acc r).1 he with hr | hr
    · refine ⟨.pending, ?_⟩
      have hp := inv.pendProc r hr
      have c0 : s.txs.created.containsAlt r.burnIndex = false := by
        rw [Bool.eq_false_iff]; intro hc
        obtain ⟨n, c, hc⟩ := (hC _).1 hc
        obtain ⟨_, hq, _⟩ := inv.cProc _ _ _ hc; rw [hp] at hq; cases hq
      have s0 : s.txs.sent.containsAlt r.burnIndex = false := by
        rw [Bool.eq_false_iff]; intro hc
        obtain ⟨n, c, hc⟩ := (hS _).1 hc
        obtain ⟨_, hq, _⟩ := inv.sProc _ _ _ hc; rw [hp] at hq; cases hq
      have f0 : s.txs.finalized.containsAlt r.burnIndex = false := by
        rw [Bool.eq_false_iff]; intro hc
        obtain ⟨n, c, hc⟩ := (hF _).1 hc
        obtain ⟨_, hq, _⟩ := inv.fProc _ _ _ hc; rw [hp] at hq; cases hq
      simp [profile, Stage.profile, queued_one inv hr, c0, s0, f0]
    · have q0 : s.txs.pending.countP (fun x => x.burnIndex == r.burnIndex) = 0 := by
        apply countP_zero
        intro x hx
        rw [beq_eq_false_iff_ne]
        intro hxr
        have := inv.pendProc x hx
        rw [hxr, hr] at this; cases this
      by_cases hf : s.txs.finalized.containsAlt r.burnIndex = true
      · refine ⟨.finalized, ?_⟩
        obtain ⟨n, f, hf'⟩ := (hF _).1 hf
        have c0 : s.txs.created.containsAlt r.burnIndex = false := by
          rw [Bool.eq_false_iff]; intro hc
          obtain ⟨n, c, hc⟩ := (hC _).1 hc
          exact (inv.cf _ _ _ _ _ _ hc hf').2 rfl
        have s0 : s.txs.sent.containsAlt r.burnIndex = false := by
          rw [Bool.eq_false_iff]; intro hc
          obtain ⟨n, c, hc⟩ := (hS _).1 hc
          exact (inv.sf _ _ _ _ _ _ hc hf').2 rfl
        simp [profile, Stage.profile, q0, c0, s0, hf]
      · have f0 := Bool.eq_false_iff.2 hf
        cases hc : s.txs.created.containsAlt r.burnIndex <;> cases hs : s.txs.sent.containsAlt r.burnIndex
        · exfalso
          rcases inv.procIn _ _ hr with hx | hx | hx
          · have := (hC _).2 hx; rw [hc] at this; cases this
          · have := (hS _).2 hx; rw [hs] at this; cases this
          · exact hf ((hF _).2 hx)
        · exact ⟨.sent, by simp [profile, Stage.profile, q0, hc, hs, f0]⟩
        · exact ⟨.created, by simp [profile, Stage.profile, q0, hc, hs, f0]⟩
        · exact ⟨.resubmitted, by simp [profile, Stage.profile, q0, hc, hs, f0]⟩
  have unknown : ∀ i, count (isRequestOf i) log = 0 → profile s.txs i = ⟨0, false, false, false⟩ := by
    intro i hi
    have no : ∀ r, s.txs.processed.get i ≠ some r := by
      intro r hr
      have hri := inv.procIdx _ _ hr
      have : r.intoEvent ∈ log := (hl.acc r).2 (.inr (by rw [hri]; exact hr))
      have := count_pos_iff.2 ⟨_, this, isRequestOf_iff.2 ⟨r, rfl, hri⟩⟩
      omega
    have q0 : s.txs.pending.countP (fun x => x.burnIndex == i) = 0 := by
      apply countP_zero
      intro x hx
      rw [beq_eq_false_iff_ne]
      intro hxr
      have : x.intoEvent ∈ log := (hl.acc x).2 (.inl hx)
      have := count_pos_iff.2 ⟨_, this, isRequestOf_iff.2 ⟨x, rfl, hxr⟩⟩
      omega
    have c0 : s.txs.created.containsAlt i = false := by
      rw [Bool.eq_false_iff]; intro hc
      obtain ⟨n, c, hc⟩ := (hC _).1 hc
      obtain ⟨r, hq, _⟩ := inv.cProc _ _ _ hc; exact no r hq
    have s0 : s.txs.sent.containsAlt i = false := by
      rw [Bool.eq_false_iff]; intro hc
      obtain ⟨n, c, hc⟩ := (hS _).1 hc
      obtain ⟨r, hq, _⟩ := inv.sProc _ _ _ hc; exact no r hq
    have f0 : s.txs.finalized.containsAlt i = false := by
      rw [Bool.eq_false_iff]; intro hc
      obtain ⟨n, c, hc⟩ := (hF _).1 hc
      obtain ⟨r, hq, _⟩ := inv.fProc _ _ _ hc; exact no r hq
    simp [profile, q0, c0, s0, f0]
  refine ⟨hl.accCount, fun i => ⟨known i, ?_⟩, unknown, ?_⟩
  · rintro ⟨st, hst⟩
    rcases Nat.eq_zero_or_pos (count (isRequestOf i) log) with h0 | h0
    · rw [unknown i h0] at hst
      cases st <;> simp [Stage.profile] at hst
    · exact h0
  · intro a b hab
    cases a <;> cases b <;> first | rfl | (simp [Stage.profile] at hab)

/-- **C13.** When no upgrade lowers the next nonce: the nonces of the first transactions of the withdrawals are
strictly increasing in the order of creation (so no two withdrawals share one, whatever was finalized in between),
each is exactly the next one in the sequence started by init (or by the last upgrade that set it), a withdrawal
gets its first transaction at most once, and every transaction recorded later reuses one of these nonces. -/
theorem C13_nonces_unique {log : List Event} {s : State} (h : replay log = .ok s) (hn : NonceNeverLowered log) :
    (createdNonces log).Pairwise (· < ·) ∧
    (∀ i, count (isCreateOf i) log ≤ 1) ∧
    (∀ pre i tx post, log = pre ++ .createdTransaction i tx :: post → tx.nonce = expectedNonce pre) ∧
    (∀ e ∈ log, ∀ tx, recordedTx e = some tx → tx.nonce ∈ createdNonces log) := by
  have hl := txLog_of_replay h hn
  refine ⟨hl.nonces.1, hl.createCount, ?_, ?_⟩
  · rintro pre i tx post rfl
    obtain ⟨s₁, s₂, h1, h2, _⟩ := replay_split h (replay_at h (by simp))
    have := applyEvent_txs h2
    simp only [txEvent] at this
    obtain ⟨q, created, e1, _, e2, e3, e4, e5, _⟩ := recordCreatedTransaction_ok this
    rw [e5]
    exact (txInv_of_replay h1 (nonceNeverLowered_prefix hn)).2
  · intro e he tx hr
    obtain ⟨i, hk⟩ := hl.core2 e he tx hr
    obtain ⟨tx', h1, h2, _⟩ := hl.core3 _ _ _ hk
    exact mem_createdNonces.2 ⟨i, tx', h1, h2⟩

omit [Keccak] in
theorem sameCall_of_core {a b : Tx} (h : a.core = b.core) : SameCall a b := by
  simp only [Tx.core, TxCore.mk.injEq] at h
  exact ⟨h.1, h.2.1, h.2.2.1, h.2.2.2.1, h.2.2.2.2.1, h.2.2.2.2.2⟩

/-- **C14.** Every transaction ever recorded (created, replaced or signed) belongs to exactly one accepted
withdrawal, the one for which the first transaction with that nonce was created, and it has the nonce, chain,
destination, call data, gas limit and access list of that first transaction; its destination is the one the
request demands. -/
theorem C14_same_call {log : List Event} {s : State} (h : replay log = .ok s) (hn : NonceNeverLowered log)
    {e : Event} (he : e ∈ log) {tx : Tx} (htx : recordedTx e = some tx) :
    (∃ (r : Request) (tx₀ : Tx), r.intoEvent ∈ log ∧ .createdTransaction r.burnIndex tx₀ ∈ log ∧
      SameCall tx tx₀ ∧ tx.destination = r.destination) ∧
    (∀ i j tx₁ tx₂, .createdTransaction i tx₁ ∈ log → .createdTransaction j tx₂ ∈ log →
      tx₁.nonce = tx.nonce → tx₂.nonce = tx.nonce → i = j ∧ tx₁ = tx₂) ∧
    (∀ e' ∈ log, ∀ tx', recordedTx e' = some tx' → tx'.nonce = tx.nonce → SameCall tx' tx) := by
  obtain ⟨inv, _⟩ := txInv_of_replay h hn
  have hl := txLog_of_replay h hn
  obtain ⟨i, hk⟩ := hl.core2 e he tx htx
  refine ⟨?_, ?_, ?_⟩
  · obtain ⟨tx₀, h1, h2, h3⟩ := hl.core3 _ _ _ hk
    obtain ⟨_, _, r, hr, hd⟩ := hk.processed inv
    have hri := inv.procIdx _ _ hr
    refine ⟨r, tx₀, (hl.acc r).2 (.inr (by rw [hri]; exact hr)), by rw [hri]; exact h1, sameCall_of_core h3.symm, hd.symm⟩
  · intro a b tx₁ tx₂ h1 h2 e1 e2
    have k1 := hl.core1 _ _ h1
    have k2 := hl.core1 _ _ h2
    rw [e1] at k1; rw [e2] at k2
    have hab := (k1.unique inv k2).1
    subst hab
    refine ⟨rfl, ?_⟩
    -- the index has a single creation event
    have hc := hl.createCount a
    obtain ⟨p, q, rfl⟩ := List.append_of_mem h1
    rcases List.mem_append.1 h2 with h2 | h2
    · exfalso
      have : 0 < count (isCreateOf a) p := count_pos_iff.2 ⟨_, h2, by simp [isCreateOf]⟩
      simp only [count, List.countP_append, List.countP_cons] at hc this
      simp [isCreateOf] at hc
      omega
    · rcases List.mem_cons.1 h2 with h2 | h2
      · simp only [Event.createdTransaction.injEq] at h2; exact h2.2.symm
      · exfalso
        have : 0 < count (isCreateOf a) q := count_pos_iff.2 ⟨_, h2, by simp [isCreateOf]⟩
        simp only [count, List.countP_append, List.countP_cons] at hc this
        simp [isCreateOf] at hc
        omega
  · intro e' he' tx' htx' hnn
    obtain ⟨j, hk'⟩ := hl.core2 e' he' tx' htx'
    rw [hnn] at hk'
    exact sameCall_of_core (hk'.unique inv hk).2

/-- Finalized entries stay. -/
theorem finalized_mono {log : List Event} {s s' : State} {l : List Event} (h : replay log = .ok s)
    (hn : NonceNeverLowered (log ++ l)) (hl : applyEvents s l = .ok s') {n : TransactionNonce}
    {i : LedgerBurnIndex} {f : FinalizedTx} (hf : s.txs.finalized.Has n i f) : s'.txs.finalized.Has n i f := by
  induction l generalizing log s with
  | nil => simp only [applyEvents, Except.ok.injEq] at hl; subst hl; exact hf
  | cons e t ih =>
    simp only [applyEvents, Res.bind_ok] at hl
    obtain ⟨s1, h1, h2⟩ := hl
    have hr : replay (log ++ [e]) = .ok s1 := by rw [replay_snoc (replay_ne_nil h), h]; exact h1
    have hi : ∀ a, e ≠ .init a := by rintro a rfl; simp [applyEvent] at h1
    refine ih hr (by simpa using hn) h2 ?_
    have hs := finStep (txInv_of_replay h (nonceNeverLowered_prefix hn)).1 hi (applyEvent_txs h1)
    cases hs with
    | finalize i' rc _ m l y r a1 a2 a3 a4 a5 a6 => exact (a6 _ _ _).2 (.inr hf)
    | owe => simp_all
    | paid => simp_all
    | quarantine => simp_all
    | other => simp_all

/-- A recorded transaction is in the created or sent map afterwards. -/
theorem recorded_has {t t' : Transactions} {e : Event} (h : t.TxInv) (ht : txEvent t e = .ok t') {tx : Tx}
    (hr : recordedTx e = some tx) : (∃ i c, t'.created.Has tx.nonce i c) ∨ (∃ i l, t'.sent.Has tx.nonce i l) := by
  cases e <;> simp only [recordedTx, Option.some.injEq, reduceCtorEq] at hr <;> simp only [txEvent] at ht
  · obtain ⟨r, created, e1, _, e2, e3, e4, e5, e6, e7, e8, e9, rfl⟩ := recordCreatedTransaction_ok ht
    subst hr
    exact .inl ⟨_, _, (MKM.tryInsert_has h.cw e9).2 (.inl ⟨rfl, rfl, rfl⟩)⟩
  · obtain ⟨i', c, created, sent, e1, e2, ⟨o, e3⟩, e4, rfl⟩ := recordSignedTransaction_ok ht
    obtain ⟨old, hold, hsh⟩ := signed_sent h e1 e4
    subst hr
    exact .inr ⟨_, _, (hsh _ _ _).2 (.inl ⟨rfl, rfl, rfl⟩)⟩
  · obtain ⟨i', l, last, created₁, created, e1, e2, e3, ⟨o, e4⟩, e5, rfl⟩ := recordResubmitTransaction_ok ht
    subst hr
    exact .inl ⟨_, _, (MKM.tryInsert_has (MKM.removeEntry_wf h.cw e4) e5).2 (.inl ⟨rfl, rfl, rfl⟩)⟩

/-- **C18.** A withdrawal is finalized at most once; at that point one of the transactions already signed with
the withdrawal's nonce has the receipt's hash (and the receipt respects its gas limit and maximum price); afterwards
no transaction with that nonce is waiting to be signed, sent or finalized, and none is ever recorded again. -/
theorem C18_finalized_once {log : List Event} {s : State} (h : replay log = .ok s) (hn : NonceNeverLowered log)
    (i : LedgerBurnIndex) :
    count (isFinalizeOf i) log ≤ 1 ∧
    ∀ pre receipt post, log = pre ++ .finalizedTransaction i receipt :: post →
      ∃ (tx₀ : Tx) (j : LedgerBurnIndex) (stx : SignedTx),
        .createdTransaction i tx₀ ∈ pre ∧ .signedTransaction j stx ∈ pre ∧ stx.tx.nonce = tx₀.nonce ∧
        stx.hash = receipt.transactionHash ∧ receipt.gasUsed ≤ stx.tx.gasLimit ∧
        receipt.effectiveGasPrice ≤ stx.tx.maxFeePerGas ∧
        s.txs.finalized.getAlt i = some ⟨stx, receipt⟩ ∧
        s.txs.created.contains tx₀.nonce = false ∧ s.txs.sent.contains tx₀.nonce = false ∧
        s.txs.created.containsAlt i = false ∧ s.txs.sent.containsAlt i = false ∧
        ∀ e ∈ post, ∀ tx, recordedTx e = some tx → tx.nonce ≠ tx₀.nonce := by
  refine ⟨(txLog_of_replay h hn).finCount i, ?_⟩
  rintro pre receipt post rfl
  obtain ⟨s₁, s₂, h1, h2, h3, h4⟩ := replay_split h (replay_at h (by simp))
  have hn1 := nonceNeverLowered_prefix hn
  have hn2 : NonceNeverLowered (pre ++ [.finalizedTransaction i receipt]) := by
    refine nonceNeverLowered_prefix (l₂ := post) ?_
    simpa using hn
  obtain ⟨inv1, _⟩ := txInv_of_replay h1 hn1
  obtain ⟨inv2, _⟩ := txInv_of_replay h3 hn2
  obtain ⟨inv, _⟩ := txInv_of_replay h hn
  have hl1 := txLog_of_replay h1 hn1
  have hs := finStep inv1 (by simp) (applyEvent_txs h2)
  cases hs with
  | finalize i' rc _ n l x r a1 a2 a3 a4 a5 a6 =>
    have hfin : s₂.txs.finalized.Has n i ⟨x.transaction, receipt⟩ := (a6 _ _ _).2 (.inl ⟨rfl, rfl, rfl⟩)
    have hfin' : s.txs.finalized.Has n i ⟨x.transaction, receipt⟩ :=
      finalized_mono h3 (by simpa using hn) h4 hfin
    obtain ⟨tx₀, b1, b2, b3⟩ := hl1.core3 n i _ (.inr (.inl ⟨l, x, a1, a2, rfl⟩))
    obtain ⟨j, hj⟩ := hl1.sentLog _ _ _ _ a1 a2
    have hxn := (inv1.sN _ _ _ a1).2.2 x a2
    refine ⟨tx₀, j, x.transaction, b1, hj, hxn.trans b2.symm, a3, a5, a4,
      (MKM.getAlt_eq inv.fw).2 ⟨n, hfin'⟩, ?_, ?_, ?_, ?_, ?_⟩
    · rw [Bool.eq_false_iff]; intro hc
      obtain ⟨_, _, hc⟩ := (MKM.contains_eq inv.cw).1 hc
      exact (inv.cf _ _ _ _ _ _ hc hfin').1 b2
    · rw [Bool.eq_false_iff]; intro hc
      obtain ⟨_, _, hc⟩ := (MKM.contains_eq inv.sw).1 hc
      exact (inv.sf _ _ _ _ _ _ hc hfin').1 b2
    · rw [Bool.eq_false_iff]; intro hc
      obtain ⟨_, _, hc⟩ := (MKM.containsAlt_eq inv.cw).1 hc
      exact (inv.cf _ _ _ _ _ _ hc hfin').2 rfl
    · rw [Bool.eq_false_iff]; intro hc
      obtain ⟨_, _, hc⟩ := (MKM.containsAlt_eq inv.sw).1 hc
      exact (inv.sf _ _ _ _ _ _ hc hfin').2 rfl
    · intro e he tx htx hne
      obtain ⟨p, q, rfl⟩ := List.append_of_mem he
      have hrw : pre ++ Event.finalizedTransaction i receipt :: (p ++ e :: q) =
          ((pre ++ [Event.finalizedTransaction i receipt]) ++ p) ++ e :: q := by simp
      rw [hrw] at h hn
      obtain ⟨s₃, s₄, g1, g2, g3, _⟩ := replay_split h (by simp)
      have hn4 : NonceNeverLowered (pre ++ [Event.finalizedTransaction i receipt] ++ p ++ [e]) := by
        refine nonceNeverLowered_prefix (l₂ := q) ?_
        simpa using hn
      have hn3 := nonceNeverLowered_prefix hn4
      have hf3 : s₃.txs.finalized.Has n i ⟨x.transaction, receipt⟩ := by
        obtain ⟨s5, g5, g6⟩ := replay_prefix g1 (by simp)
        rw [h3] at g5
        simp only [Except.ok.injEq] at g5
        subst g5
        exact finalized_mono h3 hn3 g6 hfin
      obtain ⟨inv3, _⟩ := txInv_of_replay g1 hn3
      obtain ⟨inv4, _⟩ := txInv_of_replay g3 hn4
      have hf4 : s₄.txs.finalized.Has n i ⟨x.transaction, receipt⟩ :=
        finalized_mono (l := [e]) g1 hn4 (by rw [applyEvents_single]; exact g2) hf3
      rcases recorded_has inv3 (applyEvent_txs g2) htx with ⟨k, c, hc⟩ | ⟨k, c, hc⟩
      · exact (inv4.cf _ _ _ _ _ _ hc hf4).1 (hne.trans b2)
      · exact (inv4.sf _ _ _ _ _ _ hc hf4).1 (hne.trans b2)
  | paid _ y b' rr' _ c1 => rcases c1 with ⟨_, hh, _⟩ | ⟨_, _, _, hh, _⟩ <;> cases hh
  | other _ _ d1 => exact d1.elim

theorem owedBy_of_owed {log : List Event} {t : Transactions} (inv : t.TxInv) (hl : TxLog log t) {x : ReimbIndex}
    {rr : ReimbRequest} (h : Owed log t x rr) : OwedBy log x rr := by
  rcases h with ⟨n, i, f, r, h1, h2, h3, h4, h5⟩ | ⟨h1, h2⟩
  · obtain ⟨g1, ⟨j, g2⟩, g3, _⟩ := hl.finLog _ _ _ h1
    have hri := inv.procIdx _ _ h3
    have hacc : r.intoEvent ∈ log := (hl.acc r).2 (.inr (by rw [hri]; exact h3))
    subst hri h4 h5
    cases r with
    | native r => exact .failedNative r f.receipt j f.signed hacc g1 h2 g2 g3
    | erc20 r => exact .failedErc20 r f.receipt hacc g1 h2
  · subst h2; exact .failedBurn rr h1

theorem reimbursed_mono {t t' : Transactions} {e : Event} (hs : FinStep t e t') {x : ReimbIndex}
    (hx : t.reimbursed.get x ≠ none) : t'.reimbursed.get x ≠ none := by
  cases hs with
  | finalize => simp_all
  | owe => simp_all
  | paid e y b' rr' _ c1 c2 c3 c4 c5 c6 c7 c8 => rw [c8]; simp only [FMap.get_insert]; split <;> simp_all
  | quarantine y _ c1 c2 c3 c4 c5 => rw [c5]; simp only [FMap.get_insert]; split <;> simp_all
  | other => simp_all

/-- **C19.** In every reachable state (upgrades not lowering the next nonce):
1. every reimbursement that is owed is justified by the log, with the amount, account and index demanded by the
   failure it compensates;
2. every reimbursement recorded as paid was justified in the same way, and the recorded amount is the owed one;
3. every failed withdrawal and every failed burn is owed or completed;
4. a reimbursement is recorded as paid at most once, and a completed one (paid or quarantined) is not owed. -/
theorem C19_reimbursements_justified {log : List Event} {s : State} (h : replay log = .ok s)
    (hn : NonceNeverLowered log) :
    (∀ x rr, s.txs.reimbursementRequests.get x = some rr → OwedBy log x rr) ∧
    (∀ x b, s.txs.reimbursed.get x = some (.ok b) → ∃ rr, OwedBy log x rr ∧
      b.reimbursedAmount = rr.reimbursedAmount ∧ b.transactionHash = rr.transactionHash ∧
      b.burnInBlock = x.burnInBlock) ∧
    (∀ x rr, OwedBy log x rr →
      s.txs.reimbursementRequests.get x ≠ none ∨ s.txs.reimbursed.get x ≠ none) ∧
    (∀ x, count (isReimburseOf x) log ≤ 1) ∧
    (∀ x, s.txs.reimbursed.get x ≠ none → s.txs.reimbursementRequests.get x = none) := by
  obtain ⟨inv, _⟩ := txInv_of_replay h hn
  have hl := txLog_of_replay h hn
  refine ⟨fun x rr hx => owedBy_of_owed inv hl (hl.owed x rr hx), ?_, ?_, hl.payCount, ?_⟩
  · intro x b hb
    obtain ⟨rr, h1, h2⟩ := hl.paid x b hb
    exact ⟨rr, owedBy_of_owed inv hl h1, h2⟩
  · intro x rr ho
    have proc : ∀ (r : Request) receipt, r.intoEvent ∈ log → .finalizedTransaction r.burnIndex receipt ∈ log →
        receipt.status = .failure → s.txs.reimbursementRequests.get (.ofRequest r) ≠ none ∨
          s.txs.reimbursed.get (.ofRequest r) ≠ none := by
      intro r receipt h1 h2 h3
      obtain ⟨n, f, hf, rfl⟩ := hl.finIn _ _ h2
      rcases (hl.acc r).1 h1 with hp | hp
      · obtain ⟨q, hq, _⟩ := inv.fProc _ _ _ hf
        rw [inv.pendProc r hp] at hq; cases hq
      · exact hl.failed n _ f r hf h3 hp
    cases ho with
    | failedNative r receipt j stx h1 h2 h3 h4 h5 => exact proc (.native r) receipt h1 h2 h3
    | failedErc20 r receipt h1 h2 h3 => exact proc (.erc20 r) receipt h1 h2 h3
    | failedBurn rr h1 => exact hl.failedErc20 rr h1
  · intro x hx
    cases hq : s.txs.reimbursementRequests.get x with
    | none => rfl
    | some rr => exact absurd (inv.reimb x (by simp [hq])) hx

/-- **C19, continued.** A reimbursement once completed stays completed and never becomes owed again. -/
theorem C19_completed_is_final {log l : List Event} {s s' : State} (h : replay log = .ok s)
    (hl : applyEvents s l = .ok s') (hn : NonceNeverLowered (log ++ l)) {x : ReimbIndex}
    (hx : s.txs.reimbursed.get x ≠ none) :
    s'.txs.reimbursed.get x ≠ none ∧ s'.txs.reimbursementRequests.get x = none := by
  have key : ∃ log', replay log' = .ok s' ∧ NonceNeverLowered log' ∧ s'.txs.reimbursed.get x ≠ none := by
    induction l generalizing log s with
    | nil =>
      simp only [applyEvents, Except.ok.injEq] at hl; subst hl
      exact ⟨log, h, by simpa using hn, hx⟩
    | cons e t ih =>
      simp only [applyEvents, Res.bind_ok] at hl
      obtain ⟨s1, h1, h2⟩ := hl
      have hr : replay (log ++ [e]) = .ok s1 := by rw [replay_snoc (replay_ne_nil h), h]; exact h1
      have hi : ∀ a, e ≠ .init a := by rintro a rfl; simp [applyEvent] at h1
      have hs := finStep (txInv_of_replay h (nonceNeverLowered_prefix hn)).1 hi (applyEvent_txs h1)
      exact ih hr h2 (by simpa using hn) (reimbursed_mono hs hx)
  obtain ⟨log', h1, h2, h3⟩ := key
  exact ⟨h3, (C19_reimbursements_justified h1 h2).2.2.2.2 x h3⟩

end

/-! ## Concrete cases -/

namespace Example

/-- No upgrade in the example log sets the nonce. -/
theorem nonceNeverLowered_of_none {l : List Event}
    (h : l.all (fun e => match e with | .upgrade a => a.nextTransactionNonce.isNone | _ => true) = true) :
    NonceNeverLowered l := by
  intro l₁ a l₂ n e hn
  subst e
  simp [hn] at h

theorem log_nonce (k : Nat) : NonceNeverLowered (log.take k) :=
  nonceNeverLowered_of_none (List.all_eq_true.2 fun e he =>
    List.all_eq_true.1 (by decide : log.all (fun e => match e with
      | .upgrade a => a.nextTransactionNonce.isNone | _ => true) = true) e (List.mem_of_mem_take he))

/-- The stages of the two withdrawals along the example log. -/
example : checkLog (log.take 9) (fun s => profile s.txs 20 == Stage.pending.profile) = true := by decide +kernel
example : checkLog (log.take 11) (fun s => profile s.txs 20 == Stage.created.profile) = true := by decide +kernel
example : checkLog (log.take 13) (fun s => profile s.txs 20 == Stage.sent.profile) = true := by decide +kernel
example : checkLog (log.take 16) (fun s => profile s.txs 20 == Stage.resubmitted.profile) = true := by
  decide +kernel
example : checkLog log (fun s => profile s.txs 20 == Stage.finalized.profile &&
    profile s.txs 22 == ⟨0, false, false, false⟩) = true := by decide +kernel

/-- The hypotheses of C12, C13, C14, C18 and C19 hold of the example log: two withdrawals, a resubmission, a failure
that is owed and then reimbursed. -/
example : (∃ s, replay log = .ok s) ∧ NonceNeverLowered log ∧ createdNonces log = [5, 6] ∧
    Event.signedTransaction 20 ⟨tx1', sig⟩ ∈ log ∧ count (isFinalizeOf 20) log = 1 ∧
    count (isReimburseOf (.native 20)) log = 1 :=
  ⟨log_ok, log_nonce log.length, by decide, by decide, by decide, by decide⟩

example : checkLog (log.take 19) (fun s => s.txs.reimbursementRequests.get (.native 20) ==
    some ⟨20, 3000000000 - 21000 * 1000, alice, none, some receipt1.transactionHash⟩) = true := by decide +kernel
example : checkLog log (fun s => (s.txs.reimbursed.get (.native 20)).isSome) = true := by decide +kernel

/-- An upgrade that lowers the next nonce to one that is in use. -/
def loweredLog : List Event :=
  [ .init initArg,
    .addedErc20Token ⟨.sepolia, usdc, "ckUSDC", usdcLedger⟩,
    .acceptedNativeWithdrawalRequest request1,
    .acceptedErc20WithdrawalRequest request2,
    .createdTransaction 20 tx1,
    .signedTransaction 20 ⟨tx1, sig⟩,
    .upgrade { nextTransactionNonce := some 5 },
    .createdTransaction 21 { tx2 with nonce := 5 },
    .signedTransaction 21 ⟨{ tx2 with nonce := 5 }, sig⟩ ]

/-- **C13 does not hold for all histories**: after an upgrade that lowers the next nonce, the canister accepts a
history in which two withdrawals have signed transactions with the same nonce (so the chain executes at most one of
them), and the second withdrawal is in no stage of the pipeline. -/
theorem C13_violated_when_nonce_lowered :
    ∃ log s, replay log = .ok s ∧ ¬ (createdNonces log).Pairwise (· < ·) ∧
      (∃ tx tx' : SignedTx, .signedTransaction 20 tx ∈ log ∧ .signedTransaction 21 tx' ∈ log ∧
        tx.tx.nonce = tx'.tx.nonce ∧ tx.tx.destination ≠ tx'.tx.destination) ∧
      count (isRequestOf 21) log = 1 ∧ profile s.txs 21 = ⟨0, false, false, false⟩ := by
  obtain ⟨s, hs, hp⟩ := of_checkLog (l := loweredLog)
    (p := fun s => profile s.txs 21 == ⟨0, false, false, false⟩) (by decide +kernel)
  exact ⟨loweredLog, s, hs, by decide, ⟨⟨tx1, sig⟩, ⟨{ tx2 with nonce := 5 }, sig⟩, by decide, by decide, by decide,
    by decide⟩, by decide, by simpa using hp⟩

end Example

end EvmMinter
