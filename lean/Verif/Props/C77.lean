import Verif.Lemmas.Nonces
import Verif.Props.C75
import Verif.Spec.ExampleWatch
/-!
# C77: withdrawals are served in the end
-/

namespace EvmMinter
open Spec Transactions

section
variable [Keccak]

/-! ## Events that leave the queue alone -/

/-- The event signs, replaces or finalizes a transaction. -/
def Event.tame : Event → Bool
  | .signedTransaction _ _ | .replacedTransaction _ _ | .finalizedTransaction _ _ => true
  | _ => false

theorem processEvents_tame : ∀ {l : List Event} {m m' : Minter}, m.st.txs.MapsWF → (∀ e ∈ l, e.tame = true) → m.processEvents l = .ok m' →
    m'.st.txs.pending = m.st.txs.pending ∧ m'.log = m.log ++ l := by
  intro l
  induction l with
  | nil => intro m m' _ _ h; cases h; simp
  | cons e t ih =>
    intro m m' w hl h
    simp only [Minter.processEvents, Res.bind_ok, Minter.processEvent, Res.pure_ok] at h
    obtain ⟨m₁, ⟨s₁, h1, rfl⟩, h2⟩ := h
    have hx := applyEvent_txs h1
    have he := hl e (by simp)
    have key : s₁.txs.pending = m.st.txs.pending ∧ s₁.txs.MapsWF := by
      cases e <;> simp only [Event.tame, Bool.false_eq_true] at he
      · simp only [txEvent] at hx
        obtain ⟨i, c, cr, sn, k1, _, ⟨o, k2⟩, k3, e⟩ := recordSignedTransaction_ok hx
        rw [e]
        refine ⟨rfl, MKM.removeEntry_wf w.cw k2, ?_, w.fw⟩
        rcases k3 with ⟨i', l, k3, rfl⟩ | ⟨_, k4⟩
        · exact MKM.update_wf w.sw k3
        · exact MKM.tryInsert_wf w.sw k4
      · simp only [txEvent] at hx
        obtain ⟨i, sl, last, c1, c2, k1, _, _, ⟨o, k2⟩, k3, e⟩ := recordResubmitTransaction_ok hx
        rw [e]
        exact ⟨rfl, MKM.tryInsert_wf (MKM.removeEntry_wf w.cw k2) k3, w.sw, w.fw⟩
      · simp only [txEvent] at hx
        obtain ⟨_, _, _, _, _, _, _, _, _, _, _, _, ⟨_, k1⟩, ⟨_, k2⟩, k3, _, _, ⟨_, e⟩ | ⟨_, _, _, _, e⟩⟩ := recordFinalizedTransaction_ok w hx
        · rw [e]
          exact ⟨rfl, MKM.removeEntry_wf w.cw k2, MKM.removeEntry_wf w.sw k1, MKM.tryInsert_wf w.fw k3⟩
        · rw [e]
          exact ⟨rfl, MKM.removeEntry_wf w.cw k2, MKM.removeEntry_wf w.sw k1, MKM.tryInsert_wf w.fw k3⟩
    obtain ⟨g1, g2⟩ := ih (m := ⟨s₁, m.log ++ [e]⟩) key.2 (fun e' h' => hl e' (by simp [h'])) h2
    exact ⟨g1.trans key.1, by rw [g2]; simp⟩

/-- The queue is as it was, and no transaction is created. -/
def Still (m m' : Minter) : Prop :=
  m'.st.txs.pending = m.st.txs.pending ∧ ∃ es, m'.log = m.log ++ es ∧ ∀ i tx, Event.createdTransaction i tx ∉ es

theorem Still.refl (m : Minter) : Still m m := ⟨rfl, [], by simp⟩

theorem still_of_tame {l : List Event} {m m' : Minter} (w : m.st.txs.MapsWF) (hl : ∀ e ∈ l, e.tame = true) (h : m.processEvents l = .ok m') :
    Still m m' := by
  obtain ⟨h1, h2⟩ := processEvents_tame w hl h
  exact ⟨h1, l, h2, fun i tx hm => by have := hl _ hm; cases this⟩

theorem still_of_eq {m m' : Minter} (h : m' = m) : Still m m' := h ▸ .refl m

theorem recordReceipts_still {m m' : Minter} (w : m.st.txs.MapsWF) {f : FMap Hash LedgerBurnIndex} {l : List Minter.ReceiptResult}
    (h : m.recordReceipts f l = .ok m') : Still m m' := by
  unfold Minter.recordReceipts at h
  split at h
  · cases h; exact .refl m
  · simp only [Res.bind_ok] at h
    obtain ⟨_, _, h⟩ := h
    refine still_of_tame w (fun e he => ?_) h
    obtain ⟨x, _, rfl⟩ := List.mem_map.1 he
    rfl

/-- Requests leave the queue only when the transaction count arrives. -/
theorem resume_still {c c' : Mem} {now : Nat} {t : ExtTask} {a : ExtAnswer} {n : Next} (w : c.m.st.txs.MapsWF) (ht : t.retrieves = true)
    (hg : ∀ g, t ≠ .retrieveCount g) (h : t.resume c now a = some (.ok (c', n))) : Still c.m c'.m := by
  cases t <;> simp only [ExtTask.retrieves, Bool.false_eq_true] at ht <;>
    cases a <;> simp only [ExtTask.resume, Option.some.injEq, reduceCtorEq] at h
  · rename_i g
    refine still_of_eq ?_
    unfold Mem.onRetrieveGas Mem.retrieveEnd at h
    cases g <;> (simp only [Except.ok.injEq, Prod.mk.injEq] at h; obtain ⟨rfl, _⟩ := h; rfl)
  · rename_i g _
    exact absurd rfl (hg g)
  · unfold Mem.onSignatures at h
    simp only [Res.bind_ok] at h
    obtain ⟨m, hm, h⟩ := h
    rw [Mem.retrieveSend_m h]
    refine still_of_tame w (fun e he => ?_) hm
    obtain ⟨x, _, hx⟩ := List.mem_filterMap.1 he
    obtain ⟨sig, _, rfl⟩ := Option.map_eq_some_iff.1 hx
    rfl
  · simp only [Except.ok.injEq] at h
    refine still_of_eq ?_
    unfold Mem.retrieveFinalize Mem.retrieveEnd at h
    split at h <;> (cases h; rfl)
  · rename_i k
    unfold Mem.onFinalizedCount at h
    cases k with
    | none =>
      simp only [Except.ok.injEq, Mem.retrieveEnd, Prod.mk.injEq] at h
      obtain ⟨rfl, _⟩ := h; exact .refl _
    | some k =>
      simp only [Res.bind_ok] at h
      obtain ⟨f, _, h⟩ := h
      split at h
      · unfold Mem.onReceipts at h
        simp only [Res.bind_ok, Res.pure_ok, Mem.retrieveEnd, Prod.mk.injEq] at h
        obtain ⟨_, h, rfl, _⟩ := h
        exact recordReceipts_still w h
      · simp only [Res.pure_ok, Prod.mk.injEq] at h
        obtain ⟨rfl, _⟩ := h; exact .refl _
  · unfold Mem.onReceipts at h
    simp only [Res.bind_ok, Res.pure_ok, Mem.retrieveEnd, Prod.mk.injEq] at h
    obtain ⟨_, h, rfl, _⟩ := h
    exact recordReceipts_still w h

/-- When 1000 nonces are in use, no transaction is created. -/
theorem create_still {c c' : Mem} {g : GasFeeEstimate} {count : Option TransactionCount} {n : Next} (h : Run c.m.log c.m.st)
    (hn : NonceNeverLowered c.m.log) (hg : g.Bounded) {inUse : List TransactionNonce} (hd : inUse.Nodup)
    (hu : ∀ n, n ∈ inUse ↔ InUse c.m.st n) (hl : 1000 ≤ inUse.length) (hr : c.retrieveCreate g count = .ok (c', n)) : Still c.m c'.m := by
  obtain ⟨m1, out, k1, k2, k3, k4, _, k5, _, _⟩ := run_resubmitBatch h hn hg count
  obtain ⟨u1, _, _⟩ := resubmitBatch_keeps h hn k1
  have hb : m1.st.txs.requestsBatch 5 = [] := by
    rw [requestsBatch_eq k2 k3 5 hd (fun n => by rw [hu, u1]), show 1000 - inUse.length = 0 by omega, Nat.zero_min, List.take_zero]
  unfold Mem.retrieveCreate at hr
  simp only [k1, Res.ok_bind, Minter.createBatch, hb, Minter.createLoop, Res.bind_ok] at hr
  obtain ⟨batch, _, hr⟩ := hr
  have hm : c'.m = m1 := by
    split at hr
    · rw [Mem.retrieveSend_m hr]
    · simp only [Res.pure_ok, Prod.mk.injEq] at hr
      rw [← hr.1]
  rw [hm]
  refine ⟨k5, _, k4, fun i tx hm => ?_⟩
  obtain ⟨x, _, hx⟩ := List.mem_map.1 hm
  cases hx

/-! ## The queue -/

variable {ρ : Nat → World} {α : Nat → ExtAnswer} {N M : Nat}

/-- While there is room, a request comes forward whenever the transaction count arrives. -/
theorem Spec.Serving.advances (S : Serving ρ α N) (E : Endless ρ) {j : Nat} (hj : N ≤ j) {g : GasFeeEstimate} (hat : At (ρ j) (.retrieveCount g))
    {k : Option TransactionCount} (hh : Hears ρ α j (.retrieveCount g) (.count k)) {inUse : List TransactionNonce} (hd : inUse.Nodup)
    (hu : ∀ n, n ∈ inUse ↔ InUse (ρ j).mem.m.st n) (hroom : inUse.length < 1000) {r : Request} (ha : Affordable g r) {pre post : List Request}
    (hp : (ρ j).mem.m.st.txs.pending = pre ++ r :: post) :
    r ∉ (ρ (j + 1)).mem.m.st.txs.pending ∨
      ∃ pre' post', (ρ (j + 1)).mem.m.st.txs.pending = pre' ++ r :: post' ∧ pre'.length < pre.length := by
  obtain ⟨inv, _⟩ := run_txInv (S.run E hj) (S.never E hj)
  have hpos : 0 < min 5 (1000 - inUse.length) := by omega
  generalize hb : min 5 (1000 - inUse.length) = b at hpos
  obtain ⟨h1, _⟩ := S.create E hj hat hh hd hu (List.take_append_drop b _).symm (by
    rw [List.length_take, List.drop_eq_nil_iff, hb]; omega)
  rw [h1, hp]
  by_cases hlt : pre.length < b
  · left
    intro hr
    have hnd := inv.pend
    rw [hp, List.pairwise_append, List.pairwise_cons] at hnd
    rcases List.mem_append.1 hr with hr | hr
    · rw [List.drop_append, List.drop_of_length_le (by omega), List.nil_append, show b - pre.length = (b - pre.length - 1) + 1 by omega,
        List.drop_succ_cons] at hr
      exact hnd.2.1.1 r (List.mem_of_mem_drop hr) rfl
    · have := (List.mem_filter.1 hr).2
      simp [ha] at this
  · right
    refine ⟨pre.drop b, post ++ (List.take b (pre ++ r :: post)).filter (fun r => !decide (Affordable g r)), ?_, by rw [List.length_drop]; omega⟩
    rw [List.drop_append_of_le_length (by omega)]
    simp

/-- What happens to a request in the queue at a time. -/
theorem Spec.Serving.queued (S : Serving ρ α N) (E : Endless ρ) {j : Nat} (hj : N ≤ j) {r : Request}
    (ha : ∀ g, At (ρ j) (.retrieveCount g) → Affordable g r) {pre post : List Request} (hp : (ρ j).mem.m.st.txs.pending = pre ++ r :: post) :
    (∃ post', (ρ (j + 1)).mem.m.st.txs.pending = pre ++ r :: post' ∧
      ∀ i tx, Event.createdTransaction i tx ∈ (ρ (j + 1)).mem.m.log → Event.createdTransaction i tx ∈ (ρ j).mem.m.log) ∨
    r ∉ (ρ (j + 1)).mem.m.st.txs.pending ∨
      ∃ pre' post', (ρ (j + 1)).mem.m.st.txs.pending = pre' ++ r :: post' ∧ pre'.length < pre.length := by
  have still : Still (ρ j).mem.m (ρ (j + 1)).mem.m → ∃ post', (ρ (j + 1)).mem.m.st.txs.pending = pre ++ r :: post' ∧
      ∀ i tx, Event.createdTransaction i tx ∈ (ρ (j + 1)).mem.m.log → Event.createdTransaction i tx ∈ (ρ j).mem.m.log := by
    rintro ⟨h1, es, h2, h3⟩
    refine ⟨post, by rw [h1, hp], fun i tx hm => ?_⟩
    rw [h2] at hm
    exact (List.mem_append.1 hm).resolve_right (h3 i tx)
  have inv := (run_txInv (S.run E hj) (S.never E hj)).1
  rcases S.move E hj with hs | ⟨pre₁, post₁, id, t, o, a, now, c, n, h1, h2, hty, h3, h4⟩
  · left
    obtain ⟨x, hx⟩ := hs.queue
    obtain ⟨es, h2, h3⟩ := hs.log
    refine ⟨post ++ x, by rw [← hx, hp]; simp, fun i tx hm => ?_⟩
    rw [h2] at hm
    refine (List.mem_append.1 hm).resolve_right fun h => (h3 _ h).1 rfl
  · by_cases hg : ∃ g, t = .retrieveCount g
    · obtain ⟨g, rfl⟩ := hg
      have hmem : ⟨id, .ext (.retrieveCount g), o⟩ ∈ (ρ j).tasks := by rw [h1]; simp
      obtain ⟨inUse, u1, u2⟩ := exists_inUse (S.run E hj) (S.never E hj)
      by_cases hroom : inUse.length < 1000
      · have hr := S.told j hj _ a h2 ⟨pre₁, post₁, id, o, now, h1, hty, .inl ⟨c, n, h3, h4⟩⟩
        have hshape : ∃ k, α j = .count k := by
          obtain ⟨_, _, _, _, _, _, _, h⟩ := hr
          generalize α j = b at h
          cases b with
          | count k => exact ⟨k, rfl⟩
          | _ => rcases h with ⟨_, _, h, _⟩ | ⟨_, _, h, _⟩ <;> simp [ExtTask.resume] at h
        obtain ⟨k, hk⟩ := hshape
        rw [hk] at hr
        exact .inr (S.advances E hj ⟨id, o, hmem⟩ ⟨hr, hk⟩ u1 u2 hroom (ha g ⟨id, o, hmem⟩) hp)
      · left
        have hc : ∃ k, (ρ j).mem.retrieveCreate g k = .ok (c, n) := by
          cases a with
          | count k => exact ⟨k, by simpa only [ExtTask.resume, Option.some.injEq] using h3⟩
          | _ => simp [ExtTask.resume] at h3
        obtain ⟨k, hc⟩ := hc
        have hst := create_still (S.run E hj) (S.never E hj) ((runInv (E.reachable j) (S.never E hj)).claim _ hmem) u1 u2 (by omega) hc
        exact still (by rw [h4]; exact hst)
    · left
      have hst := resume_still ⟨inv.cw, inv.sw, inv.fw⟩ h2 (fun g e => hg ⟨g, e⟩) h3
      exact still (by rw [h4]; exact hst)

theorem Spec.Serving.settles_all (S : Serving ρ α N) (E : Endless ρ) (hm : Mines ρ α) {i : Nat} (hi : N ≤ i) (m : Nat)
    (hle : m ≤ (ρ i).mem.m.st.txs.nextNonce) : ∃ e, i ≤ e ∧ ∀ j, e ≤ j → ∀ n < m, ¬ InUse (ρ j).mem.m.st n := by
  induction m with
  | zero => exact ⟨i, Nat.le_refl i, fun _ _ n' h => absurd h (Nat.not_lt_zero _)⟩
  | succ m ih =>
    obtain ⟨e, h1, h2⟩ := ih (Nat.le_of_succ_le hle)
    obtain ⟨e', h3, h4⟩ := S.settles E hm hi m (Nat.lt_of_succ_le hle)
    refine ⟨max e e', by omega, fun j hj n' hn' => ?_⟩
    rcases Nat.lt_succ_iff_lt_or_eq.1 hn' with h | rfl
    · exact h2 j (by omega) n' h
    · exact h4 j (by omega)

/-- A request does not stay in the queue for ever. -/
theorem Spec.Serving.taken (S : Serving ρ α N) (E : Endless ρ) (hm : Mines ρ α) {r : Request} (hNM : N ≤ M)
    (ha : ∀ j, M ≤ j → ∀ g, At (ρ j) (.retrieveCount g) → Affordable g r) (d : Nat) : ∀ {i : Nat} {pre post : List Request}, M ≤ i →
    (ρ i).mem.m.st.txs.pending = pre ++ r :: post → pre.length = d → ∃ j, i ≤ j ∧ r ∉ (ρ j).mem.m.st.txs.pending := by
  induction d using Nat.strongRecOn with
  | _ d ih =>
    intro i pre post hi hp hd
    subst hd
    apply Classical.byContradiction
    intro hno
    have hall : ∀ j, i ≤ j → r ∈ (ρ j).mem.m.st.txs.pending := fun j hj => Classical.byContradiction fun h => hno ⟨j, hj, h⟩
    have forward : ∀ j, i ≤ j → ∀ pre' post', (ρ j).mem.m.st.txs.pending = pre' ++ r :: post' → ¬ pre'.length < pre.length := by
      intro j hj pre' post' hp' hlt
      obtain ⟨j', h1, h2⟩ := ih _ hlt (i := j) (Nat.le_trans hi hj) hp' rfl
      exact h2 (hall j' (Nat.le_trans hj h1))
    have claim : ∀ j, i ≤ j → (∃ post', (ρ j).mem.m.st.txs.pending = pre ++ r :: post') ∧
        ∀ k tx, Event.createdTransaction k tx ∈ (ρ j).mem.m.log → Event.createdTransaction k tx ∈ (ρ i).mem.m.log := by
      intro j hj
      induction hj with
      | refl => exact ⟨⟨post, hp⟩, fun _ _ h => h⟩
      | step hj ihj =>
        rename_i j
        obtain ⟨⟨post', hp'⟩, hc⟩ := ihj
        rcases S.queued E (j := j) (Nat.le_trans hNM (Nat.le_trans hi hj)) (ha j (Nat.le_trans hi hj)) hp' with ⟨post'', h1, h2⟩ | h | ⟨pre'', post'', h1, h2⟩
        · exact ⟨⟨post'', h1⟩, fun k tx hk => hc k tx (h2 k tx hk)⟩
        · exact absurd (hall (j + 1) (Nat.le_succ_of_le hj)) h
        · exact absurd h2 (forward (j + 1) (Nat.le_succ_of_le hj) _ _ h1)
    have hN := Nat.le_trans hNM hi
    obtain ⟨e, he, hnone⟩ := S.settles_all E hm hN _ (Nat.le_refl _)
    have hfree : ∀ j, e ≤ j → ∀ n, ¬ InUse (ρ j).mem.m.st n := by
      intro j hj n hu
      have hNj : N ≤ j := by omega
      obtain ⟨k, tx, h1, h2, _⟩ := (inUse_log (S.run E hNj) (S.never E hNj)).1 hu
      have h3 := (claim j (by omega)).2 k tx h1
      have h4 := (run_txInv (S.run E hN) (S.never E hN)).2.1.nonces.2 n (mem_createdNonces.2 ⟨k, tx, h3, h2⟩)
      exact hnone j hj n h4 hu
    obtain ⟨j, g, k, hj, hat, hh⟩ := S.counts E (i := e) (by omega) fun j hj => .inl (by
      obtain ⟨post', h⟩ := (claim j (by omega)).1
      rw [h]; simp)
    obtain ⟨post', hp'⟩ := (claim j (by omega)).1
    rcases S.advances E (j := j) (by omega) hat hh (inUse := []) .nil (fun n => by simp [hfree j hj n]) (by simp)
      (ha j (by omega) g hat) hp' with h | ⟨pre'', post'', h1, h2⟩
    · exact h (hall (j + 1) (by omega))
    · exact forward (j + 1) (by omega) _ _ h1 h2

/-- **C77.** In every endless execution in which, from some time on, the timer that sends withdrawals fires again and again, its calls return
with answers that are of use, and the chain mines in the order of the nonces what is offered to it again and again: every withdrawal
accepted is finalized in the end, if from some time on its amount pays for the transaction at the estimated fees. -/
theorem C77_served (E : Endless ρ) (S : Serving ρ α N) (hm : Mines ρ α) {r : Request} {i : Nat} (hr : r.intoEvent ∈ (ρ i).mem.m.log)
    (ha : ∀ j, M ≤ j → ∀ id g o, ⟨id, .ext (.retrieveCount g), o⟩ ∈ (ρ j).tasks → Affordable g r) :
    ∃ j rc, Event.finalizedTransaction r.burnIndex rc ∈ (ρ j).mem.m.log := by
  -- the request leaves the queue
  have hk : ∃ k, N ≤ k ∧ (ρ k).mem.m.st.txs.processed.get r.burnIndex = some r := by
    have hle : ∃ k, max N M ≤ k ∧ i ≤ k := ⟨max i (max N M), by omega, by omega⟩
    obtain ⟨k, hk, hik⟩ := hle
    have acc : ∀ j, k ≤ j → r.intoEvent ∈ (ρ j).mem.m.log := by
      intro j hj
      obtain ⟨es, h⟩ := (grows_between E (Nat.le_trans hik hj)).log
      rw [h]; simp [hr]
    have hdone : ∃ j, k ≤ j ∧ r ∉ (ρ j).mem.m.st.txs.pending := by
      by_cases hp : r ∈ (ρ k).mem.m.st.txs.pending
      · obtain ⟨pre, post, hp⟩ := List.append_of_mem hp
        exact S.taken E hm (M := max N M) (by omega) (fun j hj g hat => by
          obtain ⟨id, o, hat⟩ := hat
          exact ha j (by omega) id g o hat) _ hk hp rfl
      · exact ⟨k, Nat.le_refl k, hp⟩
    obtain ⟨j, hj, hp⟩ := hdone
    have hN : N ≤ j := by omega
    exact ⟨j, hN, (((run_txInv (S.run E hN) (S.never E hN)).2.1.acc r).1 (acc j hj)).resolve_left hp⟩
  obtain ⟨k, hN, hproc⟩ := hk
  -- the nonce of its transaction does not stay in use
  obtain ⟨inv, tl, _⟩ := run_txInv (S.run E hN) (S.never E hN)
  obtain ⟨n, core, hcore⟩ := Core.of_processed inv hproc
  obtain ⟨tx, h1, h2, _⟩ := tl.core3 _ _ _ hcore
  obtain ⟨e, he, hnot⟩ := S.settles E hm hN n (Core.processed inv hcore).1
  have hNe := Nat.le_trans hN he
  obtain ⟨es, hes⟩ := (grows_between E he).log
  refine ⟨e, ?_⟩
  apply Classical.byContradiction
  intro hno
  exact hnot e (Nat.le_refl e) ((inUse_log (S.run E hNe) (S.never E hNe)).2 ⟨_, tx, by rw [hes]; simp [h1], h2, fun rc hrc => hno ⟨rc, hrc⟩⟩)

/-- **C77.** What is asked of amounts in `Serving` holds when the ledgers follow the standards (layer 7), the native ledger is not registered
for a token, and less than `2^256 - 1` was ever minted on it. -/
theorem C77_amounts {w : World} {B : Bank} (h : Banked w B) (hreg : w.mem.m.st.erc20Tokens.getEntry w.mem.m.st.nativeLedgerId = none)
    (hlt : w.minted w.mem.m.st.nativeLedgerId < 2 ^ 256 - 1) :
    w.Sound ∧ (∀ q, Event.acceptedNativeWithdrawalRequest q ∈ w.mem.m.log → q.withdrawalAmount < 2 ^ 256 - 1) ∧
      ∀ q, Event.acceptedErc20WithdrawalRequest q ∈ w.mem.m.log → 0 < q.withdrawalAmount :=
  ⟨⟨(C75_supply h _).1, Nat.lt_of_le_of_lt (C75_supply h _).1 hlt, hreg, fun l _ _ _ => (C75_supply h l).1⟩,
    fun q hq => Nat.lt_of_le_of_lt ((C75_amounts h).1 q hq).2 hlt, fun q hq => ((C75_amounts h).2 q hq).1⟩

end

namespace Example
attribute [local instance] keccak

/-- The order in which the receipts of the two transactions are asked for. -/
def minedHashes : List Hash := if nativeTx.hash < usdcTx.hash then [nativeTx.hash, usdcTx.hash] else [usdcTx.hash, nativeTx.hash]

/-- One round with both withdrawals of C55; then the first, which failed, is given back. -/
def service : List Action := [.start (.retrieve (some gasEstimate)) 40, .answer 0 (.count (some 5)) 41,
  .answer 0 (.signatures [some sig, some sig]) 42, .answer 0 .sent 43, .answer 0 (.count (some 7)) 44,
  .answer 0 (.receipts (minedHashes.map bothMined)) 45, .start .reimbursement 50, .execute 0, .deliver 0 52]

/-- After this the two timers fire in turn for ever. -/
def serviceAction (i : Nat) : Action :=
  service[i]?.getD (if i % 2 = 0 then .start (.retrieve (some gasEstimate)) 9 else .start .reimbursement 9)

def serve (w₀ : World) : Nat → World
  | 0 => w₀
  | i + 1 => ((serve w₀ i).act (serviceAction i)).getD (serve w₀ i)

/-- What goes on at a time: the only task is answered, and the answer is of use. -/
def servedB (w : World) (x : Action) : Bool :=
  match w.tasks with
  | [] => true
  | [⟨_, .ext t, _⟩] =>
    (w.act x).isSome &&
    match x with
    | .answer 0 a _ =>
      match t, a with
      | .retrieveCount g, .count (some _) => decide (g = gasEstimate)
      | .retrieveSign _ batch, .signatures sigs => decide (batch.length ≤ sigs.length) && !sigs.contains none
      | .retrieveSend _, .sent => true
      | .retrieveFinalizedCount, .count (some _) => true
      | .retrieveReceipts f, .receipts _ => decide (f.keys = minedHashes) && minedCheck w.mem.m.st f bothMined
      | _, _ => false
    | _ => false
  | [⟨_, .ledger (.reimburse _ _ _ _), none⟩] | [⟨_, .ledger (.reimburse _ _ _ _), some (.block _)⟩] => true
  | _ => false

/-- The bounds. -/
def boundsB (w : World) : Bool :=
  (w.mem.m.log.all fun
    | .acceptedNativeWithdrawalRequest q => decide (q.withdrawalAmount ≤ 10 ^ 18)
    | .acceptedErc20WithdrawalRequest q => decide (0 < q.withdrawalAmount)
    | .upgrade _ | .syncedToBlock _ | .quarantinedReimbursement _ => false
    | _ => true) &&
  decide (w.mem.m.st.txs.nextNonce ≤ 10) &&
  (w.mem.m.st.txs.sent.byAlt.toList.all fun x => x.2.all fun y => w.mem.m.st.txs.sent.byAlt.toList.all fun x' => x'.2.all fun y' =>
    decide (y.transaction.hash ≠ y'.transaction.hash ∨ x.1 = x'.1)) &&
  decide (w.burned w.mem.m.st.nativeLedgerId ≤ w.minted w.mem.m.st.nativeLedgerId ∧ w.burned w.mem.m.st.nativeLedgerId ≤ 10 ^ 18 ∧
    w.mem.m.st.erc20Tokens.getEntry w.mem.m.st.nativeLedgerId = none) &&
  (w.blocks.all fun b => decide (w.burned b.call.ledger ≤ w.minted b.call.ledger))

/-- Nothing is going on, and there is nothing to do. -/
def _root_.EvmMinter.Spec.World.spare (w : World) : Bool := w.idle && !w.mem.m.st.txs.hasPending

def servesB (w₀ : World) : Bool :=
  (List.range 10).all (fun i => servedB (serve w₀ i) (serviceAction i)) && (List.range 10).all (fun i => boundsB (serve w₀ i)) &&
  ((serve w₀ 9).spare && (match w₀.mem.m.st.txs.pending with
    | [r, r'] => (serve w₀ 9).mem.m.log.contains (.finalizedTransaction r.burnIndex nativeReceipt) &&
        (serve w₀ 9).mem.m.log.contains (.finalizedTransaction r'.burnIndex usdcReceipt)
    | _ => false)) &&
  (decide (w₀.mem.m.st.txs.pending.length = 2) && (w₀.mem.m.st.txs.pending.all fun r => decide (Affordable gasEstimate r)))

theorem servesB_true : after initArg sending.dropLast.dropLast servesB = true := by decide +kernel

theorem service_length : service.length = 9 := rfl

theorem serviceAction_late {i : Nat} (hi : 9 ≤ i) :
    serviceAction i = if i % 2 = 0 then .start (.retrieve (some gasEstimate)) 9 else .start .reimbursement 9 := by
  unfold serviceAction
  rw [List.getElem?_eq_none (by rw [service_length]; omega), Option.getD_none]

/-- The timer fires with nothing to do. -/
theorem spare_start {w : World} (h : w.spare = true) :
    w.act (.start (.retrieve (some gasEstimate)) 9) =
      some ((w.begin (.retrieve (some gasEstimate))).advance w.tasks [] w.nextId w.mem (.finish none)) := by
  obtain ⟨⟨id, m, lo, lt, active, ps⟩, blocks, tasks, nextId, started, finished, trace⟩ := w
  simp only [World.spare, World.idle, Bool.and_eq_true, List.isEmpty_iff, Bool.not_eq_true'] at h
  obtain ⟨⟨⟨h1, h2⟩, -⟩, h3⟩ := h
  subst h1 h2
  have ht : (Message.retrieve (some gasEstimate)).Typed := by decide
  simp [World.act, ht, Message.run, Mem.startRetrieve, Mem.acquire, h3, Mem.retrieveEnd, Mem.release]

theorem serve_endless {w₀ : World} (h : Reachable w₀) : Endless (serve w₀) := by
  refine ⟨h, fun i => ?_⟩
  simp only [serve]
  cases ha : (serve w₀ i).act (serviceAction i) with
  | none => exact .inl rfl
  | some w' => exact .inr (World.act_step ha)

theorem serve_late {w₀ : World} (h : (serve w₀ 9).spare = true) (k : Nat) :
    (serve w₀ (9 + k)).tasks = [] ∧ (serve w₀ (9 + k)).mem = (serve w₀ 9).mem ∧ (serve w₀ (9 + k)).blocks = (serve w₀ 9).blocks := by
  have ht : (serve w₀ 9).tasks = [] := by
    simp only [World.spare, World.idle, Bool.and_eq_true, List.isEmpty_iff] at h; exact h.1.1.1
  induction k with
  | zero => exact ⟨ht, rfl, rfl⟩
  | succ k ih =>
    obtain ⟨k1, k2, k3⟩ := ih
    have hs : (serve w₀ (9 + k)).spare = true := by
      simp only [World.spare, World.idle, k1, k2]
      simp only [World.spare, World.idle, ht] at h
      exact h
    have e : ∃ msg, serve w₀ (9 + (k + 1)) =
        ((serve w₀ (9 + k)).begin msg).advance (serve w₀ (9 + k)).tasks [] (serve w₀ (9 + k)).nextId (serve w₀ (9 + k)).mem (.finish none) := by
      show ∃ msg, ((serve w₀ (9 + k)).act (serviceAction (9 + k))).getD _ = _
      rw [serviceAction_late (by omega)]
      split
      · exact ⟨_, by rw [spare_start hs, Option.getD_some]⟩
      · simp only [World.spare, Bool.and_eq_true] at hs
        exact ⟨_, by rw [idle_start hs.1, Option.getD_some]⟩
    obtain ⟨msg, e⟩ := e
    rw [e]
    exact ⟨by simp [World.advance, World.begin, Next.pending, k1], k2, k3⟩

theorem serve_starts {w₀ : World} {i : Nat} (hi : 9 ≤ i) :
    (i % 2 = 0 → Starts (serve w₀ i) (serve w₀ (i + 1)) (.retrieve (some gasEstimate))) ∧
      (i % 2 = 1 → Starts (serve w₀ i) (serve w₀ (i + 1)) .reimbursement) := by
  constructor <;> intro h
  · obtain ⟨w', h1, h2⟩ := start_starts (w := serve w₀ i) (msg := .retrieve (some gasEstimate)) (now := 9) (by decide)
    simp only [serve, serviceAction_late hi, if_pos h, h1, Option.getD_some]
    exact h2
  · obtain ⟨w', h1, h2⟩ := start_starts (w := serve w₀ i) (msg := .reimbursement) (now := 9) (by decide)
    simp only [serve, serviceAction_late hi, if_neg (by omega : ¬ i % 2 = 0), h1, Option.getD_some]
    exact h2

/-- An answer is given to the only task. -/
theorem answer_receives {w w' : World} {id now : Nat} {t : ExtTask} {o : Option LedgerAnswer} {a : ExtAnswer} (h : w.tasks = [⟨id, .ext t, o⟩])
    (ha : w.act (.answer 0 a now) = some w') : Receives w w' t a := by
  simp only [World.act, h, List.getElem?_cons_zero] at ha
  split at ha
  · rename_i hty
    split at ha
    · rename_i c m hr
      cases ha
      exact ⟨[], [], id, o, now, h, hty, .inl ⟨c, m, hr, rfl⟩⟩
    · rename_i e hr
      split at ha
      · rename_i c hc
        cases ha
        exact ⟨[], [], id, o, now, h, hty, .inr ⟨e, c, hr, rfl⟩⟩
      · cases ha
    · cases ha
  · cases ha

/-- What the answer to a task is like. -/
def Useful (w : World) : ExtTask → ExtAnswer → Prop
  | .retrieveCount g, a => g = gasEstimate ∧ ∃ k, a = .count (some k)
  | .retrieveSign _ batch, a => ∃ sigs, a = .signatures sigs ∧ batch.length ≤ sigs.length ∧ none ∉ sigs
  | .retrieveSend _, a => a = .sent
  | .retrieveFinalizedCount, a => ∃ k, a = .count (some k)
  | .retrieveReceipts f, _ => f.keys = minedHashes ∧ Mined w.mem.m.st f bothMined
  | _, _ => False

theorem served_task {w : World} {x : Action} (h : servedB w x = true) {id : Nat} {t : ExtTask} {o : Option LedgerAnswer}
    (hp : ⟨id, .ext t, o⟩ ∈ w.tasks) :
    ∃ a now w', w.tasks = [⟨id, .ext t, o⟩] ∧ x = .answer 0 a now ∧ w.act x = some w' ∧ Useful w t a := by
  unfold servedB at h
  split at h
  · rename_i e; rw [e] at hp; cases hp
  · rename_i id' t' o' e
    rw [e, List.mem_singleton] at hp
    cases hp
    simp only [Bool.and_eq_true] at h
    obtain ⟨h1, h2⟩ := h
    obtain ⟨w', hw⟩ := Option.isSome_iff_exists.1 h1
    split at h2
    · rename_i a now
      refine ⟨a, now, w', e, rfl, hw, ?_⟩
      split at h2
      · exact ⟨of_decide_eq_true h2, _, rfl⟩
      · simp only [Bool.and_eq_true, decide_eq_true_eq, Bool.not_eq_true', List.contains_eq_mem, decide_eq_false_iff_not] at h2
        exact ⟨_, rfl, h2.1, h2.2⟩
      · rfl
      · exact ⟨_, rfl⟩
      · simp only [Bool.and_eq_true, decide_eq_true_eq] at h2
        exact ⟨h2.1, minedCheck_sound h2.2⟩
      · cases h2
    · cases h2
  · rename_i e; rw [e, List.mem_singleton] at hp; cases hp
  · rename_i e; rw [e, List.mem_singleton] at hp; cases hp
  · cases h

theorem served_ledger {w : World} {x : Action} (h : servedB w x = true) {id : Nat} {t : LedgerTask} {o : Option LedgerAnswer}
    (hp : ⟨id, .ledger t, o⟩ ∈ w.tasks) : (∃ x r l rest, t = .reimburse x r l rest) ∧ ∀ a, o = some a → ∃ b, a = .block b := by
  unfold servedB at h
  split at h
  · rename_i e; rw [e] at hp; cases hp
  · rename_i e; rw [e, List.mem_singleton] at hp; cases hp
  · rename_i e; rw [e, List.mem_singleton] at hp; cases hp
    exact ⟨⟨_, _, _, _, rfl⟩, fun a h => by cases h⟩
  · rename_i e; rw [e, List.mem_singleton] at hp; cases hp
    exact ⟨⟨_, _, _, _, rfl⟩, fun a h => by cases h; exact ⟨_, rfl⟩⟩
  · cases h

attribute [local irreducible] serve

/-- An endless execution in which both withdrawals of C55 are served: the first fails on the chain, and is given back. -/
theorem service_example : ∃ ρ α, Endless ρ ∧ Serving ρ α 0 ∧ Mines ρ α ∧ Steady ρ 0 ∧ (∀ x, RepaysFrom ρ 0 x) ∧
    (∃ w₀, servesB w₀ = true ∧ ρ = serve w₀) ∧ (ρ 0).mem.m.st.txs.pending.length = 2 ∧
    ∀ r ∈ (ρ 0).mem.m.st.txs.pending, r.intoEvent ∈ (ρ 0).mem.m.log ∧
      ∀ j, 0 ≤ j → ∀ id g o, ⟨id, .ext (.retrieveCount g), o⟩ ∈ (ρ j).tasks → Affordable g r := by
  obtain ⟨w₀, h0, hc⟩ := after_reachable servesB_true
  have hw₀ := hc
  simp only [servesB, Bool.and_eq_true, decide_eq_true_eq] at hc
  obtain ⟨⟨⟨c1, c2⟩, c3, -⟩, c6, c7⟩ := hc
  have E := serve_endless h0
  have late : ∀ i, 9 ≤ i → (serve w₀ i).tasks = [] ∧ (serve w₀ i).mem = (serve w₀ 9).mem ∧ (serve w₀ i).blocks = (serve w₀ 9).blocks := by
    intro i hi
    obtain ⟨k, rfl⟩ := Nat.exists_eq_add_of_le hi
    exact serve_late c3 k
  have served : ∀ i, servedB (serve w₀ i) (serviceAction i) = true := by
    intro i
    by_cases hi : i < 10
    · exact List.all_eq_true.1 c1 i (List.mem_range.2 hi)
    · unfold servedB; rw [(late i (by omega)).1]
  have bounds : ∀ i, boundsB (serve w₀ i) = true := by
    intro i
    by_cases hi : i < 10
    · exact List.all_eq_true.1 c2 i (List.mem_range.2 hi)
    · have h6 := List.all_eq_true.1 c2 9 (List.mem_range.2 (by omega))
      obtain ⟨-, h1, h2⟩ := late i (by omega)
      unfold boundsB World.burned World.minted at h6 ⊢
      rw [h1, h2]; exact h6
  have zero : serve w₀ 0 = w₀ := by rw [serve]
  have step : ∀ i, serve w₀ (i + 1) = ((serve w₀ i).act (serviceAction i)).getD (serve w₀ i) := fun i => by rw [serve]
  have starts := fun {i} => serve_starts (w₀ := w₀) (i := i)
  have hex : ∃ w₀', servesB w₀' = true ∧ serve w₀ = serve w₀' := ⟨w₀, hw₀, rfl⟩
  generalize serve w₀ = ρ at *
  subst zero
  have task : ∀ i id t o, ⟨id, .ext t, o⟩ ∈ (ρ i).tasks → i < 9 ∧ Useful (ρ i) t (serviceAction i).given ∧
      Receives (ρ i) (ρ (i + 1)) t (serviceAction i).given := by
    intro i id t o hm
    have hi : i < 9 := Classical.byContradiction fun h => by rw [(late i (by omega)).1] at hm; cases hm
    obtain ⟨a, now, w', h1, h2, h3, h4⟩ := served_task (served i) hm
    refine ⟨hi, by rw [h2]; exact h4, ?_⟩
    rw [step, h3, Option.getD_some, h2]
    exact answer_receives h1 (h2 ▸ h3)
  have hears : ∀ i t a, Hears ρ (fun i => (serviceAction i).given) i t a → Useful (ρ i) t a := by
    rintro i t a ⟨⟨pre, post, id, o, now, ht, -⟩, ha⟩
    have := (task i id t o (by rw [ht]; simp)).2.1
    rw [show (serviceAction i).given = a from ha] at this
    exact this
  have calm : ∀ i id, (id, Outcome.killed) ∈ (ρ (i + 1)).finished → (id, Outcome.killed) ∈ (ρ i).finished := by
    intro i id hf
    rw [step] at hf
    cases ha : (ρ i).act (serviceAction i) with
    | none => rw [ha] at hf; exact hf
    | some w' =>
      rw [ha] at hf
      refine act_calm ha ?_ hf
      unfold serviceAction
      cases hx : service[i]? with
      | none => rw [Option.getD_none]; split <;> rfl
      | some x => exact (by decide : ∀ x ∈ service.map (·.isKill), x = false) _ (List.mem_map.2 ⟨x, List.mem_of_getElem? hx, rfl⟩)
  have log : ∀ i e, e ∈ (ρ i).mem.m.log → (∀ q, e = .acceptedNativeWithdrawalRequest q → q.withdrawalAmount < 2 ^ 256 - 1) ∧
      (∀ q, e = .acceptedErc20WithdrawalRequest q → 0 < q.withdrawalAmount) ∧ (∀ a, e ≠ .upgrade a) ∧ ∀ b, e ≠ .syncedToBlock b := by
    intro i e he
    have hb := bounds i
    simp only [boundsB, Bool.and_eq_true] at hb
    have := List.all_eq_true.1 hb.1.1.1.1 e he
    refine ⟨?_, ?_, ?_, ?_⟩
    · rintro q rfl
      exact Nat.lt_of_le_of_lt (of_decide_eq_true this) (by decide)
    · rintro q rfl
      exact of_decide_eq_true this
    · rintro a rfl; cases this
    · rintro b rfl; cases this
  have S : Serving ρ (fun i => (serviceAction i).given) 0 := by
    refine ⟨fun l₁ a l₂ n hl _ => ?_, fun i _ b hb => ?_, fun i _ t a _ ha => ?_, fun i => ⟨10 + 2 * i, some gasEstimate, by omega, (starts (by omega)).1 (by omega), .inl (by simp)⟩,
      fun i _ id t o _ _ => ⟨9 + i, by omega, fun o' ho => by rw [(late _ (by omega)).1] at ho; cases ho⟩, fun i _ => calm i,
      fun i _ a h => (hears _ _ _ h).elim, fun i _ id g o hm => ?_, fun i _ g a h => ?_, fun i _ a h => ?_, fun i _ c b sigs h => ?_,
      fun i _ f l h => ?_, fun i _ q hq => (log i _ hq).1 q rfl, fun i _ q hq => (log i _ hq).2.1 q rfl, fun i _ => ?_,
      fun i _ n i₁ l n' i₂ l' h1 h2 x hx y hy he => ?_, fun i _ => ?_⟩
    · exact absurd rfl ((log 0 (.upgrade a) (by rw [hl]; simp)).2.2.1 a)
    · exact absurd rfl ((log i _ (List.mem_of_mem_drop hb)).2.2.2 b)
    · obtain ⟨pre, post, id, o, now, ht, -⟩ := ha
      exact (task i id t o (by rw [ht]; simp)).2.2
    · rw [(task i id _ o hm).2.1.1]; decide
    · obtain ⟨_, k, hk⟩ := hears _ _ _ h
      cases hk; simp
    · obtain ⟨k, hk⟩ := hears _ _ _ h
      cases hk; simp
    · obtain ⟨sigs', hk, h1, h2⟩ := hears _ _ _ h
      cases hk; exact ⟨h1, h2⟩
    · obtain ⟨h1, h2⟩ := hears _ _ _ h
      refine ⟨bothMined, ?_, h2⟩
      obtain ⟨⟨pre, post, id, o, now, ht, -⟩, ha⟩ := h
      have hi := (task i id (.retrieveReceipts f) o (by rw [ht]; simp)).1
      rw [h1]
      rcases (by omega : i = 0 ∨ i = 1 ∨ i = 2 ∨ i = 3 ∨ i = 4 ∨ i = 5 ∨ i = 6 ∨ i = 7 ∨ i = 8) with
        rfl | rfl | rfl | rfl | rfl | rfl | rfl | rfl | rfl <;>
        simp only [serviceAction, service, List.getElem?_cons_zero, List.getElem?_cons_succ, Option.getD_some, Action.given, reduceCtorEq,
          ExtAnswer.receipts.injEq] at ha
      exact ha.symm
    · have hb := bounds i
      simp only [boundsB, Bool.and_eq_true, decide_eq_true_eq] at hb
      exact Nat.lt_of_le_of_lt (Nat.add_le_add_right hb.1.1.1.2 5) (by decide)
    · have hb := bounds i
      simp only [boundsB, Bool.and_eq_true, List.all_eq_true, decide_eq_true_eq] at hb
      obtain ⟨-, h1⟩ := MKM.getEntry_eq.1 h1
      obtain ⟨-, h2⟩ := MKM.getEntry_eq.1 h2
      exact (hb.1.1.2 _ (FMap.mem_toList.2 h1) x hx _ (FMap.mem_toList.2 h2) y hy).resolve_left fun h => h he
    · have hb := bounds i
      simp only [boundsB, Bool.and_eq_true, decide_eq_true_eq, List.all_eq_true] at hb
      obtain ⟨⟨-, h1, h2, h3⟩, h4⟩ := hb
      refine ⟨h1, Nat.lt_of_le_of_lt h2 (by decide), h3, fun ledger _ _ _ => ?_⟩
      by_cases hl : ∃ b ∈ (ρ i).blocks, b.call.ledger = ledger
      · obtain ⟨b, hb, rfl⟩ := hl
        exact h4 b hb
      · have : (ρ i).blocks.filter (fun b => b.call.ledger == ledger) = [] := List.filter_eq_nil_iff.2 fun b hb => by
          simp only [beq_iff_eq]; exact fun e => hl ⟨b, hb, e⟩
        unfold World.burned World.minted
        rw [this]; simp
  have M : Mines ρ (fun i => (serviceAction i).given) := fun n e _ _ => ⟨9, fun i hi k h => by
    obtain ⟨⟨pre, post, id, o, now, ht, -⟩, -⟩ := h
    have := (task i id .retrieveFinalizedCount o (by rw [ht]; simp)).1
    omega⟩
  have T : Steady ρ 0 := by
    refine ⟨fun i _ id t o _ _ => ⟨9 + i, by omega, fun o' ho => by rw [(late _ (by omega)).1] at ho; cases ho⟩, fun i _ => calm i,
      fun i _ t a h hs => ?_, fun i _ _ _ id t a n t' a' r h hc => ?_, fun i => ⟨9 + 2 * i, by omega, (starts (by omega)).2 (by omega)⟩⟩
    · obtain ⟨pre, post, id, o, now, c, n, ht, -⟩ := h
      have := (task i id t o (by rw [ht]; simp)).2.1
      cases t <;> first | exact this.elim | (cases a <;> cases hs)
    · obtain ⟨pre, post, now, c, ht, -⟩ := h
      obtain ⟨⟨x, r, l, rest, rfl⟩, -⟩ := served_ledger (served i) (id := id) (t := t) (o := some a) (by rw [ht]; simp)
      cases hc
  have R : ∀ x, RepaysFrom ρ 0 x := fun x i _ id r l rest a hm => (served_ledger (served i) hm).2 a rfl
  refine ⟨ρ, _, E, S, M, T, R, hex, c6, fun r hr => ?_⟩
  have hacc : r.intoEvent ∈ (ρ 0).mem.m.log := ((run_txInv (S.run E (Nat.le_refl 0)) (S.never E (Nat.le_refl 0))).2.1.acc r).2 (.inl hr)
  have haff : ∀ j, 0 ≤ j → ∀ id g o, ⟨id, .ext (.retrieveCount g), o⟩ ∈ (ρ j).tasks → Affordable g r := fun j _ id g o hm => by
    rw [(task j id _ o hm).2.1.1]
    exact of_decide_eq_true (List.all_eq_true.1 c7 r hr)
  exact ⟨hacc, haff⟩

theorem C77_example : ∃ ρ α, Endless ρ ∧ Serving ρ α 0 ∧ Mines ρ α ∧ (ρ 0).mem.m.st.txs.pending.length = 2 ∧
    ∀ r ∈ (ρ 0).mem.m.st.txs.pending, r.intoEvent ∈ (ρ 0).mem.m.log ∧
      (∀ j, 0 ≤ j → ∀ id g o, ⟨id, .ext (.retrieveCount g), o⟩ ∈ (ρ j).tasks → Affordable g r) ∧
      ∃ j rc, Event.finalizedTransaction r.burnIndex rc ∈ (ρ j).mem.m.log := by
  obtain ⟨ρ, α, E, S, M, -, -, -, h1, h2⟩ := service_example
  exact ⟨ρ, α, E, S, M, h1, fun r hr => ⟨(h2 r hr).1, (h2 r hr).2, C77_served E S M (h2 r hr).1 (h2 r hr).2⟩⟩

end Example
end EvmMinter
