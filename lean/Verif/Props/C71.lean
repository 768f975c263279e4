import Verif.Props.C28
import Verif.Props.C60
/-!
# C71: withdrawals go out

What a round of `process_retrieve_tokens_requests` does with the withdrawals in its hands, for all answers that it may get.
-/

namespace EvmMinter
open Spec Transactions

namespace Spec

/-- The transaction is created for the withdrawal and waits for its signature. -/
def Waiting (s : State) (i : LedgerBurnIndex) (tx : Tx) : Prop :=
  ∃ c, s.txs.created.getEntry tx.nonce = some (i, c) ∧ c.transaction = tx

/-- The signed transaction is the latest version for the withdrawal. -/
def Latest (s : State) (i : LedgerBurnIndex) (x : SignedTx) : Prop :=
  ∃ l rs, s.txs.sent.getEntry x.tx.nonce = some (i, l) ∧ l.getLast? = some ⟨x, rs⟩

/-- The nonce is in use: its transaction is created or sent, and not finalized. -/
def InUse (s : State) (n : TransactionNonce) : Prop :=
  (∃ i c, s.txs.created.getEntry n = some (i, c)) ∨ ∃ i l, s.txs.sent.getEntry n = some (i, l)

/-- From memory `c` the round goes on with finalizing: it asks for the finalized transaction count if there is something to finalize,
and ends otherwise. -/
def ThenFinalizes (c c' : Mem) (n : Next) : Prop :=
  ((∃ i x, Latest c.m.st i x) ∧ c' = c ∧ n = .await (.ext .retrieveFinalizedCount)) ∨
  ((∀ i x, ¬ Latest c.m.st i x) ∧ c' = c.release .retrieveEth ∧ n = .finish none)

/-- From memory `c` the round goes on with sending: of the latest versions of the transactions not mined, by `count`, the five with the
smallest nonces; if there are none, with finalizing. -/
def ThenSends (c : Mem) (count : Option TransactionCount) (c' : Mem) (n : Next) : Prop :=
  ∃ all : List SignedTx, all.Pairwise (fun x y => x.tx.nonce < y.tx.nonce) ∧
    (∀ x, x ∈ all ↔ (∃ k, count = some k ∧ k ≤ x.tx.nonce) ∧ ∃ i, Latest c.m.st i x) ∧
    ((all ≠ [] ∧ c' = c ∧ n = .await (.ext (.retrieveSend (all.take 5)))) ∨ (all = [] ∧ ThenFinalizes c c' n))

/-- From memory `c` the round goes on with signing: the five created transactions with the smallest nonces; if there are none, with
sending. -/
def ThenSigns (c : Mem) (count : Option TransactionCount) (c' : Mem) (n : Next) : Prop :=
  ∃ all : List (LedgerBurnIndex × Tx), all.Pairwise (fun x y => x.2.nonce < y.2.nonce) ∧
    (∀ i tx, (i, tx) ∈ all ↔ Waiting c.m.st i tx) ∧
    ((all ≠ [] ∧ c' = c ∧ n = .await (.ext (.retrieveSign count (all.take 5)))) ∨ (all = [] ∧ ThenSends c count c' n))

end Spec

section
variable [Keccak]

/-! ## What follows -/

theorem thenFinalizes {c : Mem} (h : Run c.m.log c.m.st) (hn : NonceNeverLowered c.m.log) :
    ThenFinalizes c c.retrieveFinalize.1 c.retrieveFinalize.2 := by
  obtain ⟨inv, _⟩ := run_txInv h hn
  unfold Mem.retrieveFinalize isSentEmpty
  cases he : c.m.st.txs.sent.byKey.isEmpty with
  | true =>
    refine .inr ⟨?_, rfl, rfl⟩
    rintro i x ⟨l, rs, h1, _⟩
    have h1 := MKM.getEntry_eq.1 h1
    have := FMap.mem_toList.2 h1.1
    have hl : c.m.st.txs.sent.byKey.toList = [] := by
      simpa [FMap.isEmpty, FMap.toList] using he
    rw [hl] at this; cases this
  | false =>
    refine .inl ⟨?_, rfl, rfl⟩
    have hl : c.m.st.txs.sent.byKey.toList ≠ [] := by
      intro hl
      have : c.m.st.txs.sent.byKey.isEmpty = true := by simpa [FMap.isEmpty, FMap.toList] using hl
      rw [he] at this; cases this
    obtain ⟨y, hy⟩ := List.exists_mem_of_ne_nil _ hl
    obtain ⟨n, i⟩ := y
    have hk := FMap.mem_toList.1 hy
    obtain ⟨l, hv⟩ := inv.sw.alt_of_key hk
    have hs := inv.sN n i l ⟨hk, hv⟩
    cases hlast : l.getLast? with
    | none => exact absurd (List.getLast?_eq_none_iff.1 hlast) hs.2.1
    | some x =>
      have hx := hs.2.2 x (List.mem_of_getLast? hlast)
      refine ⟨i, x.transaction, l, x.resubmission, ?_, hlast⟩
      rw [hx]; exact MKM.getEntry_eq.2 ⟨hk, hv⟩

theorem thenSends {c : Mem} (h : Run c.m.log c.m.st) (hn : NonceNeverLowered c.m.log) (count : Option TransactionCount) :
    ∃ c' n, c.retrieveSend count = .ok (c', n) ∧ ThenSends c count c' n := by
  cases count with
  | none => exact ⟨_, _, rfl, [], .nil, by simp, .inr ⟨rfl, thenFinalizes h hn⟩⟩
  | some k =>
    obtain ⟨all, h1, h2, h3⟩ := C43_send h hn k 5
    unfold Mem.retrieveSend
    simp only [h1, Res.ok_bind]
    have hmem : ∀ x, x ∈ all ↔ (∃ k', some k = some k' ∧ k' ≤ x.tx.nonce) ∧ ∃ i, Latest c.m.st i x := by
      intro x
      rw [h3]
      simp only [Option.some.injEq, exists_eq_left', Latest]
    cases all with
    | nil => exact ⟨_, _, rfl, [], .nil, hmem, .inr ⟨rfl, thenFinalizes h hn⟩⟩
    | cons x t => exact ⟨_, _, rfl, x :: t, h2, hmem, .inl ⟨by simp, rfl, rfl⟩⟩

theorem toSignBatch_first {log : List Event} {s : State} (h : Run log s) (hn : NonceNeverLowered log) (size : Nat) :
    ∃ all : List (LedgerBurnIndex × Tx), s.txs.toSignBatch size = .ok (all.take size) ∧ all.Pairwise (fun x y => x.2.nonce < y.2.nonce) ∧
      ∀ i tx, (i, tx) ∈ all ↔ Waiting s i tx := by
  obtain ⟨inv, _⟩ := run_txInv h hn
  obtain ⟨r, h1, h2, h3⟩ := MKM.iter_total inv.cw
  have hN : ∀ x ∈ r, x.2.2.transaction.nonce = x.1 := by
    rintro ⟨n, i, c⟩ hx
    exact (inv.cN _ _ _ ((h2 _ _ _).1 hx)).2
  refine ⟨r.map fun x => (x.2.1, x.2.2.transaction), ?_, ?_, ?_⟩
  · unfold toSignBatch; rw [h1, ← List.map_take]; rfl
  · rw [List.pairwise_map, List.pairwise_iff_forall_sublist]
    rw [List.pairwise_iff_forall_sublist] at h3
    intro a b hs
    rw [hN a (hs.subset (by simp)), hN b (hs.subset (by simp))]
    exact natLt.1 (h3 hs)
  · intro i tx
    rw [List.mem_map]
    constructor
    · rintro ⟨⟨n, j, c⟩, hm, e⟩
      cases e
      refine ⟨c, ?_, rfl⟩
      rw [hN _ hm]
      exact MKM.getEntry_eq.2 ((h2 _ _ _).1 hm)
    · rintro ⟨c, hc, rfl⟩
      exact ⟨(_, i, c), (h2 _ _ _).2 (MKM.getEntry_eq.1 hc), rfl⟩

theorem nonceNeverLowered_append {log es : List Event} (h : NonceNeverLowered log) (he : ∀ e ∈ es, ∀ a, e ≠ .upgrade a) :
    NonceNeverLowered (log ++ es) := by
  induction es generalizing log with
  | nil => simpa using h
  | cons e t ih =>
    have := ih (nonceNeverLowered_snoc (e := e) h (he e (by simp))) fun e' h' => he e' (by simp [h'])
    simpa using this

/-! ## Nonces in use -/

theorem inUse_iff {log : List Event} {s : State} (h : Run log s) (hn : NonceNeverLowered log) (n : TransactionNonce) :
    InUse s n ↔ n ∈ s.txs.created.keys ++ s.txs.sent.keys := by
  obtain ⟨inv, _⟩ := run_txInv h hn
  simp only [InUse, MKM.getEntry_eq, List.mem_append, MKM.keys, FMap.mem_keys]
  constructor
  · rintro (⟨i, c, h1, _⟩ | ⟨i, c, h1, _⟩)
    · exact .inl ⟨i, h1⟩
    · exact .inr ⟨i, h1⟩
  · rintro (⟨i, h1⟩ | ⟨i, h1⟩)
    · obtain ⟨v, hv⟩ := inv.cw.alt_of_key h1; exact .inl ⟨i, v, h1, hv⟩
    · obtain ⟨v, hv⟩ := inv.sw.alt_of_key h1; exact .inr ⟨i, v, h1, hv⟩

theorem requestsBatch_eq {log : List Event} {s : State} (h : Run log s) (hn : NonceNeverLowered log) (size : Nat)
    {inUse : List TransactionNonce} (hd : inUse.Nodup) (hu : ∀ n, n ∈ inUse ↔ InUse s n) :
    s.txs.requestsBatch size = s.txs.pending.take (min (1000 - inUse.length) size) := by
  have hsize : ((s.txs.created.keys ++ s.txs.sent.keys).foldl (fun m k => m.insert k ()) (∅ : FSet TransactionNonce)).size =
      inUse.length := by
    refine size_of_nodup _ _ hd fun k => ?_
    rw [foldl_insert_get, hu, inUse_iff h hn]
    simp
  unfold requestsBatch
  simp only [hsize]

/-- What replacing transactions does to the others: the nonces in use stay the same, a withdrawal whose transaction is created keeps a
created transaction with the same nonce, and a created transaction with a new nonce replaces one that was sent. -/
theorem replaced_keeps (l : List (LedgerBurnIndex × Tx)) : ∀ {m m' : Minter}, m.st.txs.MapsWF →
    (∀ n i c i' l, m.st.txs.created.Has n i c → m.st.txs.sent.Has n i' l → i = i') →
    m.processEvents (l.map fun x => .replacedTransaction x.1 x.2) = .ok m' → (∀ n, InUse m'.st n ↔ InUse m.st n) ∧
      (∀ n i c, m.st.txs.created.Has n i c → ∃ c', m'.st.txs.created.Has n i c') ∧
      ∀ n i c, m'.st.txs.created.Has n i c → (∃ c', m.st.txs.created.Has n i c') ∨
        (∃ x ∈ l, x.2.nonce = n) ∧ ∃ sl, m.st.txs.sent.Has n i sl := by
  induction l with
  | nil => intro m m' _ _ h; cases h; exact ⟨fun _ => Iff.rfl, fun n i c hh => ⟨c, hh⟩, fun n i c hh => .inl ⟨c, hh⟩⟩
  | cons x t ih =>
    intro m m' w hcs h
    simp only [List.map_cons, Minter.processEvents, Res.bind_ok, Minter.processEvent, Res.pure_ok] at h
    obtain ⟨m₁, ⟨s₁, h1, rfl⟩, h2⟩ := h
    have hx := applyEvent_txs h1
    simp only [txEvent] at hx
    obtain ⟨i, sl, last, c1, c2, k1, _, _, ⟨o, k2⟩, k3, e⟩ := recordResubmitTransaction_ok hx
    have w1 := MKM.removeEntry_wf w.cw k2
    have w' : s₁.txs.MapsWF := by
      rw [e]; exact ⟨MKM.tryInsert_wf w1 k3, w.sw, w.fw⟩
    have hcs' : ∀ n i c i' l, s₁.txs.created.Has n i c → s₁.txs.sent.Has n i' l → i = i' := by
      rw [e]
      intro n j c j' l' a1 a2
      rcases (MKM.tryInsert_has w1 k3).1 a1 with ⟨rfl, rfl, _⟩ | a1
      · exact (MKM.Has.unique_key k1 a2).1
      · exact hcs _ _ _ _ _ ((MKM.removeEntry_has w.cw k2).1 a1).2 a2
    obtain ⟨ih1, ih2, ih3⟩ := ih w' hcs' h2
    refine ⟨fun n => ?_, fun n j c hh => ?_, fun n j c hh => ?_⟩
    · rw [ih1 n]
      simp only [InUse, e, MKM.getEntry_eq]
      constructor
      · rintro (⟨j, c, hh⟩ | hh)
        · rcases (MKM.tryInsert_has w1 k3).1 hh with ⟨rfl, _, _⟩ | hh
          · exact .inr ⟨_, _, k1⟩
          · exact .inl ⟨j, c, ((MKM.removeEntry_has w.cw k2).1 hh).2⟩
        · exact .inr hh
      · rintro (⟨j, c, hh⟩ | hh)
        · by_cases hx : n = x.2.nonce
          · exact .inl ⟨i, _, (MKM.tryInsert_has w1 k3).2 (.inl ⟨hx, rfl, rfl⟩)⟩
          · exact .inl ⟨j, c, (MKM.tryInsert_has w1 k3).2 (.inr ((MKM.removeEntry_has w.cw k2).2 ⟨hx, hh⟩))⟩
        · exact .inr hh
    · by_cases hx : n = x.2.nonce
      · subst hx
        refine ih2 _ j ⟨x.2, last.resubmission⟩ ?_
        show s₁.txs.created.Has _ _ _
        rw [e]
        exact (MKM.tryInsert_has w1 k3).2 (.inl ⟨rfl, hcs _ _ _ _ _ hh k1, rfl⟩)
      · refine ih2 n j c ?_
        show s₁.txs.created.Has _ _ _
        rw [e]
        exact (MKM.tryInsert_has w1 k3).2 (.inr ((MKM.removeEntry_has w.cw k2).2 ⟨hx, hh⟩))
    · rcases ih3 n j c hh with ⟨c', hh⟩ | ⟨⟨y, hy, hyn⟩, sl', hh⟩
      · replace hh : s₁.txs.created.Has n j c' := hh
        rw [e] at hh
        rcases (MKM.tryInsert_has w1 k3).1 hh with ⟨rfl, rfl, _⟩ | hh
        · exact .inr ⟨⟨x, by simp, rfl⟩, sl, k1⟩
        · exact .inl ⟨c', ((MKM.removeEntry_has w.cw k2).1 hh).2⟩
      · replace hh : s₁.txs.sent.Has n j sl' := hh
        rw [e] at hh
        exact .inr ⟨⟨y, by simp [hy], hyn⟩, sl', hh⟩

theorem resubmitBatch_keeps {m m' : Minter} {count : Option TransactionCount} {g : GasFeeEstimate} (h : Run m.log m.st)
    (hn : NonceNeverLowered m.log) (hm : m.resubmitBatch count g = .ok m') : (∀ n, InUse m'.st n ↔ InUse m.st n) ∧
      (∀ n i c, m.st.txs.created.Has n i c → ∃ c', m'.st.txs.created.Has n i c') ∧
      ∀ n i c, m'.st.txs.created.Has n i c → (∃ c', m.st.txs.created.Has n i c') ∨
        (∃ k, count = some k ∧ k ≤ n) ∧ ∃ sl, m.st.txs.sent.Has n i sl := by
  obtain ⟨inv, _⟩ := run_txInv h hn
  unfold Minter.resubmitBatch at hm
  split at hm
  · cases hm; exact ⟨fun _ => Iff.rfl, fun n i c hh => ⟨c, hh⟩, fun n i c hh => .inl ⟨c, hh⟩⟩
  · cases count with
    | none => cases hm; exact ⟨fun _ => Iff.rfl, fun n i c hh => ⟨c, hh⟩, fun n i c hh => .inl ⟨c, hh⟩⟩
    | some c =>
      simp only [Res.bind_ok] at hm
      obtain ⟨out, ho, hm⟩ := hm
      obtain ⟨out', ho', hc, _⟩ := C43_replace h hn c g
      rw [ho] at ho'; cases ho'
      obtain ⟨r1, r2, r3⟩ := replaced_keeps (m' := m') (out.filterMap Except.toOption) ⟨inv.cw, inv.sw, inv.fw⟩
        (fun n i c i' l a b => (inv.cs _ _ _ _ _ _ a b).1 rfl) (by
          rw [← hm, List.map_filterMap]
          congr; funext x
          cases x <;> rfl)
      refine ⟨r1, r2, fun n i c' hh => ?_⟩
      rcases r3 n i c' hh with hh | ⟨⟨⟨j, tx⟩, hx, rfl⟩, sl⟩
      · exact .inl hh
      · refine .inr ⟨⟨c, rfl, ?_⟩, sl⟩
        obtain ⟨y, hy, he⟩ := List.mem_filterMap.1 hx
        cases y with
        | ok y => cases he; exact (hc _ _ hy).1
        | error e => cases he

theorem createLoop_keeps {g : GasFeeEstimate} : ∀ (l : List Request) {m m' : Minter}, m.st.txs.MapsWF → m.createLoop g l = .ok m' →
    m'.st.txs.sent = m.st.txs.sent ∧ m'.st.txs.finalized = m.st.txs.finalized ∧
      (∀ n i c, m.st.txs.created.Has n i c → m'.st.txs.created.Has n i c) ∧
      (∀ n i c, m'.st.txs.created.Has n i c → m.st.txs.created.Has n i c ∨ (∃ r ∈ l, r.burnIndex = i) ∧ m.st.txs.nextNonce ≤ n) ∧
      m.st.txs.nextNonce ≤ m'.st.txs.nextNonce := by
  intro l
  induction l with
  | nil => intro m m' _ h; cases h; exact ⟨rfl, rfl, fun _ _ _ hh => hh, fun _ _ _ hh => .inl hh, Nat.le_refl _⟩
  | cons r l ih =>
    intro m m' w h
    simp only [Minter.createLoop, Res.bind_ok] at h
    obtain ⟨m₁, h1, h2⟩ := h
    have key : m₁.st.txs.sent = m.st.txs.sent ∧ m₁.st.txs.finalized = m.st.txs.finalized ∧ m₁.st.txs.MapsWF ∧
        (∀ n i c, m.st.txs.created.Has n i c → m₁.st.txs.created.Has n i c) ∧
        (∀ n i c, m₁.st.txs.created.Has n i c → m.st.txs.created.Has n i c ∨ r.burnIndex = i ∧ m.st.txs.nextNonce ≤ n) ∧
        m.st.txs.nextNonce ≤ m₁.st.txs.nextNonce := by
      simp only [Minter.createOne, Res.bind_ok] at h1
      obtain ⟨x, _, h1⟩ := h1
      cases x with
      | ok tx =>
        simp only [Minter.processEvent, Res.bind_ok, Res.pure_ok] at h1
        obtain ⟨s, h1, rfl⟩ := h1
        have hx := applyEvent_txs h1
        simp only [txEvent] at hx
        obtain ⟨r', c, _, _, _, _, _, hnn, _, _, _, k, e⟩ := recordCreatedTransaction_ok hx
        refine ⟨by rw [e], by rw [e], ?_, ?_, ?_, ?_⟩
        · rw [e]; exact ⟨MKM.tryInsert_wf w.cw k, w.sw, w.fw⟩
        · intro n i c hh
          show s.txs.created.Has _ _ _
          rw [e]; exact (MKM.tryInsert_has w.cw k).2 (.inr hh)
        · intro n i c hh
          replace hh : s.txs.created.Has _ _ _ := hh
          rw [e] at hh
          rcases (MKM.tryInsert_has w.cw k).1 hh with ⟨rfl, rfl, _⟩ | hh
          · exact .inr ⟨rfl, Nat.le_of_eq hnn.symm⟩
          · exact .inl hh
        · show _ ≤ s.txs.nextNonce
          rw [e]; exact Nat.le_succ _
      | error e =>
        simp only [Res.bind_ok, Res.pure_ok] at h1
        obtain ⟨t, h1, rfl⟩ := h1
        have e : ∃ p, t = m.st.txs.setP p := by
          simp only [reschedule, Res.bind_ok] at h1
          obtain ⟨_, _, h1⟩ := h1
          obtain ⟨rfl, _⟩ := recordWithdrawalRequest_pending h1
          exact ⟨_, rfl⟩
        obtain ⟨p, rfl⟩ := e
        exact ⟨rfl, rfl, ⟨w.cw, w.sw, w.fw⟩, fun _ _ _ hh => hh, fun _ _ _ hh => .inl hh, Nat.le_refl _⟩
    obtain ⟨k1, k2, k3, k4, k5, k6⟩ := key
    obtain ⟨j1, j2, j3, j4, j5⟩ := ih k3 h2
    refine ⟨j1.trans k1, j2.trans k2, fun n i c hh => j3 n i c (k4 n i c hh), fun n i c hh => ?_, Nat.le_trans k6 j5⟩
    rcases j4 n i c hh with hh | ⟨⟨r', hr', e⟩, hn⟩
    · rcases k5 n i c hh with hh | ⟨e, hn⟩
      · exact .inl hh
      · exact .inr ⟨⟨r, by simp, e⟩, hn⟩
    · exact .inr ⟨⟨r', by simp [hr'], e⟩, Nat.le_trans k6 hn⟩

omit [Keccak] in
theorem foldl_replaced (l : List (LedgerBurnIndex × Tx)) : ∀ z : Nat,
    l.foldl (fun x y => nonceAfter x (.replacedTransaction y.1 y.2)) z = z := by
  induction l with
  | nil => intro z; rfl
  | cons x t ih => intro z; exact ih _

/-! ## The stages of a round -/

/-- **C71**, creating. When the transaction count arrives (or the call fails), the callback does not trap, and:
* of the queue, the five oldest requests are taken (fewer if 1000 nonces would be exceeded): those that pay for a transaction at the
  estimated fee get one, the others go to the end of the queue;
* a withdrawal that had a created transaction still has one, with the same nonce;
* besides, created transactions only replace transactions sent and not mined, by the count;
* the round goes on with signing.
(The estimate must not be zero, the amounts must be below `2^256 - 1`, and there must be nonces left: see `C42_zero_fee_panics` and
C15.) -/
theorem C71_create {w : World} (h : Reachable w) (hn : NonceNeverLowered w.mem.m.log) {id : Nat} {g : GasFeeEstimate}
    {o : Option LedgerAnswer} (hp : ⟨id, .ext (.retrieveCount g), o⟩ ∈ w.tasks) (hz : 0 < g.baseFeePerGas ∨ 0 < g.maxPriorityFeePerGas)
    (hq : ∀ q, Request.native q ∈ w.mem.m.st.txs.pending → q.withdrawalAmount < 2 ^ 256 - 1)
    (hnonce : w.mem.m.st.txs.nextNonce + 5 < 2 ^ 256) {inUse : List TransactionNonce} (hd : inUse.Nodup)
    (hu : ∀ n, n ∈ inUse ↔ InUse w.mem.m.st n) {batch rest : List Request} (hb : w.mem.m.st.txs.pending = batch ++ rest)
    (hl : batch.length = min 5 (1000 - inUse.length) ∨ rest = [] ∧ batch.length ≤ min 5 (1000 - inUse.length))
    (count : Option TransactionCount) (now : Nat) :
    ∃ m c' n, (ExtTask.retrieveCount g).resume w.mem now (.count count) = some (.ok (c', n)) ∧ c'.m = m ∧
      m.st.txs.pending = rest ++ batch.filter (fun r => !decide (Affordable g r)) ∧
      (∀ r ∈ batch, Affordable g r → ∃ tx, Waiting m.st r.burnIndex tx) ∧
      (∀ i tx, Waiting w.mem.m.st i tx → ∃ tx', tx'.nonce = tx.nonce ∧ Waiting m.st i tx') ∧
      (∀ i tx, Waiting m.st i tx →
        (∃ r ∈ batch, Affordable g r ∧ r.burnIndex = i) ∧ w.mem.m.st.txs.nextNonce ≤ tx.nonce ∨
        (∃ tx', tx'.nonce = tx.nonce ∧ Waiting w.mem.m.st i tx') ∨
        (∃ k, count = some k ∧ k ≤ tx.nonce) ∧ ∃ x, x.tx.nonce = tx.nonce ∧ Latest w.mem.m.st i x) ∧
      m.st.txs.sent = w.mem.m.st.txs.sent ∧ NonceNeverLowered m.log ∧ ThenSigns { w.mem with m := m } count c' n := by
  have hrun := run_of_reachable h hn
  have hg : g.Bounded := (runInv h hn).claim _ hp
  obtain ⟨m1, out, k1, k2, k3, k4, _, k5, k6, k7⟩ := run_resubmitBatch hrun hn hg count
  obtain ⟨u1, u2, u3⟩ := resubmitBatch_keeps hrun hn k1
  have inv0 := (run_txInv hrun hn).1
  obtain ⟨inv1, l1, _⟩ := run_txInv k2 k3
  have hnx : m1.st.txs.nextNonce = w.mem.m.st.txs.nextNonce := by
    rw [(run_txInv k2 k3).2.2, (run_txInv hrun hn).2.2, k4, expectedNonce, List.foldl_append, List.foldl_map, expectedNonce]
    exact foldl_replaced out _
  have hreq : m1.st.txs.requestsBatch 5 = batch := by
    rw [requestsBatch_eq k2 k3 5 hd (fun n => by rw [hu, u1]), k5, hb]
    rcases hl with hl | ⟨rfl, hl⟩
    · rw [Nat.min_comm, ← hl, List.take_left']; rfl
    · rw [List.append_nil, List.take_of_length_le (by omega)]
  obtain ⟨m2, txs, j1, j2, j3, j4, j5⟩ := C42_round k2 k3 hg hz (by rw [k5]; exact hq) (by rw [hnx]; exact hnonce) hreq (by rw [k5, hb])
  obtain ⟨s1, s2, s3, s4, _⟩ := createLoop_keeps (m1.st.txs.requestsBatch 5) ⟨inv1.cw, inv1.sw, inv1.fw⟩ j1
  have n2 : NonceNeverLowered m2.log := by
    rw [j3]
    refine nonceNeverLowered_append k3 fun e he a => ?_
    obtain ⟨k, hk, rfl⟩ := List.getElem_of_mem he
    simp [createdEvents]
  obtain ⟨inv2, l2, _⟩ := run_txInv j2 n2
  obtain ⟨all, a1, a2, a3⟩ := toSignBatch_first j2 n2 5
  have hres : (ExtTask.retrieveCount g).resume w.mem now (.count count) =
      some (if (all.take 5).isEmpty then ({ w.mem with m := m2 } : Mem).retrieveSend count
        else .ok ({ w.mem with m := m2 }, .await (.ext (.retrieveSign count (all.take 5))))) := by
    simp only [ExtTask.resume, Mem.retrieveCreate, k1, j1, a1, Res.ok_bind]
    rfl
  have hnext : ∃ c' n, (ExtTask.retrieveCount g).resume w.mem now (.count count) = some (.ok (c', n)) ∧ c'.m = m2 ∧
      ThenSigns { w.mem with m := m2 } count c' n := by
    rw [hres]
    cases all with
    | nil =>
      obtain ⟨c', n, b1, b2⟩ := thenSends (c := { w.mem with m := m2 }) j2 n2 count
      exact ⟨c', n, by simpa using b1, Mem.retrieveSend_m b1, [], .nil, a3, .inr ⟨rfl, b2⟩⟩
    | cons x t => exact ⟨_, _, rfl, rfl, x :: t, a2, a3, .inl ⟨by simp, rfl, rfl⟩⟩
  obtain ⟨c', n, b1, b2, b3⟩ := hnext
  have hproc : ∀ r ∈ batch, Affordable g r → m2.st.txs.processed.get r.burnIndex = some r := by
    intro r hr ha
    have hr1 : r ∈ m1.st.txs.pending := by rw [k5, hb]; simp [hr]
    have hacc : r.intoEvent ∈ m2.log := by rw [j3]; exact List.mem_append_left _ ((l1.acc r).2 (.inl hr1))
    rcases (l2.acc r).1 hacc with hpend | hpr
    · exfalso
      rw [j5] at hpend
      rcases List.mem_append.1 hpend with hpend | hpend
      · have hpw := inv1.pend
        rw [k5, hb, List.pairwise_append] at hpw
        exact hpw.2.2 r hr r hpend rfl
      · have := (List.mem_filter.1 hpend).2
        simp [ha] at this
    · exact hpr
  refine ⟨m2, c', n, b1, b2, j5, ?_, ?_, ?_, by rw [s1, k6], n2, b3⟩
  · intro r hr ha
    have hr0 : r ∈ m1.st.txs.pending := by rw [k5, hb]; simp [hr]
    have hnone := inv1.pendProc r hr0
    rcases inv2.procIn _ _ (hproc r hr ha) with ⟨k, c, hh⟩ | ⟨k, c, hh⟩ | ⟨k, c, hh⟩
    · refine ⟨c.transaction, c, ?_, rfl⟩
      rw [(inv2.cN _ _ _ hh).2]; exact MKM.getEntry_eq.2 hh
    · rw [s1] at hh
      obtain ⟨r', h', _⟩ := inv1.sProc _ _ _ hh
      rw [hnone] at h'; cases h'
    · rw [s2] at hh
      obtain ⟨r', h', _⟩ := inv1.fProc _ _ _ hh
      rw [hnone] at h'; cases h'
  · rintro i tx ⟨c, hc, rfl⟩
    obtain ⟨c₁, hc₁⟩ := u2 _ _ _ (MKM.getEntry_eq.1 hc)
    have hh := s3 _ _ _ hc₁
    have hN := (inv2.cN _ _ _ hh).2
    exact ⟨c₁.transaction, hN, c₁, by rw [hN]; exact MKM.getEntry_eq.2 hh, rfl⟩
  · rintro i tx ⟨c, hc, rfl⟩
    have hh := MKM.getEntry_eq.1 hc
    rcases s4 _ _ _ hh with hh1 | ⟨⟨r, hr, rfl⟩, hge⟩
    · rcases u3 _ _ _ hh1 with ⟨c', hh0⟩ | ⟨hk, sl, hs⟩
      · have hN := (inv0.cN _ _ _ hh0).2
        exact .inr (.inl ⟨c'.transaction, hN, c', by rw [hN]; exact MKM.getEntry_eq.2 hh0, rfl⟩)
      · have hsn := inv0.sN _ _ _ hs
        refine .inr (.inr ⟨hk, ?_⟩)
        cases hlast : sl.getLast? with
        | none => exact absurd (List.getLast?_eq_none_iff.1 hlast) hsn.2.1
        | some x =>
          have hx := hsn.2.2 x (List.mem_of_getLast? hlast)
          exact ⟨x.transaction, hx, sl, x.resubmission, by rw [hx]; exact MKM.getEntry_eq.2 hs, hlast⟩
    · rw [hreq] at hr
      refine .inl ⟨⟨r, hr, ?_, rfl⟩, by rw [hnx] at hge; exact hge⟩
      refine Decidable.byContradiction fun ha => ?_
      have hpend : r ∈ m2.st.txs.pending := by
        rw [j5]; exact List.mem_append_right _ (List.mem_filter.2 ⟨hr, by simpa using ha⟩)
      obtain ⟨r', h', _⟩ := inv2.cProc _ _ _ hh
      rw [inv2.pendProc r hpend] at h'; cases h'

theorem signed_one {t t' : Transactions} (inv : t.TxInv) {stx : SignedTx} {i : LedgerBurnIndex} {c : Resubmittable Tx}
    (hh : t.created.Has stx.tx.nonce i c) (h : t.recordSignedTransaction stx = .ok t') :
    (∃ l rs, t'.sent.Has stx.tx.nonce i (l ++ [⟨stx, rs⟩])) ∧ (∀ j v, ¬ t'.created.Has stx.tx.nonce j v) ∧
      ∀ n, n ≠ stx.tx.nonce → (∀ j v, t'.created.Has n j v ↔ t.created.Has n j v) ∧ ∀ j v, t'.sent.Has n j v ↔ t.sent.Has n j v := by
  obtain ⟨i', c', created, sent, k1, _, ⟨o, k2⟩, k3, rfl⟩ := recordSignedTransaction_ok h
  obtain ⟨rfl, rfl⟩ := MKM.Has.unique_key hh k1
  have hcr : ∀ n j v, created.Has n j v ↔ n ≠ stx.tx.nonce ∧ t.created.Has n j v := fun n j v => MKM.removeEntry_has inv.cw k2
  rcases k3 with ⟨i', l, k3, rfl⟩ | ⟨k3, k4⟩
  · have hi : i = i' := (inv.cs _ _ _ _ _ _ hh k3).1 rfl
    subst hi
    refine ⟨⟨l, c.resubmission, (MKM.update_has inv.sw k3).2 (.inl ⟨rfl, rfl, rfl⟩)⟩, fun j v hj => ((hcr _ _ _).1 hj).1 rfl,
      fun n hne => ⟨fun j v => ?_, fun j v => ?_⟩⟩
    · show created.Has n j v ↔ _
      rw [hcr]; exact and_iff_right hne
    · rw [MKM.update_has inv.sw k3]
      simp [hne]
  · refine ⟨⟨[], c.resubmission, (MKM.tryInsert_has inv.sw k4).2 (.inl ⟨rfl, rfl, rfl⟩)⟩, fun j v hj => ((hcr _ _ _).1 hj).1 rfl,
      fun n hne => ⟨fun j v => ?_, fun j v => ?_⟩⟩
    · show created.Has n j v ↔ _
      rw [hcr]; exact and_iff_right hne
    · show sent.Has n j v ↔ _
      rw [MKM.tryInsert_has inv.sw k4]
      simp [hne]

theorem recordSigned_effect (l : List (LedgerBurnIndex × Tx × Option Signature)) : ∀ {m m' : Minter}, Run m.log m.st →
    NonceNeverLowered m.log → l.Pairwise (fun x y => x.2.1.nonce < y.2.1.nonce) →
    (∀ i tx sig, (i, tx, sig) ∈ l → Waiting m.st i tx) → m.recordSigned l = .ok m' →
    (∀ i tx sig, (i, tx, some sig) ∈ l → Latest m'.st i ⟨tx, sig⟩ ∧ ∀ j v, m'.st.txs.created.getEntry tx.nonce ≠ some (j, v)) ∧
      (∀ i tx, (i, tx, none) ∈ l → Waiting m'.st i tx) ∧
      ∀ n, (∀ x ∈ l, x.2.1.nonce ≠ n) → (∀ j v, m'.st.txs.created.Has n j v ↔ m.st.txs.created.Has n j v) ∧
        ∀ j v, m'.st.txs.sent.Has n j v ↔ m.st.txs.sent.Has n j v := by
  induction l with
  | nil =>
    intro m m' _ _ _ _ h
    cases h
    exact ⟨by simp, by simp, fun n _ => ⟨fun _ _ => Iff.rfl, fun _ _ => Iff.rfl⟩⟩
  | cons x t ih =>
    intro m m' h hn hord hl hm
    obtain ⟨i, tx, sig⟩ := x
    rw [List.pairwise_cons] at hord
    have hne : ∀ y ∈ t, y.2.1.nonce ≠ tx.nonce := fun y hy e => by
      have := hord.1 y hy; simp only at this; rw [e] at this; exact Nat.lt_irrefl _ this
    cases sig with
    | none =>
      obtain ⟨g1, g2, g3⟩ := ih h hn hord.2 (fun i tx sig hx => hl i tx sig (by simp [hx])) hm
      refine ⟨fun j tx' sig hx => ?_, fun j tx' hx => ?_, fun n hx => g3 n fun y hy => hx y (by simp [hy])⟩
      · simp only [List.mem_cons, Prod.mk.injEq, reduceCtorEq, and_false, false_or] at hx
        exact g1 j tx' sig hx
      · rcases List.mem_cons.1 hx with e | hx
        · cases e
          obtain ⟨c, h1, h2⟩ := hl i tx none (by simp)
          exact ⟨c, MKM.getEntry_eq.2 (((g3 tx.nonce hne).1 _ _).2 (MKM.getEntry_eq.1 h1)), h2⟩
        · exact g2 j tx' hx
    | some sig =>
      obtain ⟨inv, _⟩ := run_txInv h hn
      obtain ⟨c, h1, h2⟩ := hl i tx (some sig) (by simp)
      have hm' : m.processEvents (.signedTransaction i ⟨tx, sig⟩ :: t.filterMap fun x => x.2.2.map fun sig => .signedTransaction x.1 ⟨x.2.1, sig⟩) = .ok m' := hm
      simp only [Minter.processEvents, Res.bind_ok] at hm'
      obtain ⟨m₁, p1, p2⟩ := hm'
      obtain ⟨r1, r2, r3⟩ := h.processEvent (e := .signedTransaction i ⟨tx, sig⟩) ⟨c, h1, h2⟩ p1
      have hx := applyEvent_txs r3
      simp only [txEvent] at hx
      obtain ⟨⟨l₀, rs, q1⟩, q2, q3⟩ := signed_one inv (stx := ⟨tx, sig⟩) (MKM.getEntry_eq.1 h1) hx
      simp only at q1 q2 q3
      obtain ⟨g1, g2, g3⟩ := ih r1 (by rw [r2]; exact nonceNeverLowered_snoc hn (by simp)) hord.2 (by
        intro j tx' sig' hy
        obtain ⟨c', a1, a2⟩ := hl j tx' sig' (by simp [hy])
        exact ⟨c', MKM.getEntry_eq.2 (((q3 _ (hne _ hy)).1 _ _).2 (MKM.getEntry_eq.1 a1)), a2⟩) p2
      refine ⟨fun j tx' sig' hy => ?_, fun j tx' hy => ?_, fun n hy => ?_⟩
      · rcases List.mem_cons.1 hy with e | hy
        · simp only [Prod.mk.injEq, Option.some.injEq] at e
          obtain ⟨rfl, rfl, rfl⟩ := e
          have g := g3 tx'.nonce hne
          refine ⟨⟨l₀ ++ [⟨⟨tx', sig'⟩, rs⟩], rs, MKM.getEntry_eq.2 ((g.2 _ _).2 q1), by simp⟩, fun j' v hv => ?_⟩
          exact q2 _ _ ((g.1 _ _).1 (MKM.getEntry_eq.1 hv))
        · exact g1 j tx' sig' hy
      · simp only [List.mem_cons, Prod.mk.injEq, reduceCtorEq, and_false, false_or] at hy
        exact g2 j tx' hy
      · have e1 : n ≠ tx.nonce := fun e => hy (i, tx, some sig) (by simp) e.symm
        have g := g3 n fun y hy' => hy y (by simp [hy'])
        exact ⟨fun j v => (g.1 j v).trans ((q3 n e1).1 j v), fun j v => (g.2 j v).trans ((q3 n e1).2 j v)⟩

theorem signed_pending (l : List (LedgerBurnIndex × SignedTx)) : ∀ {m m' : Minter},
    m.processEvents (l.map fun x => .signedTransaction x.1 x.2) = .ok m' → m'.st.txs.pending = m.st.txs.pending := by
  induction l with
  | nil => intro m m' h; cases h; rfl
  | cons x t ih =>
    intro m m' h
    simp only [List.map_cons, Minter.processEvents, Res.bind_ok, Minter.processEvent, Res.pure_ok] at h
    obtain ⟨m₁, ⟨s₁, h1, rfl⟩, h2⟩ := h
    have hx := applyEvent_txs h1
    simp only [txEvent] at hx
    obtain ⟨_, _, _, _, _, _, _, _, e⟩ := recordSignedTransaction_ok hx
    rw [ih h2]
    show s₁.txs.pending = _
    rw [e]

omit [Keccak] in
theorem zip_pairwise : ∀ {batch : List (LedgerBurnIndex × Tx)} (sigs : List (Option Signature)),
    batch.Pairwise (fun x y => x.2.nonce < y.2.nonce) →
    ((batch.zip sigs).map fun x => (x.1.1, x.1.2, x.2)).Pairwise fun x y => x.2.1.nonce < y.2.1.nonce := by
  intro batch
  induction batch with
  | nil => intro sigs _; simp
  | cons b bs ih =>
    intro sigs h
    cases sigs with
    | nil => simp
    | cons s ss =>
      rw [List.pairwise_cons] at h
      rw [List.zip_cons_cons, List.map_cons, List.pairwise_cons]
      refine ⟨fun y hy => ?_, ih ss h.2⟩
      obtain ⟨z, hz, rfl⟩ := List.mem_map.1 hy
      exact h.1 _ (List.of_mem_zip (a := z.1) (b := z.2) hz).1

/-- **C71**, signing. When the signatures arrive, the callback does not trap, whichever of them are missing, and:
* a transaction whose signature arrived is now the latest version for its withdrawal and does not wait any more;
* a transaction whose signature is missing still waits;
* nothing changes for other nonces, nor for the requests in the queue;
* the round goes on with sending. -/
theorem C71_sign {w : World} (h : Reachable w) (hn : NonceNeverLowered w.mem.m.log) {id : Nat} {count : Option TransactionCount}
    {batch : List (LedgerBurnIndex × Tx)} {o : Option LedgerAnswer} (hp : ⟨id, .ext (.retrieveSign count batch), o⟩ ∈ w.tasks)
    (sigs : List (Option Signature)) (now : Nat) :
    ∃ m c' n, (ExtTask.retrieveSign count batch).resume w.mem now (.signatures sigs) = some (.ok (c', n)) ∧ c'.m = m ∧
      (∀ i tx sig, ((i, tx), some sig) ∈ batch.zip sigs → Latest m.st i ⟨tx, sig⟩ ∧ ∀ tx', tx'.nonce = tx.nonce → ¬ Waiting m.st i tx') ∧
      (∀ i tx, ((i, tx), none) ∈ batch.zip sigs → Waiting m.st i tx) ∧
      (∀ i tx, (∀ x ∈ batch, x.2.nonce ≠ tx.nonce) → (Waiting m.st i tx ↔ Waiting w.mem.m.st i tx)) ∧
      (∀ i x, (∀ y ∈ batch, y.2.nonce ≠ x.tx.nonce) → (Latest m.st i x ↔ Latest w.mem.m.st i x)) ∧
      m.st.txs.pending = w.mem.m.st.txs.pending ∧ ThenSends { w.mem with m := m } count c' n := by
  have hrun := run_of_reachable h hn
  obtain ⟨hc1, hc2⟩ : SignOk w.mem.m.st batch := (runInv h hn).claim _ hp
  have hpw := zip_pairwise sigs hc1
  have hwait : ∀ i tx sig, (i, tx, sig) ∈ (batch.zip sigs).map (fun x => (x.1.1, x.1.2, x.2)) → Waiting w.mem.m.st i tx := by
    intro i tx sig hx
    obtain ⟨⟨⟨i', tx'⟩, s'⟩, hm, he⟩ := List.mem_map.1 hx
    simp only [Prod.mk.injEq] at he
    obtain ⟨rfl, rfl, rfl⟩ := he
    exact hc2 _ _ (List.of_mem_zip hm).1
  obtain ⟨m, k1, k2, k3, _⟩ := run_recordSigned ((batch.zip sigs).map fun x => (x.1.1, x.1.2, x.2)) hrun hn hpw hwait
  obtain ⟨e1, e2, e3⟩ := recordSigned_effect _ hrun hn hpw hwait k1
  obtain ⟨c', n, b1, b2⟩ := thenSends (c := { w.mem with m := m }) k2 k3 count
  have hother : ∀ {n}, (∀ x ∈ batch, x.2.nonce ≠ n) →
      ∀ x ∈ (batch.zip sigs).map (fun x => (x.1.1, x.1.2, x.2)), x.2.1.nonce ≠ n := by
    intro n hx y hy
    obtain ⟨z, hz, rfl⟩ := List.mem_map.1 hy
    exact hx _ (List.of_mem_zip (a := z.1) (b := z.2) hz).1
  refine ⟨m, c', n, ?_, Mem.retrieveSend_m b1, ?_, ?_, ?_, ?_, ?_, b2⟩
  · simp only [ExtTask.resume, Mem.onSignatures, k1, Res.ok_bind, b1]
  · intro i tx sig hx
    obtain ⟨f1, f2⟩ := e1 i tx sig (List.mem_map.2 ⟨_, hx, rfl⟩)
    refine ⟨f1, ?_⟩
    rintro tx' ht ⟨c, hc, _⟩
    rw [ht] at hc
    exact f2 _ _ hc
  · intro i tx hx
    exact e2 i tx (List.mem_map.2 ⟨_, hx, rfl⟩)
  · intro i tx hx
    have := (e3 _ (hother hx)).1
    simp only [Waiting, MKM.getEntry_eq, this]
  · intro i x hx
    have := (e3 _ (hother hx)).2
    simp only [Latest, MKM.getEntry_eq, this]
  · refine signed_pending (((batch.zip sigs).map fun x => (x.1.1, x.1.2, x.2)).filterMap fun x => x.2.2.map fun sig => (x.1, ⟨x.2.1, sig⟩))
      (m' := m) ?_
    rw [← k1, List.map_filterMap]
    unfold Minter.recordSigned
    congr; funext x
    cases x.2.2 <;> rfl

/-- **C71**, after sending: whatever became of the transactions sent, the round goes on with finalizing. -/
theorem C71_sent {w : World} (h : Reachable w) (hn : NonceNeverLowered w.mem.m.log) (batch : List SignedTx) (now : Nat) :
    ∃ c' n, (ExtTask.retrieveSend batch).resume w.mem now .sent = some (.ok (c', n)) ∧ ThenFinalizes w.mem c' n :=
  ⟨_, _, rfl, thenFinalizes (run_of_reachable h hn) hn⟩

/-- **C71**, finalizing. When the finalized transaction count arrives, the callback does not trap, unless the hashes of two transactions
sent for different withdrawals collide: the round asks for the receipts of all versions of the transactions below the count, if there
are any, and ends otherwise. (What is done with the receipts is the subject of C60.) -/
theorem C71_finalize {w : World} (h : Reachable w) (hn : NonceNeverLowered w.mem.m.log)
    (hinj : ∀ n i l n' i' l', w.mem.m.st.txs.sent.getEntry n = some (i, l) → w.mem.m.st.txs.sent.getEntry n' = some (i', l') →
      ∀ x ∈ l, ∀ y ∈ l', x.transaction.hash = y.transaction.hash → i = i') (count : TransactionCount) (now : Nat) :
    (ExtTask.retrieveFinalizedCount).resume w.mem now (.count none) = some (.ok (w.mem.release .retrieveEth, .finish none)) ∧
    ∃ f : FMap Hash LedgerBurnIndex, (∀ hash i, f.get hash = some i ↔ ∃ n l x, w.mem.m.st.txs.sent.getEntry n = some (i, l) ∧ n < count ∧
        x ∈ l ∧ x.transaction.hash = hash) ∧
      (ExtTask.retrieveFinalizedCount).resume w.mem now (.count (some count)) = some (.ok
        (if f.toList = [] then (w.mem.release .retrieveEth, .finish none) else (w.mem, .await (.ext (.retrieveReceipts f))))) := by
  refine ⟨rfl, ?_⟩
  obtain ⟨f, h1, h2⟩ := C43_finalize (run_of_reachable h hn) hn count hinj
  refine ⟨f, h2, ?_⟩
  simp only [ExtTask.resume, Mem.onFinalizedCount, h1, Res.ok_bind]
  cases hf : f.toList with
  | nil =>
    simp only [List.isEmpty_nil, if_true, Mem.onReceipts, Minter.recordReceipts, hf, List.zip_nil_left, Minter.collectReceipts]
    have hv : f.values = [] := by
      have : f.values = f.toList.map (·.2) := rfl
      rw [this, hf]; rfl
    rw [hv]
    rfl
  | cons x t => rfl

omit [Keccak] in
theorem mem_zip_map {α β : Type} (f : α → β) {l : List α} {x : α} (h : x ∈ l) : (x, f x) ∈ l.zip (l.map f) := by
  induction l with
  | nil => cases h
  | cons y t ih =>
    rcases List.mem_cons.1 h with rfl | h
    · simp
    · simp [ih h]

theorem latest_lt {log : List Event} {s : State} (h : Run log s) (hn : NonceNeverLowered log) {i : LedgerBurnIndex} {x : SignedTx}
    (hx : Latest s i x) : x.tx.nonce < s.txs.nextNonce := by
  obtain ⟨l, _, h1, _⟩ := hx
  exact ((run_txInv h hn).1.sN _ _ _ (MKM.getEntry_eq.1 h1)).1

theorem hasPending_iff {log : List Event} {s : State} (h : Run log s) (hn : NonceNeverLowered log) :
    s.txs.hasPending = true ↔ s.txs.pending ≠ [] ∨ ∃ n, InUse s n := by
  obtain ⟨inv, _⟩ := run_txInv h hn
  have hc : s.txs.created.byKey.isEmpty = false ↔ ∃ n i c, s.txs.created.getEntry n = some (i, c) := by
    rw [← Bool.not_eq_true, FMap.isEmpty_iff]
    constructor
    · intro hh
      apply Classical.byContradiction
      intro hno
      apply hh
      intro n
      cases hk : s.txs.created.byKey.get n with
      | none => rfl
      | some i =>
        obtain ⟨c, hv⟩ := inv.cw.alt_of_key hk
        exact absurd ⟨n, i, c, MKM.getEntry_eq.2 ⟨hk, hv⟩⟩ hno
    · rintro ⟨n, i, c, he⟩ hh
      have := (MKM.getEntry_eq.1 he).1
      rw [hh n] at this; cases this
  have hs : s.txs.sent.byKey.isEmpty = false ↔ ∃ n i l, s.txs.sent.getEntry n = some (i, l) := by
    rw [← Bool.not_eq_true, FMap.isEmpty_iff]
    constructor
    · intro hh
      apply Classical.byContradiction
      intro hno
      apply hh
      intro n
      cases hk : s.txs.sent.byKey.get n with
      | none => rfl
      | some i =>
        obtain ⟨c, hv⟩ := inv.sw.alt_of_key hk
        exact absurd ⟨n, i, c, MKM.getEntry_eq.2 ⟨hk, hv⟩⟩ hno
    · rintro ⟨n, i, c, he⟩ hh
      have := (MKM.getEntry_eq.1 he).1
      rw [hh n] at this; cases this
  unfold hasPending
  simp only [Bool.or_eq_true, Bool.not_eq_true', hc, hs, List.isEmpty_eq_false_iff, InUse]
  constructor
  · rintro ((hp | ⟨n, i, c, hx⟩) | ⟨n, i, l, hx⟩)
    · exact .inl hp
    · exact .inr ⟨n, .inl ⟨i, c, hx⟩⟩
    · exact .inr ⟨n, .inr ⟨i, l, hx⟩⟩
  · rintro (hp | ⟨n, ⟨i, c, hx⟩ | ⟨i, l, hx⟩⟩)
    · exact .inl (.inl hp)
    · exact .inl (.inr ⟨n, i, c, hx⟩)
    · exact .inr ⟨n, i, l, hx⟩

/-- **C71**, the beginning. While another round is under way, a new one does nothing. Otherwise it goes on, with the recent estimate or by
asking for one, exactly if some request is in the queue or some nonce is in use; if not, nothing is changed. (An estimate being fetched
by someone else ends the round as well.) -/
theorem C71_begin {w : World} (h : Reachable w) (hn : NonceNeverLowered w.mem.m.log) (cached : Option GasFeeEstimate) (now : Nat) :
    (TaskType.retrieveEth ∈ w.mem.active → (Message.retrieve cached).run w.mem now = .ok (w.mem, .finish none)) ∧
    (TaskType.retrieveEth ∉ w.mem.active → (w.mem.m.st.txs.pending ≠ [] ∨ ∃ n, InUse w.mem.m.st n) →
      (∀ g, cached = some g → (Message.retrieve cached).run w.mem now =
        .ok ({ w.mem with active := .retrieveEth :: w.mem.active }, .await (.ext (.retrieveCount g)))) ∧
      (cached = none → TaskType.refreshGasFeeEstimate ∉ w.mem.active → (Message.retrieve cached).run w.mem now =
        .ok ({ w.mem with active := .refreshGasFeeEstimate :: .retrieveEth :: w.mem.active }, .await (.ext .retrieveGas))) ∧
      (cached = none → TaskType.refreshGasFeeEstimate ∈ w.mem.active → (Message.retrieve cached).run w.mem now =
        .ok (w.mem, .finish none))) ∧
    (TaskType.retrieveEth ∉ w.mem.active → w.mem.m.st.txs.pending = [] → (∀ n, ¬ InUse w.mem.m.st n) →
      (Message.retrieve cached).run w.mem now = .ok (w.mem, .finish none)) := by
  have hiff := hasPending_iff (run_of_reachable h hn) hn
  have hkeep : TaskType.retrieveEth ∉ w.mem.active → w.mem.active.filter (· != TaskType.retrieveEth) = w.mem.active := by
    intro hfree
    rw [List.filter_eq_self]
    intro x hx
    simp only [bne_iff_ne, ne_eq]
    rintro rfl
    exact hfree hx
  refine ⟨fun hact => ?_, fun hfree hp => ?_, fun hfree hp hno => ?_⟩
  · simp [Message.run, Mem.startRetrieve, Mem.acquire, hact]
  · have hp := hiff.2 hp
    refine ⟨fun g hg => ?_, fun hc hr => ?_, fun hc hr => ?_⟩
    · subst hg
      simp [Message.run, Mem.startRetrieve, Mem.acquire, hfree, hp, Mem.onRetrieveGas]
    · subst hc
      simp [Message.run, Mem.startRetrieve, Mem.acquire, hfree, hp, hr]
    · subst hc
      simp [Message.run, Mem.startRetrieve, Mem.acquire, hfree, hp, hr, Mem.onRetrieveGas, Mem.retrieveEnd, Mem.release, hkeep hfree]
  · have hp : w.mem.m.st.txs.hasPending = false := by
      rw [← Bool.not_eq_true, hiff]
      rintro (hh | ⟨n, hh⟩)
      · exact hh hp
      · exact hno n hh
    simp [Message.run, Mem.startRetrieve, Mem.acquire, hfree, hp, Mem.retrieveEnd, Mem.release, hkeep hfree]

/-- **C71**, all of it. Let no round of sending be under way, let no transaction wait for a signature, and let `batch` be the requests whose
turn it is, some of them affordable. Then the minter can get to ask for all of the affordable ones to be sent: it takes one round with an
estimate in which the transactions sent earlier are mined and all signatures arrive. -/
theorem C71_round {w : World} (h : Reachable w) (hn : NonceNeverLowered w.mem.m.log) (hfree : TaskType.retrieveEth ∉ w.mem.active)
    {g : GasFeeEstimate} (hg : g.Bounded) (hz : 0 < g.baseFeePerGas ∨ 0 < g.maxPriorityFeePerGas)
    (hq : ∀ q, Request.native q ∈ w.mem.m.st.txs.pending → q.withdrawalAmount < 2 ^ 256 - 1)
    (hnonce : w.mem.m.st.txs.nextNonce + 5 < 2 ^ 256) (hnone : ∀ i tx, ¬ Waiting w.mem.m.st i tx) {inUse : List TransactionNonce}
    (hd : inUse.Nodup) (hu : ∀ n, n ∈ inUse ↔ InUse w.mem.m.st n) {batch rest : List Request}
    (hb : w.mem.m.st.txs.pending = batch ++ rest)
    (hl : batch.length = min 5 (1000 - inUse.length) ∨ rest = [] ∧ batch.length ≤ min 5 (1000 - inUse.length))
    (hsome : ∃ r ∈ batch, Affordable g r) (sign : Tx → Signature) :
    ∃ w' id sends, Leads w w' ∧ ⟨id, .ext (.retrieveSend sends), none⟩ ∈ w'.tasks ∧
      (∀ r ∈ batch, Affordable g r → ∃ tx, Latest w'.mem.m.st r.burnIndex ⟨tx, sign tx⟩ ∧ ⟨tx, sign tx⟩ ∈ sends) ∧
      w'.mem.m.st.txs.pending = rest ++ batch.filter (fun r => !decide (Affordable g r)) := by
  obtain ⟨r0, hr0, ha0⟩ := hsome
  have hlen : batch.length ≤ 5 := by
    rcases hl with hl | ⟨_, hl⟩
    · rw [hl]; exact Nat.min_le_left _ _
    · exact Nat.le_trans hl (Nat.min_le_left _ _)
  -- the round begins
  have hpend : w.mem.m.st.txs.hasPending = true := by
    have : w.mem.m.st.txs.pending ≠ [] := by rw [hb]; intro hh; simp at hh; rw [hh.1] at hr0; cases hr0
    cases hp : w.mem.m.st.txs.pending with
    | nil => exact absurd hp this
    | cons _ _ => simp [hasPending, hp]
  have hstart : (Message.retrieve (some g)).run w.mem 0 =
      .ok ({ w.mem with active := .retrieveEth :: w.mem.active }, .await (.ext (.retrieveCount g))) := by
    simp [Message.run, Mem.startRetrieve, Mem.acquire, hfree, hpend, Mem.onRetrieveGas]
  have s1 := Step.start w (.retrieve (some g)) 0 _ _ hg hstart
  generalize hw1 : (w.begin (.retrieve (some g))).advance w.tasks [] w.nextId { w.mem with active := .retrieveEth :: w.mem.active }
    (.await (.ext (.retrieveCount g))) = w1 at s1
  have m1 : w1.mem.m = w.mem.m := by rw [← hw1]; rfl
  have t1 : w1.tasks = w.tasks ++ [⟨w.nextId, .ext (.retrieveCount g), none⟩] := by
    rw [← hw1]; simp [World.advance, World.begin, Next.pending]
  have r1 : Reachable w1 := .step _ _ h s1
  -- transactions are created
  obtain ⟨m2, c2, n2, e1, rfl, e3, e4, _, e5, e6, e7, all, a1, a2, a3⟩ := C71_create r1 (by rw [m1]; exact hn) (id := w.nextId) (g := g)
    (o := none) (by rw [t1]; simp) hz (by rw [m1]; exact hq) (by rw [m1]; exact hnonce) hd (by rw [m1]; exact hu) (by rw [m1]; exact hb) hl
    (some w.mem.m.st.txs.nextNonce) 0
  have hall : all ≠ [] := by
    obtain ⟨tx, ht⟩ := e4 r0 hr0 ha0
    intro hh
    have := (a2 _ _).2 ht
    rw [hh] at this; cases this
  obtain ⟨_, e8, rfl⟩ : all ≠ [] ∧ _ := a3.resolve_right fun hh => hall hh.1
  rw [m1] at e5 e6
  have hold : ∀ {i x}, Latest w.mem.m.st i x → x.tx.nonce < w.mem.m.st.txs.nextNonce := fun hx => latest_lt (run_of_reachable h hn) hn hx
  have hnew : ∀ i tx, (i, tx) ∈ all → ∃ r ∈ batch, r.burnIndex = i ∧ w.mem.m.st.txs.nextNonce ≤ tx.nonce := by
    intro i tx hx
    rcases e5 i tx ((a2 _ _).1 hx) with ⟨⟨r, hr, _, he⟩, hge⟩ | ⟨tx', _, ht⟩ | ⟨⟨k, hk, hle⟩, x, hx, hlast⟩
    · exact ⟨r, hr, he, hge⟩
    · exact absurd ht (hnone _ _)
    · cases hk
      have := hold hlast
      rw [hx] at this
      exact absurd hle (Nat.not_le.2 this)
  have s2 := Step.answer w1 w.tasks [] w.nextId (.retrieveCount g) none (.count (some w.mem.m.st.txs.nextNonce)) 0 _ _ t1 trivial e1
  generalize hw2 : w1.advance w.tasks [] w.nextId c2 (.await (.ext (.retrieveSign (some w.mem.m.st.txs.nextNonce) (all.take 5)))) = w2 at s2
  have m2 : w2.mem = c2 := by rw [← hw2]; rfl
  have t2 : w2.tasks = w.tasks ++ [⟨w.nextId, .ext (.retrieveSign (some w.mem.m.st.txs.nextNonce) (all.take 5)), none⟩] := by
    rw [← hw2]; simp [World.advance, Next.pending]
  have r2 : Reachable w2 := .step _ _ r1 s2
  have hn2 : NonceNeverLowered w2.mem.m.log := by rw [m2]; exact e7
  have inv2 := (run_txInv (run_of_reachable r2 hn2) hn2).1
  have hcount : all.length ≤ 5 := by
    have hnd : (all.map (·.1)).Nodup := by
      unfold List.Nodup
      rw [List.pairwise_map]
      refine List.Pairwise.imp_of_mem ?_ a1
      rintro ⟨i, tx⟩ ⟨j, tx'⟩ hx hy hlt (rfl : i = j)
      obtain ⟨c, hc, _⟩ := (a2 _ _).1 hx
      obtain ⟨c', hc', _⟩ := (a2 _ _).1 hy
      rw [MKM.getEntry_eq] at hc hc'
      rw [m2] at inv2
      have := (MKM.Has.unique_alt inv2.cw hc hc').1
      simp only [this] at hlt
      exact Nat.lt_irrefl _ hlt
    have := length_le_of_nodup hnd (m := batch.map (·.burnIndex)) (by
      intro i hi
      obtain ⟨⟨_, tx⟩, hx, rfl⟩ := List.mem_map.1 hi
      obtain ⟨r, hr, he, _⟩ := hnew _ _ hx
      exact List.mem_map.2 ⟨r, hr, he⟩)
    simp only [List.length_map] at this
    omega
  have htake : all.take 5 = all := List.take_of_length_le hcount
  rw [htake] at t2
  -- they are signed
  obtain ⟨m3, c3, n3, f1, rfl, f3, _, f4, f5, f7, f6⟩ := C71_sign r2 hn2 (id := w.nextId) (o := none)
    (count := some w.mem.m.st.txs.nextNonce) (batch := all) (by rw [t2]; simp)
    (all.map fun x => some (sign x.2)) 0
  obtain ⟨sends, g1, g2, g3⟩ := f6
  have hzip : ∀ x ∈ all, (x, some (sign x.2)) ∈ all.zip (all.map fun x => some (sign x.2)) := by
    exact fun x hx => mem_zip_map _ hx
  have hsent : ∀ i tx, (i, tx) ∈ all → Latest c3.m.st i ⟨tx, sign tx⟩ ∧ ⟨tx, sign tx⟩ ∈ sends := by
    intro i tx hx
    have hlat := (f3 i tx _ (hzip _ hx)).1
    obtain ⟨_, _, _, hge⟩ := hnew _ _ hx
    exact ⟨hlat, (g2 _).2 ⟨⟨_, rfl, hge⟩, i, hlat⟩⟩
  have hsends : sends ≠ [] := by
    obtain ⟨x, hx⟩ := List.exists_mem_of_ne_nil _ hall
    intro hh
    have := (hsent _ _ hx).2
    rw [hh] at this; cases this
  obtain ⟨_, _, rfl⟩ : sends ≠ [] ∧ _ := g3.resolve_right fun hh => hsends hh.1
  have hlast : sends.length ≤ 5 := by
    have hnd : (sends.map fun x => x.tx.nonce).Nodup := by
      unfold List.Nodup
      rw [List.pairwise_map]
      refine g1.imp fun {a b} hlt he => ?_
      rw [he] at hlt
      exact Nat.lt_irrefl _ hlt
    have := length_le_of_nodup hnd (m := all.map fun x => x.2.nonce) (by
      intro k hk
      obtain ⟨x, hx, rfl⟩ := List.mem_map.1 hk
      obtain ⟨⟨k, hk, hle⟩, i, hi⟩ := (g2 _).1 hx
      cases hk
      refine Decidable.byContradiction fun hno => ?_
      have := (f5 i x fun y hy he => hno (List.mem_map.2 ⟨y, hy, he⟩)).1 hi
      rw [m2] at this
      have := hold (i := i) (x := x) (by simpa only [Latest, e6] using this)
      exact absurd hle (Nat.not_le.2 this))
    simp only [List.length_map] at this
    omega
  have s3 := Step.answer w2 w.tasks [] w.nextId _ none (.signatures (all.map fun x => some (sign x.2))) 0 _ _ t2 trivial f1
  refine ⟨_, w.nextId, sends.take 5, .step _ _ _ (.step _ _ _ (.step _ _ _ (.refl _) s1) s2) s3, ?_, ?_, ?_⟩
  · simp [World.advance, Next.pending]
  · intro r hr ha
    obtain ⟨tx, ht⟩ := e4 r hr ha
    rw [List.take_of_length_le hlast]
    exact ⟨tx, hsent _ _ ((a2 _ _).2 ht)⟩
  · show c3.m.st.txs.pending = _
    rw [f7, m2, e3]

end

namespace Example
attribute [local instance] keccak

/-- The hypotheses of `C71_round` hold with two requests in the queue, both affordable. -/
theorem C71_example : ∃ w, Reachable w ∧ decide (TaskType.retrieveEth ∉ w.mem.active ∧ w.mem.m.st.txs.created.byKey.toList = [] ∧
    w.mem.m.st.txs.sent.byKey.toList = [] ∧ w.mem.m.st.txs.nextNonce = 5 ∧ w.mem.m.st.txs.pending.length = 2 ∧
    (w.mem.m.st.txs.pending.all fun r => decide (Affordable gasEstimate r)) = true ∧ 0 < gasEstimate.baseFeePerGas) = true :=
  after_reachable (arg := initArg) (l := sending.dropLast.dropLast) (by decide +kernel)

/-- One of two signatures is missing: the round goes on with the other transaction, and the first one still waits. -/
theorem C71_example_sign : ∃ w, Reachable w ∧ (match w.tasks with
    | [⟨_, .ext (.retrieveSend l), _⟩] => decide (l = [usdcTx] ∧ (w.mem.m.st.txs.created.getEntry 5).map (·.2.transaction) = some nativeTx.tx ∧
        (w.mem.m.st.txs.sent.getEntry 6).map (·.2.map (·.transaction)) = some [usdcTx])
    | _ => false) = true :=
  after_reachable (arg := initArg) (l := sending ++ [.answer 0 (.signatures [none, some sig]) 42]) (by decide +kernel)

end Example

end EvmMinter
