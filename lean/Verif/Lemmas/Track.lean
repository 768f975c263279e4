import Verif.Lemmas.Tasks
import Verif.Lemmas.Live
/-!
# Which events a message records

`Tracks log s`: the live state is the replayed log, up to the order of the queue and the scraped block number. Messages
record only events of their own kind (`Event.origin`), which is why suspended tasks can rely on what they saw before.
-/

namespace EvmMinter
open Spec

/-- The live state is the replayed one, up to the order of the queue and the scraped block number. -/
def Tracks [Keccak] (log : List Event) (s : State) : Prop :=
  ∃ s₀, replay log = .ok s₀ ∧ PendingNodup s₀.txs.pending ∧ s₀.txs.pending.Perm s.txs.pending ∧
    s = s₀.setPB s.txs.pending s.lastScrapedBlockNumber

theorem Transactions.reschedule_mem {t t' : Transactions} {r : Request} (h : t.reschedule r = .ok t') : r ∈ t.pending := by
  simp only [reschedule, Res.bind_ok, Res.ensure_ok] at h
  obtain ⟨_, h1, h2⟩ := h
  obtain ⟨_, h3⟩ := recordWithdrawalRequest_pending h2
  apply Classical.byContradiction
  intro hr
  have h4 : (t.pending.filter (fun r' => r'.burnIndex == r.burnIndex)) ≠ [] := by
    intro h0; rw [h0] at h1; simp at h1
  obtain ⟨x, hx⟩ := List.exists_mem_of_ne_nil _ h4
  rw [List.mem_filter] at hx
  refine h3 x ?_ (by simpa using hx.2)
  simp only [removeWithdrawalRequest, List.mem_filter, Bool.not_eq_true', beq_eq_false_iff_ne, ne_eq]
  exact ⟨hx.1, fun e => hr (e ▸ hx.1)⟩

variable [Keccak]

theorem Tracks.init {a : InitArg} {s : State} (h : State.ofInit a = .ok s) : Tracks [.init a] s :=
  ⟨s, by simp [replay, h, applyEvents], pendingNodup_of_replay (log := [.init a]) (by simp [replay, h, applyEvents]), .refl _, rfl⟩

theorem Tracks.event {log : List Event} {s s' : State} {e : Event} (h : Tracks log s) (ha : applyEvent s e = .ok s') :
    Tracks (log ++ [e]) s' := by
  obtain ⟨s₀, h1, h2, h3, h4⟩ := h
  have hs : s₀ = s.setPB s₀.txs.pending s₀.lastScrapedBlockNumber := by rw [h4]; rfl
  obtain ⟨q', b', h5, h6⟩ := applyEvent_setPB (h2.perm h3) s₀.lastScrapedBlockNumber h3.symm ha
  rw [← hs] at h5
  have h7 : replay (log ++ [e]) = .ok (s'.setPB q' b') := by
    rw [replay_snoc (replay_ne_nil h1), h1]; exact h5
  exact ⟨_, h7, pendingNodup_of_replay h7, h6.symm, rfl⟩

theorem Tracks.reschedule {log : List Event} {s : State} {r : Request} {t : Transactions} (h : Tracks log s)
    (ht : s.txs.reschedule r = .ok t) : Tracks log { s with txs := t } := by
  obtain ⟨s₀, h1, h2, h3, h4⟩ := h
  obtain ⟨h5, h6⟩ := reschedule_ok (h2.perm h3) (Transactions.reschedule_mem ht) ht
  refine ⟨s₀, h1, h2, h3.trans h6, ?_⟩
  show ({ s with txs := t } : State) = _
  rw [h5, h4]; rfl

theorem Tracks.scraped {log : List Event} {s : State} (h : Tracks log s) (b : BlockNumber) :
    Tracks log { s with lastScrapedBlockNumber := b } := by
  obtain ⟨s₀, h1, h2, h3, h4⟩ := h
  refine ⟨s₀, h1, h2, h3, ?_⟩
  show ({ s with lastScrapedBlockNumber := b } : State) = _
  rw [h4]; rfl

theorem Tracks.replay {log : List Event} {s : State} (h : replay log = .ok s) : Tracks log s :=
  ⟨s, h, pendingNodup_of_replay h, .refl _, rfl⟩

theorem Tracks.nodup {log : List Event} {s : State} (h : Tracks log s) : PendingNodup s.txs.pending := by
  obtain ⟨s₀, _, h2, h3, _⟩ := h
  exact h2.perm h3

/-- What happened between two tracked states: the events of the difference of the logs, from equivalent states. -/
theorem Tracks.between' {log es : List Event} {s s' : State} (h : Tracks log s) (h' : Tracks (log ++ es) s') :
    ∃ s₀ s₀', EvmMinter.replay log = .ok s₀ ∧ s = s₀.setPB s.txs.pending s.lastScrapedBlockNumber ∧
      s' = s₀'.setPB s'.txs.pending s'.lastScrapedBlockNumber ∧ applyEvents s₀ es = .ok s₀' := by
  obtain ⟨s₀, h1, _, _, h4⟩ := h
  obtain ⟨s₀', k1, _, _, k4⟩ := h'
  refine ⟨s₀, s₀', h1, h4, k4, ?_⟩
  cases log with
  | nil => exact absurd rfl (replay_ne_nil h1)
  | cons x t =>
    cases x <;> simp only [EvmMinter.replay, List.cons_append, reduceCtorEq] at h1 k1
    split at h1
    · rename_i hi
      rw [hi] at k1
      simp only [applyEvents_append, h1] at k1
      exact k1
    · cases h1

theorem Tracks.between {log es : List Event} {s s' : State} (h : Tracks log s) (h' : Tracks (log ++ es) s') :
    ∃ s₀ s₀', s = s₀.setPB s.txs.pending s.lastScrapedBlockNumber ∧ s' = s₀'.setPB s'.txs.pending s'.lastScrapedBlockNumber ∧
      applyEvents s₀ es = .ok s₀' :=
  let ⟨s₀, s₀', _, h⟩ := h.between' h'
  ⟨s₀, s₀', h⟩

/-- Invariants of the replayed state that do not depend on the order of the queue and the scraped block number carry over. -/
theorem Tracks.induct {P : State → Prop} (hP : ∀ s p b, P s → P (s.setPB p b)) (h0 : ∀ a s, State.ofInit a = .ok s → P s)
    (h1 : ∀ s e s', P s → applyEvent s e = .ok s' → P s') {log : List Event} {s : State} (h : Tracks log s) : P s := by
  obtain ⟨s₀, k1, _, _, k4⟩ := h
  rw [k4]
  exact hP _ _ _ (replay_induct (P := fun _ s => P s) h0 (fun _ s e s' _ hs ha => h1 s e s' hs ha) k1)

theorem applyEvents_induct {P : State → Prop} {es : List Event} (h1 : ∀ e ∈ es, ∀ s s', P s → applyEvent s e = .ok s' → P s') :
    ∀ {s s' : State}, P s → applyEvents s es = .ok s' → P s' := by
  induction es with
  | nil => intro s s' h ha; cases ha; exact h
  | cons e t ih =>
    intro s s' h ha
    simp only [applyEvents, Res.bind_ok] at ha
    obtain ⟨s1, ha1, ha2⟩ := ha
    exact ih (fun e he => h1 e (by simp [he])) (h1 e (by simp) s s1 h ha1) ha2

/-- Facts that the events between two tracked states preserve. -/
theorem Tracks.keeps {P : State → Prop} (hP : ∀ s p b, P (s.setPB p b) ↔ P s) {log es : List Event} {s s' : State} (h : Tracks log s)
    (h' : Tracks (log ++ es) s') (h1 : ∀ e ∈ es, ∀ s s', P s → applyEvent s e = .ok s' → P s') (hs : P s) : P s' := by
  obtain ⟨s₀, s₀', e1, e2, e3⟩ := h.between h'
  rw [e2, hP]
  rw [e1, hP] at hs
  exact applyEvents_induct h1 hs e3

/-! ## Kinds of events -/

/-- The part of the code that records an event. -/
inductive Origin where
  | scrape | mint | reimburse | retrieve | endpoint | token | lifecycle
deriving DecidableEq

def Event.origin : Event → Origin
  | .init _ | .upgrade _ | .syncedToBlock _ => .lifecycle
  | .acceptedDeposit _ | .acceptedErc20Deposit _ | .invalidDeposit _ _ | .skippedBlock _ => .scrape
  | .mintedNative _ _ | .mintedErc20 _ _ _ _ | .quarantinedDeposit _ => .mint
  | .acceptedNativeWithdrawalRequest _ | .acceptedErc20WithdrawalRequest _ | .failedErc20WithdrawalRequest _ => .endpoint
  | .createdTransaction _ _ | .signedTransaction _ _ | .replacedTransaction _ _ | .finalizedTransaction _ _ => .retrieve
  | .reimbursedNativeWithdrawal _ | .reimbursedErc20Withdrawal _ _ _ | .quarantinedReimbursement _ => .reimburse
  | .addedErc20Token _ => .token

def LedgerTask.origin : LedgerTask → Origin
  | .mintUser _ _ _ _ _ _ | .mintFee _ _ _ _ _ _ _ => .mint
  | .reimburse _ _ _ _ => .reimburse
  | _ => .endpoint

def ExtTask.origin : ExtTask → Origin
  | .scrape _ => .scrape
  | .gas => .retrieve
  | .erc20Gas _ => .endpoint
  | _ => .retrieve

def Task.origin : Task → Origin
  | .ledger t => t.origin
  | .ext t => t.origin

def Message.origin : Message → Origin
  | .mint => .mint
  | .reimbursement => .reimburse
  | .retrieve _ | .gas => .retrieve
  | .scrape => .scrape
  | .withdrawNative _ _ _ | .withdrawErc20 _ _ _ _ _ => .endpoint
  | .addToken _ _ => .token

theorem applyEvent_lastScraped {s s' : State} {e : Event} (h : applyEvent s e = .ok s') (he : e.origin ≠ .lifecycle) :
    s'.lastScrapedBlockNumber = s.lastScrapedBlockNumber := by
  have dep : ∀ {d : Deposit}, s.recordEventToMint d = .ok s' → s'.lastScrapedBlockNumber = s.lastScrapedBlockNumber := by
    intro d h
    obtain ⟨_, _, _, _, h⟩ := recordEventToMint_ok h
    rcases updateBalanceUponDeposit_ok h with ⟨_, _, _, _, rfl⟩ | ⟨_, _, _, _, rfl⟩ <;> rfl
  cases e <;> simp only [applyEvent] at h
  case init => cases h
  case upgrade a => exact absurd rfl he
  case syncedToBlock => exact absurd rfl he
  case acceptedDeposit d => exact dep h
  case acceptedErc20Deposit d => exact dep h
  case invalidDeposit src m =>
    obtain ⟨_, _, ⟨rfl, _⟩ | ⟨_, rfl⟩⟩ := recordInvalidDeposit_ok h <;> rfl
  case mintedNative src m => obtain ⟨_, _, _, _, rfl⟩ := recordSuccessfulMint_ok h; rfl
  case mintedErc20 src m _ _ => obtain ⟨_, _, _, _, rfl⟩ := recordSuccessfulMint_ok h; rfl
  case finalizedTransaction i r =>
    obtain ⟨t, _, h⟩ := stateRecordFinalized_ok h
    rw [updateBalanceUponWithdrawal_frame h]
  case skippedBlock c => obtain ⟨_, rfl⟩ := recordSkippedBlock_ok h; rfl
  case addedErc20Token t => obtain ⟨_, _, _, _, _, _, rfl⟩ := recordAddErc20Token_ok h; rfl
  case acceptedErc20WithdrawalRequest r => obtain ⟨_, _, _, rfl⟩ := recordErc20WithdrawalRequest_ok h; rfl
  case quarantinedDeposit src =>
    simp only [Except.ok.injEq] at h; subst h
    rw [recordQuarantinedDeposit_frame s src]
  case quarantinedReimbursement x => simp only [Except.ok.injEq] at h; subst h; rfl
  all_goals obtain ⟨t, _, rfl⟩ := liftTxs_ok h; rfl

/-- Requests are only added to the end of the queue, except by the task that sends them. -/
theorem applyEvent_queue {s s' : State} {e : Event} (h : applyEvent s e = .ok s') (he : e.origin ≠ .retrieve) :
    s.txs.pending <+: s'.txs.pending := by
  have hx := applyEvent_txs h
  have eq : s'.txs.pending = s.txs.pending → s.txs.pending <+: s'.txs.pending := fun h => by rw [h]; exact List.prefix_refl _
  cases e <;> simp only [txEvent] at hx
  case acceptedNativeWithdrawalRequest r =>
    rw [(recordWithdrawalRequest_pending hx).1]; exact List.prefix_append _ _
  case acceptedErc20WithdrawalRequest r =>
    rw [(recordWithdrawalRequest_pending hx).1]; exact List.prefix_append _ _
  case reimbursedNativeWithdrawal =>
    obtain ⟨_, _, _, hx⟩ := Transactions.recordFinalizedReimbursement_ok hx; exact eq (by rw [hx])
  case reimbursedErc20Withdrawal =>
    obtain ⟨_, _, _, hx⟩ := Transactions.recordFinalizedReimbursement_ok hx; exact eq (by rw [hx])
  case failedErc20WithdrawalRequest r =>
    obtain ⟨_, _, _, hx⟩ := Transactions.recordReimbursementRequest_ok hx; exact eq (by rw [hx])
  case upgrade a =>
    simp only [Except.ok.injEq] at hx
    refine eq ?_
    rw [← hx]; unfold withNonce; split <;> rfl
  case quarantinedReimbursement x => simp only [Except.ok.injEq] at hx; exact eq (by rw [← hx]; rfl)
  all_goals first
    | exact absurd rfl he
    | (simp only [Except.ok.injEq] at hx; exact eq (by rw [← hx]))

/-- The minter changed by events of one kind. -/
structure Grew (o : Origin) (m m' : Minter) : Prop where
  ext : ∃ es, m'.log = m.log ++ es ∧ ∀ e ∈ es, e.origin = o
  tracks : Tracks m.log m.st → Tracks m'.log m'.st
  keeps : o ≠ .scrape → o ≠ .lifecycle → m'.st.lastScrapedBlockNumber = m.st.lastScrapedBlockNumber
  queue : o ≠ .retrieve → o ≠ .lifecycle → m.st.txs.pending <+: m'.st.txs.pending

theorem Grew.refl (o : Origin) (m : Minter) : Grew o m m :=
  ⟨⟨[], by simp⟩, fun h => h, fun _ _ => rfl, fun _ _ => List.prefix_refl _⟩

theorem Grew.of_eq {o : Origin} {m m' : Minter} (h : m' = m) : Grew o m m' := h ▸ .refl o m

theorem Grew.trans {o : Origin} {m m' m'' : Minter} (h : Grew o m m') (h' : Grew o m' m'') : Grew o m m'' := by
  obtain ⟨es, h1, h2⟩ := h.ext
  obtain ⟨es', h3, h4⟩ := h'.ext
  refine ⟨⟨es ++ es', by rw [h3, h1, List.append_assoc], fun e he => ?_⟩, fun ht => h'.tracks (h.tracks ht),
    fun k l => (h'.keeps k l).trans (h.keeps k l), fun k l => (h.queue k l).trans (h'.queue k l)⟩
  rcases List.mem_append.1 he with he | he
  · exact h2 e he
  · exact h4 e he

theorem Grew.processEvent {m m' : Minter} {e : Event} {o : Origin} (he : e.origin = o) (h : m.processEvent e = .ok m') :
    Grew o m m' := by
  simp only [Minter.processEvent, Res.bind_ok, Res.pure_ok] at h
  obtain ⟨s, hs, rfl⟩ := h
  refine ⟨⟨[e], rfl, by simpa using he⟩, fun ht => ht.event hs, fun _ hl => ?_, fun hl _ => ?_⟩
  · exact applyEvent_lastScraped hs (by rw [he]; exact hl)
  · exact applyEvent_queue hs (by rw [he]; exact hl)

theorem Grew.processEvents {o : Origin} {l : List Event} (hl : ∀ e ∈ l, e.origin = o) : ∀ {m m' : Minter},
    m.processEvents l = .ok m' → Grew o m m' := by
  induction l with
  | nil => intro m m' h; cases h; exact .refl _ _
  | cons e t ih =>
    intro m m' h
    simp only [Minter.processEvents, Res.bind_ok] at h
    obtain ⟨m1, h1, h2⟩ := h
    exact (Grew.processEvent (hl e (by simp)) h1).trans (ih (fun e he => hl e (by simp [he])) h2)

theorem Grew.resubmit {m m' : Minter} {count : Option TransactionCount} {g : GasFeeEstimate} (h : m.resubmitBatch count g = .ok m') :
    Grew .retrieve m m' := by
  unfold Minter.resubmitBatch at h
  split at h
  · cases h; exact .refl _ _
  · split at h
    · cases h; exact .refl _ _
    · simp only [Res.bind_ok] at h
      obtain ⟨l, _, h⟩ := h
      refine Grew.processEvents (fun e he => ?_) h
      obtain ⟨x, _, hx⟩ := List.mem_filterMap.1 he
      split at hx
      · cases hx; rfl
      · cases hx

theorem Grew.createOne {m m' : Minter} {g : GasFeeEstimate} {r : Request} (h : m.createOne g r = .ok m') : Grew .retrieve m m' := by
  simp only [Minter.createOne, Res.bind_ok] at h
  obtain ⟨x, _, h⟩ := h
  split at h
  · exact Grew.processEvent rfl h
  · simp only [Res.bind_ok, Res.pure_ok] at h
    obtain ⟨t, ht, rfl⟩ := h
    exact ⟨⟨[], by simp⟩, fun hT => hT.reschedule ht, fun _ _ => rfl, fun hl _ => absurd rfl hl⟩

theorem Grew.create {g : GasFeeEstimate} {l : List Request} : ∀ {m m' : Minter}, m.createLoop g l = .ok m' → Grew .retrieve m m' := by
  induction l with
  | nil => intro m m' h; cases h; exact .refl _ _
  | cons e t ih =>
    intro m m' h
    simp only [Minter.createLoop, Res.bind_ok] at h
    obtain ⟨m1, h1, h2⟩ := h
    exact (Grew.createOne h1).trans (ih h2)

theorem Grew.signed {m m' : Minter} {l : List (LedgerBurnIndex × Tx × Option Signature)} (h : m.recordSigned l = .ok m') :
    Grew .retrieve m m' := by
  refine Grew.processEvents (fun e he => ?_) h
  obtain ⟨x, _, hx⟩ := List.mem_filterMap.1 he
  rw [Option.map_eq_some_iff] at hx
  obtain ⟨s, _, rfl⟩ := hx
  rfl

theorem Grew.receipts {m m' : Minter} {f : FMap Hash LedgerBurnIndex} {l : List Minter.ReceiptResult}
    (h : m.recordReceipts f l = .ok m') : Grew .retrieve m m' := by
  unfold Minter.recordReceipts at h
  split at h
  · cases h; exact .refl _ _
  · simp only [Res.bind_ok] at h
    obtain ⟨_, _, h⟩ := h
    refine Grew.processEvents (fun e he => ?_) h
    obtain ⟨x, _, rfl⟩ := List.mem_map.1 he
    rfl

theorem Grew.scraped (m : Minter) (b : BlockNumber) : Grew .scrape m (m.setScraped b) :=
  ⟨⟨[], by simp [Minter.setScraped]⟩, fun h => h.scraped b, fun h => absurd rfl h, fun _ _ => List.prefix_refl _⟩

theorem Grew.answer {m m' : Minter} {r : BlockRange} {a : LogsAnswer} (h : m.onAnswer r a = .ok m') : Grew .scrape m m' := by
  cases a with
  | failed => cases h; exact .refl _ _
  | tooLarge =>
    simp only [Minter.onAnswer] at h
    split at h
    · simp only [Res.bind_ok, Res.pure_ok] at h
      obtain ⟨m1, h1, rfl⟩ := h
      exact (Grew.processEvent rfl h1).trans (.scraped _ _)
    · cases h; exact .refl _ _
  | logs l =>
    simp only [Minter.onAnswer, Res.bind_ok, Res.pure_ok, Minter.registerDeposits] at h
    obtain ⟨x, _, m1, ⟨m2, h2, h3⟩, rfl⟩ := h
    refine ((Grew.processEvents (fun e he => ?_) h2).trans (Grew.processEvents (fun e he => ?_) h3)).trans (.scraped _ _)
    · obtain ⟨d, _, rfl⟩ := List.mem_map.1 he
      cases d <;> rfl
    · obtain ⟨x, _, hx⟩ := List.mem_filterMap.1 he
      cases x <;> simp only [reduceCtorEq, Option.some.injEq] at hx
      subst hx
      rfl

/-! ## Segments -/

theorem Grew.process {c c' : Mem} {e : Event} {o : Origin} (he : e.origin = o) (h : c.process e = .ok c') : Grew o c.m c'.m := by
  simp only [Mem.process, Res.bind_ok, Res.pure_ok] at h
  obtain ⟨m, hm, rfl⟩ := h
  exact Grew.processEvent he hm

omit [Keccak] in
theorem Mem.mintLoop_m {c c' : Mem} {env : MintEnv} {l : List Deposit} {n : Next} (h : c.mintLoop env l = .ok (c', n)) :
    c'.m = c.m := by
  cases l with
  | nil => cases h; rfl
  | cons d t =>
    simp only [Mem.mintLoop, Res.bind_ok, Res.pure_ok, Prod.mk.injEq] at h
    obtain ⟨_, _, _, _, rfl, _⟩ := h
    rfl

omit [Keccak] in
theorem Mem.reimburseLoop_m {c c' : Mem} {l : List (ReimbIndex × ReimbRequest)} {n : Next} (h : c.reimburseLoop l = .ok (c', n)) :
    c'.m = c.m := by
  cases l with
  | nil => cases h; rfl
  | cons d t => cases h; rfl

omit [Keccak] in
theorem Mem.retrieveFinalize_m (c : Mem) : c.retrieveFinalize.1.m = c.m := by
  unfold Mem.retrieveFinalize
  split <;> rfl

omit [Keccak] in
theorem Mem.retrieveSend_m {c c' : Mem} {count : Option TransactionCount} {n : Next} (h : c.retrieveSend count = .ok (c', n)) :
    c'.m = c.m := by
  unfold Mem.retrieveSend at h
  split at h
  · simp only [Except.ok.injEq] at h
    have := congrArg Prod.fst h
    simp only at this
    rw [← this, Mem.retrieveFinalize_m]
  · simp only [Res.bind_ok] at h
    obtain ⟨_, _, h⟩ := h
    split at h
    · simp only [Res.pure_ok] at h
      have := congrArg Prod.fst h
      simp only at this
      rw [← this, Mem.retrieveFinalize_m]
    · cases h; rfl

theorem Grew.mintRecord {c c' : Mem} {env : MintEnv} {d : Deposit} {symbol : String} {b : Nat} {l : List Deposit} {n : Next}
    (h : c.mintRecord env d symbol b l = .ok (c', n)) : Grew .mint c.m c'.m := by
  simp only [Mem.mintRecord, Res.bind_ok] at h
  obtain ⟨c1, h1, h2⟩ := h
  rw [Mem.mintLoop_m h2]
  refine Grew.process ?_ h1
  cases d <;> rfl

theorem Grew.reimburse {c c' : Mem} {x : ReimbIndex} {r : ReimbRequest} {l : List (ReimbIndex × ReimbRequest)} {a : LedgerAnswer}
    {n : Next} (h : c.onReimburse x r l a = .ok (c', n)) : Grew .reimburse c.m c'.m := by
  unfold Mem.onReimburse at h
  split at h
  · simp only [Res.bind_ok] at h
    obtain ⟨_, _, c1, h1, h2⟩ := h
    rw [Mem.reimburseLoop_m h2]
    refine Grew.process ?_ h1
    cases x <;> rfl
  · exact .of_eq (Mem.reimburseLoop_m h)

omit [Keccak] in
theorem Mem.erc20Fail_m (c : Mem) (q : Erc20Charged) (e : WithdrawErc20Error) : (c.erc20Fail q e).1.m = c.m := by
  unfold Mem.erc20Fail
  split <;> rfl

omit [Keccak] in
theorem Mem.onErc20Gas_m {c c' : Mem} {q : Erc20Call} {g : Option GasFeeEstimate} {now : Nat} {n : Next}
    (h : c.onErc20Gas q g now = .ok (c', n)) : c'.m = c.m := by
  unfold Mem.onErc20Gas at h
  split at h
  · cases h; rfl
  · simp only [] at h
    split at h
    · simp only [Res.bind_ok, Res.pure_ok, Prod.mk.injEq] at h
      obtain ⟨_, _, rfl, _⟩ := h
      rfl
    · cases h; rfl

theorem LedgerTask.resume_grew {c c' : Mem} {t : LedgerTask} {a : LedgerAnswer} {now : Nat} {n : Next}
    (h : t.resume c a now = .ok (c', n)) : Grew t.origin c.m c'.m := by
  cases t <;> simp only [LedgerTask.resume] at h <;> simp only [LedgerTask.origin]
  case mintUser env d symbol ledger amount rest =>
    unfold Mem.onMintUser at h
    split at h
    · simp only [Res.bind_ok] at h
      obtain ⟨_, _, h⟩ := h
      split at h
      · cases h; exact .refl _ _
      · exact Grew.mintRecord h
    · exact .of_eq (Mem.mintLoop_m h)
  case mintFee => exact Grew.mintRecord h
  case reimburse => exact Grew.reimburse h
  case nativeFee =>
    simp only [Mem.onNativeFee, Res.bind_ok] at h
    obtain ⟨_, _, h⟩ := h
    split at h
    · simp only [Res.bind_ok, Res.pure_ok] at h
      obtain ⟨_, _, h⟩ := h
      cases h; exact .refl _ _
    · simp only [Res.bind_ok, Res.pure_ok] at h
      obtain ⟨_, _, h⟩ := h
      cases h; exact .refl _ _
  case nativeBurn =>
    simp only [Mem.onNativeBurn, Res.bind_ok] at h
    obtain ⟨_, _, h⟩ := h
    split at h
    · simp only [Res.bind_ok, Res.pure_ok] at h
      obtain ⟨c1, h1, h⟩ := h
      cases h
      exact (Grew.process rfl h1 : Grew _ c.m c1.m)
    · split at h
      · cases h; exact .refl _ _
      · simp only [Res.bind_ok, Res.pure_ok] at h
        obtain ⟨_, _, h⟩ := h
        cases h; exact .refl _ _
  case nativeRefund =>
    simp only [Mem.onNativeRefund, Res.bind_ok, Res.pure_ok] at h
    obtain ⟨_, _, _, _, h⟩ := h
    cases h; exact .refl _ _
  case erc20Fee =>
    simp only [Mem.onErc20Fee, Res.bind_ok] at h
    obtain ⟨_, _, h⟩ := h
    split at h <;> (cases h; exact .refl _ _)
  case erc20NativeBurn =>
    simp only [Mem.onErc20NativeBurn, Res.bind_ok] at h
    obtain ⟨_, _, h⟩ := h
    split at h
    · cases h; exact .refl _ _
    · simp only [Res.pure_ok] at h
      have := congrArg (fun x => x.1.m) h
      exact .of_eq (this.symm.trans (Mem.erc20Fail_m ..))
  case erc20TokenBurn =>
    simp only [Mem.onErc20TokenBurn, Res.bind_ok] at h
    obtain ⟨_, _, h⟩ := h
    split at h
    · simp only [Res.bind_ok, Res.pure_ok] at h
      obtain ⟨c1, h1, h⟩ := h
      cases h
      exact (Grew.process rfl h1 : Grew _ c.m c1.m)
    · simp only [Res.bind_ok, Res.pure_ok, Mem.erc20Reimburse] at h
      obtain ⟨c1, h1, h⟩ := h
      have := congrArg (fun x => x.1.m) h
      have e : c'.m = c1.m := this.symm.trans (Mem.erc20Fail_m ..)
      rw [e]
      split at h1
      · exact Grew.process rfl h1
      · cases h1; exact .refl _ _
  case erc20Refund =>
    simp only [Mem.onErc20Refund, Res.bind_ok, Res.pure_ok] at h
    obtain ⟨_, _, h⟩ := h
    cases h; exact .refl _ _

theorem ExtTask.resume_grew {c c' : Mem} {t : ExtTask} {a : ExtAnswer} {now : Nat} {n : Next}
    (h : t.resume c now a = some (.ok (c', n))) : Grew t.origin c.m c'.m := by
  unfold ExtTask.resume at h
  split at h <;> simp only [Option.some.injEq, reduceCtorEq] at h <;> simp only [ExtTask.origin]
  · simp only [Res.bind_ok, Res.pure_ok] at h
    obtain ⟨w, hw, h⟩ := h
    simp only [Mem.scraperStep] at h
    have hm : c'.m = w.m := by split at h <;> (cases h; rfl)
    rw [hm]
    unfold Scraper.onBlock at hw
    simp only [] at hw
    split at hw
    · simp only [Res.bind_ok, Res.pure_ok] at hw
      obtain ⟨_, _, rfl⟩ := hw
      exact .refl _ _
    · split at hw <;> (cases hw; exact .refl _ _)
  · simp only [Res.bind_ok, Res.pure_ok] at h
    obtain ⟨w, hw, h⟩ := h
    simp only [Mem.scraperStep] at h
    have hm : c'.m = w.m := by split at h <;> (cases h; rfl)
    rw [hm]
    simp only [Scraper.onLogs, Res.bind_ok, Res.pure_ok] at hw
    obtain ⟨m, hm', _, _, rfl⟩ := hw
    exact Grew.answer hm'
  · cases h; exact .refl _ _
  · simp only [Except.ok.injEq, Mem.onRetrieveGas] at h
    split at h <;> (cases h; exact .refl _ _)
  · simp only [Mem.retrieveCreate, Res.bind_ok] at h
    obtain ⟨m1, h1, m2, h2, _, _, h⟩ := h
    refine (Grew.resubmit h1).trans ((Grew.create h2).trans (.of_eq ?_))
    split at h
    · exact Mem.retrieveSend_m h
    · cases h; rfl
  · simp only [Mem.onSignatures, Res.bind_ok] at h
    obtain ⟨m1, h1, h⟩ := h
    exact (Grew.signed h1).trans (.of_eq (Mem.retrieveSend_m h))
  · simp only [Except.ok.injEq] at h
    exact .of_eq ((congrArg (fun x => x.1.m) h).symm.trans (Mem.retrieveFinalize_m _))
  · unfold Mem.onFinalizedCount at h
    split at h
    · cases h; exact .refl _ _
    · simp only [Res.bind_ok] at h
      obtain ⟨_, _, h⟩ := h
      split at h
      · simp only [Mem.onReceipts, Res.bind_ok, Res.pure_ok] at h
        obtain ⟨m1, h1, h⟩ := h
        cases h
        exact Grew.receipts h1
      · cases h; exact .refl _ _
  · simp only [Mem.onReceipts, Res.bind_ok, Res.pure_ok] at h
    obtain ⟨m1, h1, h⟩ := h
    cases h
    exact Grew.receipts h1
  · have := Mem.onErc20Gas_m h
    exact .of_eq this

theorem Task.cleanup_grew {c c' : Mem} {t : Task} (h : t.cleanup c = .ok c') : Grew t.origin c.m c'.m := by
  cases t with
  | ledger t =>
    cases t <;> simp only [Task.cleanup] at h <;> simp only [Task.origin, LedgerTask.origin]
    all_goals first
      | (cases h; exact .refl _ _)
      | (obtain ⟨c1, h1, h2⟩ := Res.bind_ok.1 h
         cases h2
         exact (Grew.process rfl h1 : Grew _ c.m c1.m))
  | ext t =>
    cases t <;> simp only [Task.cleanup, Except.ok.injEq] at h <;> subst h <;> exact .refl _ _

omit [Keccak] in
theorem Mem.acquire_m {c c' : Mem} {t : TaskType} (h : c.acquire t = some c') : c'.m = c.m := by
  unfold Mem.acquire at h
  split at h <;> cases h
  rfl

omit [Keccak] in
theorem Mem.lockCaller_m {c c' : Mem} {p : Principal} (h : c.lockCaller p = .ok c') : c'.m = c.m := by
  unfold Mem.lockCaller Mem.enter at h
  split at h
  · cases h
  · split at h
    · cases h
    · rename_i hx
      cases h
      split at hx
      · cases hx
      · split at hx
        · cases hx
        · split at hx
          · cases hx
          · cases hx; rfl

theorem Message.run_grew {c c' : Mem} {msg : Message} {now : Nat} {n : Next} (h : msg.run c now = .ok (c', n)) :
    Grew msg.origin c.m c'.m := by
  cases msg <;> simp only [Message.run] at h <;> simp only [Message.origin]
  case mint =>
    unfold Mem.startMint at h
    split at h
    · cases h; exact .refl _ _
    · rename_i h1
      exact .of_eq ((Mem.mintLoop_m h).trans (Mem.acquire_m h1))
  case reimbursement =>
    unfold Mem.startReimbursement at h
    split at h
    · cases h; exact .refl _ _
    · rename_i h1
      exact .of_eq ((Mem.reimburseLoop_m h).trans (Mem.acquire_m h1))
  case retrieve =>
    unfold Mem.startRetrieve at h
    split at h
    · cases h; exact .refl _ _
    · rename_i h1
      refine .of_eq (Eq.trans ?_ (Mem.acquire_m h1))
      split at h
      · cases h; rfl
      · split at h
        · cases h; rfl
        · split at h
          · cases h; rfl
          · rename_i h2
            cases h
            exact Mem.acquire_m h2
  case scrape =>
    split at h
    · cases h; exact .refl _ _
    · rename_i h1
      cases h
      have := Mem.acquire_m h1
      exact .of_eq this
  case gas =>
    split at h
    · cases h; exact .refl _ _
    · rename_i h1
      cases h
      exact .of_eq (Mem.acquire_m h1)
  case withdrawNative =>
    simp only [Mem.startNative, Res.bind_ok] at h
    obtain ⟨c1, h1, h⟩ := h
    refine .of_eq (Eq.trans ?_ (Mem.lockCaller_m h1))
    split at h
    · cases h; rfl
    · simp only [Res.bind_ok] at h
      obtain ⟨_, _, h⟩ := h
      split at h
      · cases h; rfl
      · split at h
        · simp only [Res.bind_ok, Res.pure_ok] at h
          obtain ⟨_, _, h⟩ := h
          cases h; rfl
        · cases h; rfl
  case withdrawErc20 =>
    simp only [Mem.startErc20, Res.bind_ok] at h
    obtain ⟨c1, h1, h⟩ := h
    refine .of_eq (Eq.trans ?_ (Mem.lockCaller_m h1))
    split at h
    · cases h; rfl
    · simp only [Res.bind_ok] at h
      obtain ⟨_, _, h⟩ := h
      split at h
      · cases h; rfl
      · split at h
        · exact Mem.onErc20Gas_m h
        · split at h
          · exact Mem.onErc20Gas_m h
          · rename_i h2
            cases h
            exact Mem.acquire_m h2
  case addToken =>
    simp only [Res.bind_ok, Res.pure_ok, addErc20Token] at h
    obtain ⟨x, ⟨_, _, _, _, t, _, s', hs, rfl⟩, h⟩ := h
    cases h
    exact ⟨⟨[_], rfl, by simp [Event.origin]⟩, fun ht => ht.event hs, fun _ _ => applyEvent_lastScraped hs (by simp [Event.origin]),
      fun _ _ => applyEvent_queue hs (by simp [Event.origin])⟩

/-! ## Worlds -/

theorem postUpgrade_grew {m : Minter} {arg : Option MinterArg} {log : List Event} {s : State} {b : BlockNumber}
    (h : postUpgrade (m.log ++ [.syncedToBlock b]) arg = .ok (log, s)) :
    Tracks log s ∧ ∃ es, log = m.log ++ es ∧ ∀ e ∈ es, e.origin = .lifecycle := by
  unfold postUpgrade at h
  split at h
  · cases h
  · simp only [Res.bind_ok, Res.pure_ok, Prod.mk.injEq] at h
    obtain ⟨s1, h1, s2, h2, rfl, rfl⟩ := h
    exact ⟨(Tracks.replay h1).event h2, _, List.append_assoc _ _ _, by simp [Event.origin]⟩
  · simp only [Res.bind_ok, Res.pure_ok, Prod.mk.injEq] at h
    obtain ⟨s1, h1, rfl, rfl⟩ := h
    exact ⟨Tracks.replay h1, _, rfl, by simp [Event.origin]⟩

theorem tracks {w : World} (h : Reachable w) : Tracks w.mem.m.log w.mem.m.st := by
  induction h with
  | init id a s blocks hs _ => exact Tracks.init hs
  | step w w' _ hs ih =>
    cases hs with
    | start msg now c n _ hr => exact (Message.run_grew hr).tracks ih
    | startTrap msg now e _ hr => exact ih
    | execute pre post id t ht _ => exact ih
    | refuse pre post id t e ht _ => exact ih
    | reject pre post id t ht => exact ih
    | deliver pre post id t a now c n ht hr => exact (LedgerTask.resume_grew hr).tracks ih
    | deliverTrap pre post id t a now e c ht hr hc => exact (Task.cleanup_grew hc).tracks ih
    | kill pre post id t a c ht hc => exact (Task.cleanup_grew hc).tracks ih
    | answer pre post id t o a now c n ht _ hr => exact (ExtTask.resume_grew hr).tracks ih
    | answerTrap pre post id t o a now e c ht _ hr hc => exact (Task.cleanup_grew hc).tracks ih
    | killExt pre post id t o c ht hc => exact (Task.cleanup_grew hc).tracks ih
    | foreign call _ => exact ih
    | upgrade arg log s ht hp => exact (postUpgrade_grew hp).1

end EvmMinter
