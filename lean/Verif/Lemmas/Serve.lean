import Verif.Spec.Serve
import Verif.Props.C74
import Verif.Lemmas.Finalize
/-!
# Rounds of `process_retrieve_tokens_requests` in endless executions
-/

namespace EvmMinter
open Spec Transactions

section
variable [Keccak]

/-- Nothing happens to the withdrawals, except that requests are added to the queue. -/
structure Same (w w' : World) : Prop where
  created : w'.mem.m.st.txs.created = w.mem.m.st.txs.created
  sent : w'.mem.m.st.txs.sent = w.mem.m.st.txs.sent
  queue : w.mem.m.st.txs.pending <+: w'.mem.m.st.txs.pending
  log : ∃ es, w'.mem.m.log = w.mem.m.log ++ es ∧ ∀ e ∈ es, e.origin ≠ .retrieve ∧ e.origin ≠ .lifecycle

theorem same_of_eq {w w' : World} (h : w'.mem.m = w.mem.m) : Same w w' := by
  refine ⟨by rw [h], by rw [h], by rw [h]; exact List.prefix_refl _, [], by rw [h]; simp⟩

theorem Same.refl (w : World) : Same w w := same_of_eq rfl

theorem Same.trans {w w' w'' : World} (h : Same w w') (h' : Same w' w'') : Same w w'' := by
  obtain ⟨es, h1, h2⟩ := h.log
  obtain ⟨es', h3, h4⟩ := h'.log
  refine ⟨h'.created.trans h.created, h'.sent.trans h.sent, h.queue.trans h'.queue, es ++ es', by rw [h3, h1, List.append_assoc], ?_⟩
  intro e he
  exact (List.mem_append.1 he).elim (h2 e) (h4 e)

theorem Same.inUse {w w' : World} (h : Same w w') (n : TransactionNonce) : InUse w'.mem.m.st n ↔ InUse w.mem.m.st n := by
  unfold InUse; rw [h.created, h.sent]

theorem Same.waiting {w w' : World} (h : Same w w') {i : LedgerBurnIndex} {tx : Tx} : Waiting w'.mem.m.st i tx ↔ Waiting w.mem.m.st i tx := by
  unfold Waiting; rw [h.created]

theorem Same.latest {w w' : World} (h : Same w w') {i : LedgerBurnIndex} {x : SignedTx} : Latest w'.mem.m.st i x ↔ Latest w.mem.m.st i x := by
  unfold Latest; rw [h.sent]

theorem ExtTask.retrieves_iff {t : ExtTask} : t.retrieves = true ↔ TaskType.retrieveEth ∈ (Task.ext t).running := by
  cases t <;> simp [ExtTask.retrieves, Task.running]

theorem Grew.same {o : Origin} {w w' : World} (h : Grew o w.mem.m w'.mem.m) (T : Tracks w.mem.m.log w.mem.m.st) (h1 : o ≠ .retrieve)
    (h2 : o ≠ .lifecycle) : Same w w' := by
  obtain ⟨es, k1, k2⟩ := h.ext
  exact ⟨h.created T h1, h.sent T h1, h.queue h1 h2, es, k1, fun e he => by rw [k2 e he]; exact ⟨h1, h2⟩⟩

/-- The log of `w'` extends that of `w` without an upgrade. -/
def NoUpgrade (w w' : World) : Prop := ∀ b, Event.syncedToBlock b ∉ w'.since w

/-- Without an upgrade, only the rounds do something to the withdrawals. -/
theorem Step.same {w w' : World} (h : Reachable w) (hs : Step w w') (hno : NoUpgrade w w') :
    Same w w' ∨ ∃ pre post id t o a now c n, w.tasks = pre ++ ⟨id, .ext t, o⟩ :: post ∧ t.retrieves = true ∧ a.Typed ∧
      t.resume w.mem now a = some (.ok (c, n)) ∧ w' = w.advance pre post id c n := by
  have T := tracks h
  have clean : ∀ {t : Task} {c : Mem}, t.cleanup w.mem = .ok c → ∀ {w' : World}, w'.mem = c → Same w w' := by
    intro t c hc w' e
    cases t with
    | ledger t =>
      refine Grew.same (o := (Task.ledger t).origin) ?_ T (by cases t <;> simp [Task.origin, LedgerTask.origin])
        (by cases t <;> simp [Task.origin, LedgerTask.origin])
      rw [e]; exact Task.cleanup_grew hc
    | ext t =>
      refine same_of_eq ?_
      rw [e]
      cases t <;> simp only [Task.cleanup, Except.ok.injEq] at hc <;> (subst hc; rfl)
  cases hs with
  | start msg now c n hty hrun =>
    by_cases hm : c.m = w.mem.m
    · exact .inl (same_of_eq hm)
    · obtain ⟨caller, arg, t, rfl, _⟩ := (Message.run_news hrun).resolve_left hm
      exact .inl (Grew.same (Message.run_grew hrun) T (by simp [Message.origin]) (by simp [Message.origin]))
  | startTrap msg now e _ _ => exact .inl (same_of_eq rfl)
  | execute pre post id t ht _ => exact .inl (same_of_eq rfl)
  | refuse pre post id t e ht _ => exact .inl (same_of_eq rfl)
  | reject pre post id t ht => exact .inl (same_of_eq rfl)
  | deliver pre post id t a now c n ht hrun =>
    exact .inl (Grew.same (LedgerTask.resume_grew hrun) T (by cases t <;> simp [LedgerTask.origin]) (by cases t <;> simp [LedgerTask.origin]))
  | deliverTrap pre post id t a now e c ht _ hc => exact .inl (clean hc rfl)
  | kill pre post id t a c ht hc => exact .inl (clean hc rfl)
  | answer pre post id t o a now c n ht hty hrun =>
    by_cases ho : t.origin = .retrieve
    · cases hk : t.retrieves with
      | true => exact .inr ⟨pre, post, id, t, o, a, now, c, n, ht, hk, hty, hrun, rfl⟩
      | false =>
        cases t <;> simp [ExtTask.origin, ExtTask.retrieves] at ho hk
        refine .inl (same_of_eq ?_)
        cases a <;> simp only [ExtTask.resume, Option.some.injEq, reduceCtorEq] at hrun
        cases hrun; rfl
    · exact .inl (Grew.same (ExtTask.resume_grew hrun) T ho (by cases t <;> simp [ExtTask.origin]))
  | answerTrap pre post id t o a now e c ht _ _ hc => exact .inl (clean hc rfl)
  | killExt pre post id t o c ht hc => exact .inl (clean hc rfl)
  | foreign call _ => exact .inl (same_of_eq rfl)
  | upgrade arg log s ht hp =>
    exfalso
    have : ∃ es, log = w.mem.m.log ++ .syncedToBlock w.mem.m.st.lastScrapedBlockNumber :: es := by
      unfold postUpgrade at hp
      split at hp
      · cases hp
      · simp only [Res.bind_ok, Res.pure_ok, Prod.mk.injEq] at hp
        obtain ⟨s1, h1, s2, h2, rfl, rfl⟩ := hp
        exact ⟨_, List.append_assoc _ _ _⟩
      · simp only [Res.bind_ok, Res.pure_ok, Prod.mk.injEq] at hp
        obtain ⟨s1, h1, rfl, rfl⟩ := hp
        exact ⟨_, rfl⟩
    obtain ⟨es, rfl⟩ := this
    refine hno w.mem.m.st.lastScrapedBlockNumber ?_
    simp [World.since]

/-- What becomes of a call to another canister in a step. -/
theorem ext_fate {w w' : World} (h : Reachable w) (hs : Step w w') {id : Nat} {t : ExtTask} {o : Option LedgerAnswer}
    (hm : ⟨id, .ext t, o⟩ ∈ w.tasks) :
    ⟨id, .ext t, o⟩ ∈ w'.tasks ∨ (∃ a, Receives w w' t a) ∨ ((id, .killed) ∈ w'.finished ∧ (id, .killed) ∉ w.finished) := by
  have I := idInv h
  have fresh : (id, Outcome.killed) ∉ w.finished := fun hf => by
    have := (List.nodup_append.1 I.nodup).2.2 id (List.mem_map.2 ⟨_, hm, rfl⟩) id (List.mem_map.2 ⟨_, hf, rfl⟩)
    exact this rfl
  have same : ∀ {pre post p}, w.tasks = pre ++ p :: post → (⟨id, .ext t, o⟩ : Pending) = p ∨ (⟨id, .ext t, o⟩ : Pending) ∈ pre ++ post := by
    intro pre post p ht
    rw [ht] at hm
    simp only [List.mem_append, List.mem_cons] at hm ⊢
    rcases hm with hm | hm | hm
    · exact .inr (.inl hm)
    · exact .inl hm
    · exact .inr (.inr hm)
  have other : ∀ {pre post : List Pending} (l : List Pending), (⟨id, .ext t, o⟩ : Pending) ∈ pre ++ post →
      (⟨id, .ext t, o⟩ : Pending) ∈ pre ++ l ++ post := by
    intro pre post l h
    simp only [List.mem_append] at h ⊢
    rcases h with h | h
    · exact .inl (.inl h)
    · exact .inr h
  have insert : ∀ {pre post : List Pending} {y : Pending}, (⟨id, .ext t, o⟩ : Pending) ∈ pre ++ post →
      (⟨id, .ext t, o⟩ : Pending) ∈ pre ++ y :: post := by
    intro pre post y h
    simpa only [List.append_assoc, List.singleton_append] using other [y] h
  cases hs with
  | start msg now c n _ hr => exact .inl (by simp [World.advance, World.begin, hm])
  | startTrap msg now e _ hr => exact .inl (by simp [World.drop, World.begin, hm])
  | execute pre post id' t' ht hh =>
    rcases same ht with h | h
    · cases h
    · exact .inl (insert h)
  | refuse pre post id' t' e ht hh =>
    rcases same ht with h | h
    · cases h
    · exact .inl (insert h)
  | reject pre post id' t' ht =>
    rcases same ht with h | h
    · cases h
    · exact .inl (insert h)
  | deliver pre post id' t' a now c n ht hr =>
    rcases same ht with h | h
    · cases h
    · exact .inl (other _ h)
  | deliverTrap pre post id' t' a now e c ht hr hc =>
    rcases same ht with h | h
    · cases h
    · exact .inl h
  | kill pre post id' t' a c ht hc =>
    rcases same ht with h | h
    · cases h
    · exact .inl h
  | answer pre post id' t' o' a now c n ht hty hr =>
    rcases same ht with h | h
    · cases h; exact .inr (.inl ⟨a, pre, post, id, o, now, ht, hty, .inl ⟨c, n, hr, rfl⟩⟩)
    · exact .inl (other _ h)
  | answerTrap pre post id' t' o' a now e c ht hty hr hc =>
    rcases same ht with h | h
    · cases h; exact .inr (.inl ⟨a, pre, post, id, o, now, ht, hty, .inr ⟨e, c, hr, rfl⟩⟩)
    · exact .inl h
  | killExt pre post id' t' o' c ht hc =>
    rcases same ht with h | h
    · cases h; exact .inr (.inr ⟨by simp [World.drop], fresh⟩)
    · exact .inl h
  | foreign call hf => exact .inl hm
  | upgrade arg log s ht hp => exact .inl hm

/-- What becomes of a round in a step. -/
theorem round_fate {w w' : World} (h : Reachable w) (hs : Step w w') (hno : NoUpgrade w w') {id : Nat} {t : ExtTask} {o : Option LedgerAnswer}
    (hm : ⟨id, .ext t, o⟩ ∈ w.tasks) (ht : t.retrieves = true) :
    (⟨id, .ext t, o⟩ ∈ w'.tasks ∧ Same w w') ∨ (∃ a, Receives w w' t a) ∨ ((id, .killed) ∈ w'.finished ∧ (id, .killed) ∉ w.finished) := by
  rcases Step.same h hs hno with S | ⟨pre, post, id', t', o', a, now, c, n, h1, h2, h3, h4, h5⟩
  · exact (ext_fate h hs hm).imp_left fun hm => ⟨hm, S⟩
  · refine .inr (.inl ?_)
    have L := lockInv h
    have hm' := hm
    rw [h1] at L hm'
    have hnot := not_running_of_split L (p := ⟨id', .ext t', o'⟩) (ExtTask.retrieves_iff.1 h2)
    simp only [List.mem_append, List.mem_cons] at hm'
    rcases hm' with hm' | hm' | hm'
    · exact absurd (ExtTask.retrieves_iff.1 ht) (hnot ⟨id, .ext t, o⟩ (by simp [hm']))
    · cases hm'
      exact ⟨a, pre, post, id, o, now, h1, h3, .inl ⟨c, n, h4, h5⟩⟩
    · exact absurd (ExtTask.retrieves_iff.1 ht) (hnot ⟨id, .ext t, o⟩ (by simp [hm']))

/-! ## Where a round is -/

/-- The round waits for the call of task `t`. -/
def At (w : World) (t : ExtTask) : Prop := ∃ id o, ⟨id, .ext t, o⟩ ∈ w.tasks

/-- What comes next in the world. -/
def Goes (w : World) : Next → Prop
  | .await (.ext t) => At w t
  | .await _ => False
  | .finish _ => TaskType.retrieveEth ∉ w.mem.active

def ExtTask.stage : ExtTask → Nat
  | .retrieveGas => 6
  | .retrieveCount _ => 5
  | .retrieveSign _ _ => 4
  | .retrieveSend _ => 3
  | .retrieveFinalizedCount => 2
  | .retrieveReceipts _ => 1
  | _ => 0

theorem not_active_of_drop {w w' : World} (h : Reachable w) (h' : Reachable w') {pre post : List Pending} {id : Nat} {t : ExtTask}
    {o : Option LedgerAnswer} (ht : w.tasks = pre ++ ⟨id, .ext t, o⟩ :: post) (hr : t.retrieves = true) (e : w'.tasks = pre ++ post) :
    TaskType.retrieveEth ∉ w'.mem.active := by
  have L := lockInv h
  rw [ht] at L
  have hnot := not_running_of_split L (p := ⟨id, .ext t, o⟩) (ExtTask.retrieves_iff.1 hr)
  rw [(lockInv h').active, e]
  intro hx
  obtain ⟨p, hp, hx⟩ := List.mem_flatMap.1 hx
  exact hnot p hp hx

/-- When the answer does not make the callback trap, the world after it is determined. -/
theorem Spec.Receives.goes {w w' : World} (h : Reachable w) (h' : Reachable w') {t : ExtTask} {a : ExtAnswer} (hr : Receives w w' t a)
    (ht : t.retrieves = true) {c : Mem} {n : Next} (he : ∀ now, t.resume w.mem now a = some (.ok (c, n)))
    (hn : ∀ t, n ≠ .await (.ledger t)) : w'.mem = c ∧ Goes w' n := by
  obtain ⟨pre, post, id, o, now, h1, _, ⟨c', n', h2, rfl⟩ | ⟨e, c', h2, _⟩⟩ := hr
  · rw [he now] at h2
    simp only [Option.some.injEq, Except.ok.injEq, Prod.mk.injEq] at h2
    obtain ⟨rfl, rfl⟩ := h2
    refine ⟨rfl, ?_⟩
    cases n with
    | finish r => exact not_active_of_drop h h' h1 ht (by simp [World.advance, Next.pending])
    | await t' =>
      cases t' with
      | ledger t' => exact absurd rfl (hn t')
      | ext t' => exact ⟨id, none, by simp [World.advance, Next.pending]⟩
  · rw [he now] at h2; simp at h2

theorem retrieveFinalize_next (c : Mem) : c.retrieveFinalize.2 = .finish none ∨ c.retrieveFinalize.2 = .await (.ext .retrieveFinalizedCount) := by
  unfold Mem.retrieveFinalize Mem.retrieveEnd
  split
  · exact .inl rfl
  · exact .inr rfl

theorem retrieveSend_next {c c' : Mem} {count : Option TransactionCount} {n : Next} (h : c.retrieveSend count = .ok (c', n)) :
    n = .finish none ∨ ∃ t, n = .await (.ext t) ∧ t.retrieves = true ∧ t.stage < 4 := by
  have fin : ∀ {c'' : Mem} {n'' : Next}, c.retrieveFinalize = (c'', n'') → n'' = .finish none ∨ ∃ t, n'' = .await (.ext t) ∧ t.retrieves = true ∧ t.stage < 4 := by
    intro c'' n'' e
    have := retrieveFinalize_next c
    rw [e] at this
    rcases this with rfl | rfl
    · exact .inl rfl
    · exact .inr ⟨_, rfl, rfl, by decide⟩
  unfold Mem.retrieveSend at h
  cases count with
  | none => simp only [Except.ok.injEq] at h; exact fin h
  | some k =>
    simp only [Res.bind_ok] at h
    obtain ⟨batch, _, h⟩ := h
    split at h
    · simp only [Res.pure_ok] at h; exact fin h
    · simp only [Res.pure_ok, Prod.mk.injEq] at h
      obtain ⟨_, rfl⟩ := h
      exact .inr ⟨_, rfl, rfl, by simp [ExtTask.stage]⟩

/-- A round goes forward. -/
theorem resume_forward {c c' : Mem} {now : Nat} {t : ExtTask} {a : ExtAnswer} {n : Next} (ht : t.retrieves = true)
    (h : t.resume c now a = some (.ok (c', n))) :
    n = .finish none ∨ ∃ t', n = .await (.ext t') ∧ t'.retrieves = true ∧ t'.stage < t.stage := by
  cases t <;> simp only [ExtTask.retrieves, Bool.false_eq_true] at ht <;>
    cases a <;> simp only [ExtTask.resume, Option.some.injEq, reduceCtorEq] at h
  · rename_i g
    unfold Mem.onRetrieveGas Mem.retrieveEnd at h
    cases g <;> simp only [Except.ok.injEq, Prod.mk.injEq] at h
    · exact .inl h.2.symm
    · exact .inr ⟨_, h.2.symm, rfl, by simp [ExtTask.stage]⟩
  · unfold Mem.retrieveCreate at h
    simp only [Res.bind_ok] at h
    obtain ⟨_, _, _, _, batch, _, h⟩ := h
    split at h
    · rcases retrieveSend_next h with h | ⟨t, h1, h2, h3⟩
      · exact .inl h
      · exact .inr ⟨t, h1, h2, Nat.lt_trans h3 (by simp [ExtTask.stage])⟩
    · simp only [Res.pure_ok, Prod.mk.injEq] at h
      exact .inr ⟨_, h.2.symm, rfl, by simp [ExtTask.stage]⟩
  · unfold Mem.onSignatures at h
    simp only [Res.bind_ok] at h
    obtain ⟨_, _, h⟩ := h
    exact retrieveSend_next h
  · simp only [Except.ok.injEq] at h
    have := retrieveFinalize_next c
    rw [h] at this
    rcases this with rfl | rfl
    · exact .inl rfl
    · exact .inr ⟨_, rfl, rfl, by simp [ExtTask.stage]⟩
  · rename_i k
    unfold Mem.onFinalizedCount at h
    cases k with
    | none =>
      simp only [Except.ok.injEq, Mem.retrieveEnd, Prod.mk.injEq] at h
      exact .inl h.2.symm
    | some k =>
      simp only [Res.bind_ok] at h
      obtain ⟨f, _, h⟩ := h
      split at h
      · unfold Mem.onReceipts at h
        simp only [Res.bind_ok, Res.pure_ok, Mem.retrieveEnd, Prod.mk.injEq] at h
        obtain ⟨_, _, _, h⟩ := h
        exact .inl h.symm
      · simp only [Res.pure_ok, Prod.mk.injEq] at h
        exact .inr ⟨_, h.2.symm, rfl, by simp [ExtTask.stage]⟩
  · unfold Mem.onReceipts at h
    simp only [Res.bind_ok, Res.pure_ok, Mem.retrieveEnd, Prod.mk.injEq] at h
    obtain ⟨_, _, _, h⟩ := h
    exact .inl h.symm

/-- After an answer the round is over or at a later stage. -/
theorem Spec.Receives.forward {w w' : World} (h : Reachable w) (h' : Reachable w') {t : ExtTask} {a : ExtAnswer} (hr : Receives w w' t a)
    (ht : t.retrieves = true) : TaskType.retrieveEth ∉ w'.mem.active ∨ ∃ t', At w' t' ∧ t'.retrieves = true ∧ t'.stage < t.stage := by
  obtain ⟨pre, post, id, o, now, h1, _, ⟨c', n', h2, rfl⟩ | ⟨e, c', h2, rfl⟩⟩ := hr
  · rcases resume_forward ht h2 with rfl | ⟨t', rfl, h3, h4⟩
    · exact .inl (not_active_of_drop h h' h1 ht (by simp [World.advance, Next.pending]))
    · exact .inr ⟨t', ⟨id, none, by simp [World.advance, Next.pending]⟩, h3, h4⟩
  · exact .inl (not_active_of_drop h h' h1 ht (by simp [World.drop]))

theorem active_iff_at {w : World} (h : Reachable w) : TaskType.retrieveEth ∈ w.mem.active ↔ ∃ t, t.retrieves = true ∧ At w t := by
  rw [(lockInv h).active]
  constructor
  · intro hx
    obtain ⟨⟨id, t, o⟩, hp, hx⟩ := List.mem_flatMap.1 hx
    cases t with
    | ledger t => cases t <;> simp [Task.running] at hx
    | ext t => exact ⟨t, ExtTask.retrieves_iff.2 hx, id, o, hp⟩
  · rintro ⟨t, h1, id, o, h2⟩
    exact List.mem_flatMap.2 ⟨_, h2, ExtTask.retrieves_iff.1 h1⟩

/-- A message that starts a round waits for the gas price or for the transaction count. -/
theorem Message.run_retrieves {c c' : Mem} {msg : Message} {now : Nat} {n : Next} (h : msg.run c now = .ok (c', n))
    (hr : TaskType.retrieveEth ∈ n.running) : n = .await (.ext .retrieveGas) ∨ ∃ g, n = .await (.ext (.retrieveCount g)) := by
  cases msg <;> simp only [Message.run] at h
  case mint =>
    exfalso
    unfold Mem.startMint at h
    split at h
    · cases h; cases hr
    · generalize Minter.st _ = s at h
      rename_i c1 _ _
      generalize State.eventsToMint _ = l at h
      generalize l.values = l at h
      cases l with
      | nil => cases h; cases hr
      | cons d t =>
        simp only [Mem.mintLoop, Res.bind_ok, Res.pure_ok, Prod.mk.injEq] at h
        obtain ⟨_, _, _, _, rfl, rfl⟩ := h
        simp [Next.running, Task.running] at hr
  case reimbursement =>
    exfalso
    unfold Mem.startReimbursement at h
    split at h
    · cases h; cases hr
    · rename_i c1 _
      generalize c1.m.st.txs.reimbursementRequests.toList = l at h
      cases l with
      | nil => cases h; cases hr
      | cons d t =>
        cases h
        simp [Next.running, Task.running] at hr
  case retrieve =>
    unfold Mem.startRetrieve at h
    split at h
    · cases h; cases hr
    · split at h
      · cases h; cases hr
      · split at h
        · cases h; exact .inr ⟨_, rfl⟩
        · split at h
          · cases h; cases hr
          · cases h; exact .inl rfl
  case scrape =>
    exfalso
    split at h <;> (cases h; simp [Next.running, Task.running] at hr)
  case gas =>
    exfalso
    split at h <;> (cases h; simp [Next.running, Task.running] at hr)
  case withdrawNative =>
    exfalso
    simp only [Mem.startNative, Res.bind_ok] at h
    obtain ⟨c1, h1, h⟩ := h
    split at h
    · cases h; cases hr
    · simp only [Res.bind_ok] at h
      obtain ⟨_, _, h⟩ := h
      split at h
      · cases h; cases hr
      · split at h
        · simp only [Res.bind_ok, Res.pure_ok] at h
          obtain ⟨_, _, h⟩ := h
          cases h; cases hr
        · cases h; cases hr
  case withdrawErc20 =>
    exfalso
    simp only [Mem.startErc20, Res.bind_ok] at h
    obtain ⟨c1, h1, h⟩ := h
    split at h
    · cases h; cases hr
    · simp only [Res.bind_ok] at h
      obtain ⟨_, _, h⟩ := h
      split at h
      · cases h; cases hr
      · split at h
        · rw [Mem.onErc20Gas_running h] at hr; cases hr
        · split at h
          · rw [Mem.onErc20Gas_running h] at hr; cases hr
          · cases h
            simp [Next.running, Task.running] at hr
  case addToken =>
    exfalso
    simp only [Res.bind_ok, Res.pure_ok] at h
    obtain ⟨_, _, h⟩ := h
    cases h; cases hr

/-! ## Endless executions -/

variable {ρ : Nat → World} {α : Nat → ExtAnswer} {N : Nat}

theorem grows_between (E : Endless ρ) {i j : Nat} (hij : i ≤ j) : Grows (ρ i) (ρ j) := by
  induction hij with
  | refl => exact .refl _
  | step _ ih =>
    rename_i j _
    rcases E.step j with e | s
    · rw [e]; exact ih
    · exact ih.trans (Step.grows (E.reachable j) s)

theorem Spec.Serving.noUpgrade (S : Serving ρ α N) (E : Endless ρ) {i : Nat} (hi : N ≤ i) : NoUpgrade (ρ i) (ρ (i + 1)) := by
  intro b hb
  obtain ⟨es, h1⟩ := (grows_between E hi).log
  obtain ⟨es', h2⟩ := (grows_between E (Nat.le_succ i)).log
  refine S.stays (i + 1) (Nat.le_succ_of_le hi) b ?_
  unfold World.since at hb ⊢
  rw [h2, h1] at hb ⊢
  simp only [List.length_append, List.append_assoc, List.drop_left] at hb ⊢
  rw [← List.append_assoc, ← List.length_append, List.drop_left] at hb
  exact List.mem_append_right _ hb

/-- What happens at a time. -/
theorem Spec.Serving.move (S : Serving ρ α N) (E : Endless ρ) {i : Nat} (hi : N ≤ i) :
    Same (ρ i) (ρ (i + 1)) ∨ ∃ pre post id t o a now c n, (ρ i).tasks = pre ++ ⟨id, .ext t, o⟩ :: post ∧ t.retrieves = true ∧ a.Typed ∧
      t.resume (ρ i).mem now a = some (.ok (c, n)) ∧ ρ (i + 1) = (ρ i).advance pre post id c n := by
  rcases E.step i with e | s
  · rw [e]; exact .inl (.refl _)
  · exact Step.same (E.reachable i) s (S.noUpgrade E hi)

theorem Spec.Serving.plain (S : Serving ρ α N) (E : Endless ρ) {i j : Nat} (hi : N ≤ i) (hij : i ≤ j) :
    ∃ es, (ρ j).mem.m.log = (ρ i).mem.m.log ++ es ∧ ∀ e ∈ es, e.origin ≠ .lifecycle := by
  induction hij with
  | refl => exact ⟨[], by simp, by simp⟩
  | step hij ih =>
    rename_i j
    obtain ⟨es, h1, h2⟩ := ih
    have : ∃ es', (ρ (j + 1)).mem.m.log = (ρ j).mem.m.log ++ es' ∧ ∀ e ∈ es', e.origin ≠ .lifecycle := by
      rcases S.move E (Nat.le_trans hi hij) with hs | ⟨pre, post, id, t, o, a, now, c, n, h1, h2, _, h3, h4⟩
      · obtain ⟨es', k1, k2⟩ := hs.log
        exact ⟨es', k1, fun e he => (k2 e he).2⟩
      · obtain ⟨es', k1, k2⟩ := (ExtTask.resume_grew h3).ext
        refine ⟨es', by rw [h4]; exact k1, fun e he => ?_⟩
        rw [k2 e he]
        cases t <;> simp [ExtTask.origin]
    obtain ⟨es', h3, h4⟩ := this
    exact ⟨es ++ es', by rw [h3, h1, List.append_assoc], fun e he => (List.mem_append.1 he).elim (h2 e) (h4 e)⟩

theorem Spec.Serving.never (S : Serving ρ α N) (E : Endless ρ) {i : Nat} (hi : N ≤ i) : NonceNeverLowered (ρ i).mem.m.log := by
  obtain ⟨es, h1, h2⟩ := S.plain E (Nat.le_refl N) hi
  rw [h1]
  refine nonceNeverLowered_append S.nonce fun e he a ha => h2 e he ?_
  rw [ha]; rfl

theorem Spec.Serving.run (S : Serving ρ α N) (E : Endless ρ) {i : Nat} (hi : N ≤ i) : Run (ρ i).mem.m.log (ρ i).mem.m.st :=
  run_of_reachable (E.reachable i) (S.never E hi)

/-- A round in progress is answered. -/
theorem Spec.Serving.answers (S : Serving ρ α N) (E : Endless ρ) {i : Nat} (hi : N ≤ i) {t : ExtTask} (hr : t.retrieves = true)
    (ht : At (ρ i) t) : ∃ j, i ≤ j ∧ Same (ρ i) (ρ j) ∧ At (ρ j) t ∧ ∃ a, Hears ρ α j t a := by
  obtain ⟨id, o, hm⟩ := ht
  obtain ⟨j, hj, hgone⟩ := S.returns i hi id t o hr hm
  obtain ⟨k, rfl⟩ := Nat.exists_eq_add_of_le hj
  clear hj
  induction k generalizing i with
  | zero => exact absurd hm (hgone o)
  | succ k ih =>
    have stay : ⟨id, .ext t, o⟩ ∈ (ρ (i + 1)).tasks → Same (ρ i) (ρ (i + 1)) →
        ∃ j, i ≤ j ∧ Same (ρ i) (ρ j) ∧ At (ρ j) t ∧ ∃ a, Hears ρ α j t a := by
      intro hm' hs
      obtain ⟨j, hj, hd, hrest⟩ := ih (i := i + 1) (Nat.le_succ_of_le hi) hm' (by rw [show i + 1 + k = i + (k + 1) by omega]; exact hgone)
      exact ⟨j, Nat.le_of_succ_le hj, hs.trans hd, hrest⟩
    rcases E.step i with e | s
    · exact stay (by rw [e]; exact hm) (by rw [e]; exact .refl _)
    · rcases round_fate (E.reachable i) s (S.noUpgrade E hi) hm hr with ⟨hf, hs⟩ | ⟨a, hd⟩ | ⟨h1, h2⟩
      · exact stay hf hs
      · exact ⟨i, Nat.le_refl _, .refl _, ⟨id, o, hm⟩, _, S.told i hi t a hr hd, rfl⟩
      · exact absurd (S.calm i hi id h1) h2

/-- Every round pauses. -/
theorem Spec.Serving.pauses (S : Serving ρ α N) (E : Endless ρ) {i : Nat} (hi : N ≤ i) :
    ∃ j, i ≤ j ∧ TaskType.retrieveEth ∉ (ρ j).mem.active := by
  have key : ∀ (k : Nat) {i : Nat} {t : ExtTask}, N ≤ i → t.stage ≤ k → t.retrieves = true → At (ρ i) t →
      ∃ j, i ≤ j ∧ TaskType.retrieveEth ∉ (ρ j).mem.active := by
    intro k
    induction k with
    | zero =>
      intro i t _ hk hr _
      cases t <;> simp [ExtTask.stage, ExtTask.retrieves] at hk hr
    | succ k ih =>
      intro i t hi hk hr ht
      obtain ⟨j, hj, _, _, a, ha, _⟩ := S.answers E hi hr ht
      rcases ha.forward (E.reachable j) (E.reachable (j + 1)) hr with h | ⟨t', h1, h2, h3⟩
      · exact ⟨j + 1, Nat.le_succ_of_le hj, h⟩
      · obtain ⟨j', h4, h5⟩ := ih (i := j + 1) (Nat.le_succ_of_le (Nat.le_trans hi hj)) (by omega) h2 h1
        exact ⟨j', by omega, h5⟩
  by_cases h : TaskType.retrieveEth ∈ (ρ i).mem.active
  · obtain ⟨t, h1, h2⟩ := (active_iff_at (E.reachable i)).1 h
    exact key _ hi (Nat.le_refl _) h1 h2
  · exact ⟨i, Nat.le_refl _, h⟩

/-- Some withdrawal is not done with. -/
def Busy (w : World) : Prop := w.mem.m.st.txs.pending ≠ [] ∨ ∃ n, InUse w.mem.m.st n

theorem next_round (S : Serving ρ α N) (E : Endless ρ) (n : Nat) : ∀ {e : Nat} {cached : Option GasFeeEstimate}, N ≤ e →
    (∀ j, e ≤ j → Busy (ρ j)) → TaskType.retrieveEth ∉ (ρ e).mem.active → Starts (ρ (e + n)) (ρ (e + n + 1)) (.retrieve cached) →
    (cached ≠ none ∨ TaskType.refreshGasFeeEstimate ∉ (ρ (e + n)).mem.active) →
    ∃ s, e ≤ s ∧ (At (ρ s) .retrieveGas ∨ ∃ g, At (ρ s) (.retrieveCount g)) := by
  induction n with
  | zero =>
    intro e cached he hb hi hs hc
    refine ⟨e + 1, Nat.le_succ e, ?_⟩
    obtain ⟨now, hs⟩ := hs
    obtain ⟨_, h2, _⟩ := C71_begin (E.reachable e) (S.never E he) cached now
    obtain ⟨k1, k2, _⟩ := h2 hi (hb e (Nat.le_refl e))
    rcases hs with ⟨c, n, hr, hw⟩ | ⟨err, hr, hw⟩
    · cases cached with
      | some g =>
        rw [show e + 0 = e from rfl, k1 g rfl] at hr
        simp only [Except.ok.injEq, Prod.mk.injEq] at hr
        obtain ⟨rfl, rfl⟩ := hr
        exact .inr ⟨g, (ρ e).nextId, none, by rw [show e + 1 = e + 0 + 1 from rfl, hw]; simp [World.advance, Next.pending]⟩
      | none =>
        rw [show e + 0 = e from rfl, k2 rfl (hc.resolve_left fun h => h rfl)] at hr
        simp only [Except.ok.injEq, Prod.mk.injEq] at hr
        obtain ⟨rfl, rfl⟩ := hr
        exact .inl ⟨(ρ e).nextId, none, by rw [show e + 1 = e + 0 + 1 from rfl, hw]; simp [World.advance, Next.pending]⟩
    · exfalso
      cases cached with
      | some g => rw [show e + 0 = e from rfl, k1 g rfl] at hr; cases hr
      | none => rw [show e + 0 = e from rfl, k2 rfl (hc.resolve_left fun h => h rfl)] at hr; cases hr
  | succ n ih =>
    intro e cached he hb hi hs hc
    by_cases hi' : TaskType.retrieveEth ∈ (ρ (e + 1)).mem.active
    · rcases E.step e with h | h
      · rw [h] at hi'; exact absurd hi' hi
      · obtain ⟨msg, now, c, n', hr, hw, hx⟩ := Step.activated (E.reachable e) h hi hi'
        refine ⟨e + 1, Nat.le_succ e, ?_⟩
        rcases Message.run_retrieves hr hx with rfl | ⟨g, rfl⟩
        · exact .inl ⟨(ρ e).nextId, none, by rw [hw]; simp [World.advance, Next.pending]⟩
        · exact .inr ⟨g, (ρ e).nextId, none, by rw [hw]; simp [World.advance, Next.pending]⟩
    · rw [show e + (n + 1) = e + 1 + n by omega] at hs hc
      obtain ⟨s, h1, h2⟩ := ih (Nat.le_succ_of_le he) (fun j hj => hb j (by omega)) hi' hs hc
      exact ⟨s, by omega, h2⟩

/-- While withdrawals are not done with, a round gets to the transaction count again and again. -/
theorem Spec.Serving.counts (S : Serving ρ α N) (E : Endless ρ) {i : Nat} (hi : N ≤ i) (hb : ∀ j, i ≤ j → Busy (ρ j)) :
    ∃ j g k, i ≤ j ∧ At (ρ j) (.retrieveCount g) ∧ Hears ρ α j (.retrieveCount g) (.count (some k)) := by
  obtain ⟨e, he, hidle⟩ := S.pauses E hi
  obtain ⟨j, cached, hj, hs, hc⟩ := S.interval e
  obtain ⟨n, rfl⟩ := Nat.exists_eq_add_of_le hj
  obtain ⟨s, h1, h2⟩ := next_round S E n (Nat.le_trans hi he) (fun j hj => hb j (Nat.le_trans he hj)) hidle hs hc
  have cnt : ∀ {s g}, i ≤ s → At (ρ s) (.retrieveCount g) →
      ∃ j g k, i ≤ j ∧ At (ρ j) (.retrieveCount g) ∧ Hears ρ α j (.retrieveCount g) (.count (some k)) := by
    intro s g hs hat
    obtain ⟨j, hj, _, hat, a, ha⟩ := S.answers E (Nat.le_trans hi hs) (t := .retrieveCount g) rfl hat
    have hshape : ∃ k, a = .count k := by
      obtain ⟨⟨_, _, _, _, _, _, _, h⟩, _⟩ := ha
      cases a with
      | count k => exact ⟨k, rfl⟩
      | _ => rcases h with ⟨_, _, h, _⟩ | ⟨_, _, h, _⟩ <;> simp [ExtTask.resume] at h
    obtain ⟨k, rfl⟩ := hshape
    cases k with
    | none => exact absurd rfl (S.latest j (Nat.le_trans hi (Nat.le_trans hs hj)) g none ha)
    | some k => exact ⟨j, g, k, Nat.le_trans hs hj, hat, ha⟩
  rcases h2 with h2 | ⟨g, h2⟩
  · obtain ⟨j, hj, _, hat, a, ha⟩ := S.answers E (Nat.le_trans hi (Nat.le_trans he h1)) (t := .retrieveGas) rfl h2
    have hshape : ∃ g, a = .gas g := by
      obtain ⟨⟨_, _, _, _, _, _, _, h⟩, _⟩ := ha
      cases a with
      | gas k => exact ⟨k, rfl⟩
      | _ => rcases h with ⟨_, _, h, _⟩ | ⟨_, _, h, _⟩ <;> simp [ExtTask.resume] at h
    obtain ⟨g, rfl⟩ := hshape
    cases g with
    | none => exact absurd rfl (S.price j (by omega) none ha)
    | some g =>
      obtain ⟨_, hgo⟩ := ha.1.goes (E.reachable j) (E.reachable (j + 1)) rfl
        (c := (ρ j).mem.release .refreshGasFeeEstimate) (n := .await (.ext (.retrieveCount g))) (fun _ => rfl) (by simp)
      exact cnt (s := j + 1) (by omega) hgo
  · exact cnt (by omega) h2

end
end EvmMinter
