import Verif.Spec.World
/-!
# What one message does to the locks
-/

namespace EvmMinter
open Spec

variable [Keccak]

/-- The timer tasks that go on. -/
def Next.running : Next → List TaskType
  | .await t => t.running
  | .finish _ => []

/-- The caller whose withdrawal goes on. -/
def Next.caller : Next → Option Principal
  | .await t => t.caller
  | .finish _ => none

/-- The memory changed from `c` to `c'`, and of the locks `held` and `p` those in `run'` and `p'` are still held. -/
structure Locks (c c' : Mem) (held run' : List TaskType) (p p' : Option Principal) : Prop where
  id : c'.id = c.id
  sub : c'.active.Sublist c.active
  active : ∀ x, x ∈ c'.active ↔ x ∈ c.active ∧ (x ∈ held → x ∈ run')
  psub : c'.principals.Sublist c.principals
  principals : ∀ x, x ∈ c'.principals ↔ x ∈ c.principals ∧ (p = some x → p' = some x)
  run : ∀ x ∈ run', x ∈ held
  nodup : run'.Nodup
  caller : ∀ x, p' = some x → p = some x
  /-- only the scraper observes blocks -/
  seen : TaskType.scrapLogs ∉ held → c'.lastObserved = c.lastObserved ∧ c'.lastObservedTime = c.lastObservedTime

omit [Keccak] in
theorem Locks.same {c c' : Mem} {run : List TaskType} {p : Option Principal} (hi : c'.id = c.id) (ha : c'.active = c.active)
    (hp : c'.principals = c.principals) (hn : run.Nodup)
    (ho : TaskType.scrapLogs ∉ run → c'.lastObserved = c.lastObserved ∧ c'.lastObservedTime = c.lastObservedTime := by
      first | exact fun _ => ⟨rfl, rfl⟩ | simp) : Locks c c' run run p p :=
  ⟨hi, ha ▸ .refl _, fun x => by rw [ha]; simp, hp ▸ .refl _, fun x => by rw [hp]; simp, fun _ h => h, hn, fun _ h => h, ho⟩

omit [Keccak] in
theorem Locks.trans {c c' c'' : Mem} {r r' r'' : List TaskType} {p p' p'' : Option Principal} (h : Locks c c' r r' p p')
    (h' : Locks c' c'' r' r'' p' p'') : Locks c c'' r r'' p p'' := by
  refine ⟨h'.id.trans h.id, h'.sub.trans h.sub, fun x => ?_, h'.psub.trans h.psub, fun x => ?_,
    fun x hx => h.run x (h'.run x hx), h'.nodup, fun x hx => h.caller x (h'.caller x hx), fun hx =>
    have k := h'.seen fun hr => hx (h.run _ hr)
    have l := h.seen hx
    ⟨k.1.trans l.1, k.2.trans l.2⟩⟩
  · rw [h'.active, h.active]
    constructor
    · rintro ⟨⟨h1, h2⟩, h3⟩; exact ⟨h1, fun hr => h3 (h2 hr)⟩
    · rintro ⟨h1, h2⟩; exact ⟨⟨h1, fun hr => h'.run x (h2 hr)⟩, fun hr => h2 (h.run x hr)⟩
  · rw [h'.principals, h.principals]
    constructor
    · rintro ⟨⟨h1, h2⟩, h3⟩; exact ⟨h1, fun hr => h3 (h2 hr)⟩
    · rintro ⟨h1, h2⟩; exact ⟨⟨h1, fun hr => h'.caller x (h2 hr)⟩, fun hr => h2 (h.caller x hr)⟩

omit [Keccak] in
theorem Locks.release (c : Mem) (t : TaskType) (p : Option Principal) : Locks c (c.release t) [t] [] p p := by
  refine ⟨rfl, List.filter_sublist, fun x => ?_, .refl _, fun x => ?_, fun x h => ?_, List.nodup_nil, fun _ h => h,
    fun _ => ⟨rfl, rfl⟩⟩
  · simp [Mem.release]
  · simp [Mem.release]
  · cases h

omit [Keccak] in
theorem Locks.leave (c : Mem) (p : Principal) : Locks c (c.leave p) [] [] (some p) none := by
  refine ⟨rfl, .refl _, fun x => ?_, List.filter_sublist, fun x => ?_, fun x h => ?_, List.nodup_nil, fun _ h => ?_,
    fun _ => ⟨rfl, rfl⟩⟩
  · simp [Mem.leave]
  · simp only [Mem.leave, List.mem_filter, bne_iff_ne, Option.some.injEq, reduceCtorEq, imp_false]
    constructor
    · rintro ⟨h1, h2⟩; exact ⟨h1, fun h => h2 h.symm⟩
    · rintro ⟨h1, h2⟩; exact ⟨h1, fun h => h2 h.symm⟩
  · cases h
  · cases h

omit [Keccak] in
theorem Locks.release2 (c : Mem) (p : Option Principal) :
    Locks c (c.release .refreshGasFeeEstimate) [.retrieveEth, .refreshGasFeeEstimate] [.retrieveEth] p p := by
  refine ⟨rfl, List.filter_sublist, fun x => ?_, .refl _, fun x => ?_, fun x h => ?_, by decide, fun _ h => h,
    fun _ => ⟨rfl, rfl⟩⟩
  · cases x <;> simp [Mem.release]
  · simp [Mem.release]
  · simp_all

theorem Mem.process_ok {c c' : Mem} {e : Event} (h : c.process e = .ok c') :
    ∃ m, c.m.processEvent e = .ok m ∧ c' = { c with m := m } := by
  simp only [Mem.process, Res.bind_ok, Res.pure_ok] at h
  obtain ⟨m, h1, h2⟩ := h
  exact ⟨m, h1, h2.symm⟩

theorem Mem.process_locks {c c' : Mem} {e : Event} (h : c.process e = .ok c') {run : List TaskType} (hn : run.Nodup)
    {p : Option Principal} : Locks c c' run run p p := by
  obtain ⟨m, _, rfl⟩ := Mem.process_ok h
  exact Locks.same rfl rfl rfl hn

omit [Keccak] in
theorem Mem.mintLoop_locks {c c' : Mem} {env : MintEnv} {l : List Deposit} {n : Next} (h : c.mintLoop env l = .ok (c', n)) :
    Locks c c' [.mint] n.running none n.caller := by
  cases l with
  | nil =>
    simp only [Mem.mintLoop, Except.ok.injEq, Prod.mk.injEq] at h
    obtain ⟨rfl, rfl⟩ := h
    exact Locks.release _ _ _
  | cons d rest =>
    simp only [Mem.mintLoop, Res.bind_ok, Res.pure_ok, Prod.mk.injEq] at h
    obtain ⟨_, _, _, _, rfl, rfl⟩ := h
    exact Locks.same rfl rfl rfl (by decide)

theorem Mem.mintRecord_locks {c c' : Mem} {env : MintEnv} {d : Deposit} {symbol : String} {b : Nat} {l : List Deposit} {n : Next}
    (h : c.mintRecord env d symbol b l = .ok (c', n)) : Locks c c' [.mint] n.running none n.caller := by
  simp only [Mem.mintRecord, Res.bind_ok] at h
  obtain ⟨c1, h1, h2⟩ := h
  exact (Mem.process_locks h1 (by decide)).trans (Mem.mintLoop_locks h2)

theorem Mem.onMintUser_locks {c c' : Mem} {env : MintEnv} {d : Deposit} {symbol : String} {ledger : Principal} {l : List Deposit}
    {a : LedgerAnswer} {n : Next} (h : c.onMintUser env d symbol ledger l a = .ok (c', n)) :
    Locks c c' [.mint] n.running none n.caller := by
  unfold Mem.onMintUser at h
  split at h
  · simp only [Res.bind_ok] at h
    obtain ⟨b, _, h⟩ := h
    split at h
    · simp only [Res.pure_ok, Prod.mk.injEq] at h
      obtain ⟨rfl, rfl⟩ := h
      exact Locks.same rfl rfl rfl (by decide)
    · exact Mem.mintRecord_locks h
  · exact Mem.mintLoop_locks h

omit [Keccak] in
theorem Mem.reimburseLoop_locks {c c' : Mem} {l : List (ReimbIndex × ReimbRequest)} {n : Next}
    (h : c.reimburseLoop l = .ok (c', n)) : Locks c c' [.reimbursement] n.running none n.caller := by
  cases l with
  | nil =>
    simp only [Mem.reimburseLoop, Except.ok.injEq, Prod.mk.injEq] at h
    obtain ⟨rfl, rfl⟩ := h
    exact Locks.release _ _ _
  | cons d rest =>
    obtain ⟨x, r⟩ := d
    simp only [Mem.reimburseLoop, Except.ok.injEq, Prod.mk.injEq] at h
    obtain ⟨rfl, rfl⟩ := h
    exact Locks.same rfl rfl rfl (by decide)

theorem Mem.onReimburse_locks {c c' : Mem} {x : ReimbIndex} {r : ReimbRequest} {l : List (ReimbIndex × ReimbRequest)}
    {a : LedgerAnswer} {n : Next} (h : c.onReimburse x r l a = .ok (c', n)) :
    Locks c c' [.reimbursement] n.running none n.caller := by
  unfold Mem.onReimburse at h
  split at h
  · simp only [Res.bind_ok] at h
    obtain ⟨b, _, c1, h1, h2⟩ := h
    exact (Mem.process_locks h1 (by decide)).trans (Mem.reimburseLoop_locks h2)
  · exact Mem.reimburseLoop_locks h

omit [Keccak] in
theorem Mem.retrieveEnd_locks (c : Mem) : Locks c c.retrieveEnd.1 [.retrieveEth] c.retrieveEnd.2.running none c.retrieveEnd.2.caller :=
  Locks.release _ _ _

omit [Keccak] in
theorem Mem.retrieveFinalize_locks (c : Mem) :
    Locks c c.retrieveFinalize.1 [.retrieveEth] c.retrieveFinalize.2.running none c.retrieveFinalize.2.caller := by
  unfold Mem.retrieveFinalize
  split
  · exact Mem.retrieveEnd_locks c
  · exact Locks.same rfl rfl rfl (by decide)

omit [Keccak] in
theorem Locks.of_eq {c c' : Mem} {n : Next} {r : List TaskType} {p : Option Principal} {x : Mem × Next}
    (h : Locks c x.1 r x.2.running p x.2.caller) (hx : x = (c', n)) : Locks c c' r n.running p n.caller := by
  subst hx
  exact h

omit [Keccak] in
theorem Mem.retrieveSend_locks {c c' : Mem} {count : Option TransactionCount} {n : Next}
    (h : c.retrieveSend count = .ok (c', n)) : Locks c c' [.retrieveEth] n.running none n.caller := by
  unfold Mem.retrieveSend at h
  split at h
  · exact Locks.of_eq (Mem.retrieveFinalize_locks c) (Except.ok.inj h)
  · simp only [Res.bind_ok] at h
    obtain ⟨b, _, h⟩ := h
    split at h
    · exact Locks.of_eq (Mem.retrieveFinalize_locks c) (Except.ok.inj h)
    · cases h
      exact Locks.same rfl rfl rfl (by decide)

theorem Mem.retrieveCreate_locks {c c' : Mem} {g : GasFeeEstimate} {count : Option TransactionCount} {n : Next}
    (h : c.retrieveCreate g count = .ok (c', n)) : Locks c c' [.retrieveEth] n.running none n.caller := by
  simp only [Mem.retrieveCreate, Res.bind_ok] at h
  obtain ⟨m1, _, m2, _, b, _, h⟩ := h
  split at h
  · exact (Locks.same (c := c) (c' := { c with m := m2 }) rfl rfl rfl (by decide)).trans (Mem.retrieveSend_locks h)
  · cases h
    exact Locks.same rfl rfl rfl (by decide)

theorem Mem.onSignatures_locks {c c' : Mem} {count : Option TransactionCount} {batch : List (LedgerBurnIndex × Tx)}
    {sigs : List (Option Signature)} {n : Next} (h : c.onSignatures count batch sigs = .ok (c', n)) :
    Locks c c' [.retrieveEth] n.running none n.caller := by
  simp only [Mem.onSignatures, Res.bind_ok] at h
  obtain ⟨m, _, h⟩ := h
  exact (Locks.same (c := c) (c' := { c with m := m }) rfl rfl rfl (by decide)).trans (Mem.retrieveSend_locks h)

theorem Mem.onReceipts_locks {c c' : Mem} {f : FMap Hash LedgerBurnIndex} {l : List Minter.ReceiptResult} {n : Next}
    (h : c.onReceipts f l = .ok (c', n)) : Locks c c' [.retrieveEth] n.running none n.caller := by
  simp only [Mem.onReceipts, Res.bind_ok] at h
  obtain ⟨m, _, h⟩ := h
  exact (Locks.same (c := c) (c' := { c with m := m }) rfl rfl rfl (by decide)).trans
    (Locks.of_eq (Mem.retrieveEnd_locks _) (Except.ok.inj h))

theorem Mem.onFinalizedCount_locks {c c' : Mem} {count : Option TransactionCount} {n : Next}
    (h : c.onFinalizedCount count = .ok (c', n)) : Locks c c' [.retrieveEth] n.running none n.caller := by
  unfold Mem.onFinalizedCount at h
  split at h
  · exact Locks.of_eq (Mem.retrieveEnd_locks c) (Except.ok.inj h)
  · simp only [Res.bind_ok] at h
    obtain ⟨f, _, h⟩ := h
    split at h
    · exact Mem.onReceipts_locks h
    · cases h
      exact Locks.same rfl rfl rfl (by decide)

omit [Keccak] in
theorem Mem.onRetrieveGas_locks (c : Mem) (g : Option GasFeeEstimate) :
    Locks c (c.onRetrieveGas g).1 [.retrieveEth] (c.onRetrieveGas g).2.running none (c.onRetrieveGas g).2.caller := by
  unfold Mem.onRetrieveGas
  split
  · exact Mem.retrieveEnd_locks c
  · exact Locks.same rfl rfl rfl (by decide)

omit [Keccak] in
theorem Mem.onNativeFee_locks {c c' : Mem} {q : NativeCall} {fee : Wei} {a : LedgerAnswer} {now : Nat} {n : Next}
    (h : c.onNativeFee q fee a now = .ok (c', n)) : Locks c c' [] n.running (some q.caller) n.caller := by
  simp only [Mem.onNativeFee, Res.bind_ok] at h
  obtain ⟨r, _, h⟩ := h
  split at h
  · simp only [Res.bind_ok] at h
    obtain ⟨_, _, h⟩ := h
    cases h
    exact Locks.same rfl rfl rfl (by decide)
  · simp only [Res.bind_ok] at h
    obtain ⟨_, _, h⟩ := h
    cases h
    exact Locks.leave _ _

theorem Mem.onNativeBurn_locks {c c' : Mem} {q : NativeCall} {l : Principal} {amount : Wei} {a : LedgerAnswer} {now : Nat} {n : Next}
    (h : c.onNativeBurn q l amount now a = .ok (c', n)) : Locks c c' [] n.running (some q.caller) n.caller := by
  simp only [Mem.onNativeBurn, Res.bind_ok] at h
  obtain ⟨r, _, h⟩ := h
  split at h
  · simp only [Res.bind_ok] at h
    obtain ⟨_, hp, h⟩ := h
    cases h
    exact (Mem.process_locks hp (by decide)).trans (Locks.leave _ _)
  · split at h
    · cases h
      exact Locks.same rfl rfl rfl (by decide)
    · simp only [Res.bind_ok] at h
      obtain ⟨_, _, h⟩ := h
      cases h
      exact Locks.leave _ _

omit [Keccak] in
theorem Mem.onNativeRefund_locks {c c' : Mem} {q : NativeCall} {e : LedgerError} {a : LedgerAnswer} {n : Next}
    (h : c.onNativeRefund q e a = .ok (c', n)) : Locks c c' [] n.running (some q.caller) n.caller := by
  simp only [Mem.onNativeRefund, Res.bind_ok] at h
  obtain ⟨_, _, _, _, h⟩ := h
  cases h
  exact Locks.leave _ _

omit [Keccak] in
theorem Mem.erc20Fail_locks (c : Mem) (q : Erc20Charged) (e : WithdrawErc20Error) :
    Locks c (c.erc20Fail q e).1 [] (c.erc20Fail q e).2.running (some q.caller) (c.erc20Fail q e).2.caller := by
  unfold Mem.erc20Fail
  split
  · exact Locks.same rfl rfl rfl (by decide)
  · exact Locks.leave _ _

omit [Keccak] in
theorem Mem.onErc20Gas_locks {c c' : Mem} {q : Erc20Call} {g : Option GasFeeEstimate} {now : Nat} {n : Next}
    (h : c.onErc20Gas q g now = .ok (c', n)) : Locks c c' [] n.running (some q.caller) n.caller := by
  unfold Mem.onErc20Gas at h
  split at h
  · cases h
    exact Locks.leave _ _
  · simp only [] at h
    split at h
    · simp only [Res.bind_ok] at h
      obtain ⟨_, _, h⟩ := h
      cases h
      exact Locks.same rfl rfl rfl (by decide)
    · cases h
      exact Locks.same rfl rfl rfl (by decide)

omit [Keccak] in
theorem Mem.onErc20Fee_locks {c c' : Mem} {q : Erc20Charged} {a : LedgerAnswer} {now : Nat} {n : Next}
    (h : c.onErc20Fee q a now = .ok (c', n)) : Locks c c' [] n.running (some q.caller) n.caller := by
  simp only [Mem.onErc20Fee, Res.bind_ok] at h
  obtain ⟨r, _, h⟩ := h
  split at h
  · cases h
    exact Locks.same rfl rfl rfl (by decide)
  · cases h
    exact Locks.leave _ _

omit [Keccak] in
theorem Mem.onErc20NativeBurn_locks {c c' : Mem} {q : Erc20Charged} {a : LedgerAnswer} {now : Nat} {n : Next}
    (h : c.onErc20NativeBurn q now a = .ok (c', n)) : Locks c c' [] n.running (some q.caller) n.caller := by
  simp only [Mem.onErc20NativeBurn, Res.bind_ok] at h
  obtain ⟨r, _, h⟩ := h
  split at h
  · cases h
    exact Locks.same rfl rfl rfl (by decide)
  · exact Locks.of_eq (Mem.erc20Fail_locks _ _ _) (Except.ok.inj h)

theorem Mem.onErc20TokenBurn_locks {c c' : Mem} {q : Erc20Charged} {a : LedgerAnswer} {now i : Nat} {n : Next}
    (h : c.onErc20TokenBurn q now i a = .ok (c', n)) : Locks c c' [] n.running (some q.caller) n.caller := by
  simp only [Mem.onErc20TokenBurn, Res.bind_ok] at h
  obtain ⟨r, _, h⟩ := h
  split at h
  · simp only [Res.bind_ok] at h
    obtain ⟨_, hp, h⟩ := h
    cases h
    exact (Mem.process_locks hp (by decide)).trans (Locks.leave _ _)
  · simp only [Res.bind_ok] at h
    obtain ⟨c1, hp, h⟩ := h
    have h1 : Locks c c1 [] [] (some q.caller) (some q.caller) := by
      unfold Mem.erc20Reimburse at hp
      split at hp
      · exact Mem.process_locks hp (by decide)
      · cases hp
        exact Locks.same rfl rfl rfl (by decide)
    exact h1.trans (Locks.of_eq (Mem.erc20Fail_locks _ _ _) (Except.ok.inj h))

omit [Keccak] in
theorem Mem.onErc20Refund_locks {c c' : Mem} {q : Erc20Charged} {e : WithdrawErc20Error} {a : LedgerAnswer} {n : Next}
    (h : c.onErc20Refund q e a = .ok (c', n)) : Locks c c' [] n.running (some q.caller) n.caller := by
  simp only [Mem.onErc20Refund, Res.bind_ok] at h
  obtain ⟨_, _, h⟩ := h
  cases h
  exact Locks.leave _ _

theorem LedgerTask.resume_locks {c c' : Mem} {t : LedgerTask} {a : LedgerAnswer} {now : Nat} {n : Next}
    (h : t.resume c a now = .ok (c', n)) : Locks c c' (Task.ledger t).running n.running (Task.ledger t).caller n.caller := by
  cases t <;> simp only [LedgerTask.resume] at h <;> simp only [Task.running, Task.caller]
  · exact Mem.onMintUser_locks h
  · exact Mem.mintRecord_locks h
  · exact Mem.onReimburse_locks h
  · exact Mem.onNativeFee_locks h
  · exact Mem.onNativeBurn_locks h
  · exact Mem.onNativeRefund_locks h
  · exact Mem.onErc20Fee_locks h
  · exact Mem.onErc20NativeBurn_locks h
  · exact Mem.onErc20TokenBurn_locks h
  · exact Mem.onErc20Refund_locks h

omit [Keccak] in
theorem Mem.scraperStep_locks (c : Mem) (w : Scraper) :
    Locks c (c.scraperStep w).1 [.scrapLogs] (c.scraperStep w).2.running none (c.scraperStep w).2.caller := by
  unfold Mem.scraperStep
  simp only []
  split
  · exact Locks.same rfl rfl rfl (by decide)
  · exact (Locks.same (c := c) (c' := { c with m := w.m, lastObserved := w.lastObserved, lastObservedTime := w.lastObservedTime })
      rfl rfl rfl (by decide)).trans (Locks.release _ _ _)

theorem ExtTask.resume_locks {c c' : Mem} {t : ExtTask} {a : ExtAnswer} {now : Nat} {n : Next}
    (h : t.resume c now a = some (.ok (c', n))) : Locks c c' (Task.ext t).running n.running (Task.ext t).caller n.caller := by
  unfold ExtTask.resume at h
  split at h <;> simp only [Task.running, Task.caller]
  · obtain ⟨w, _, h⟩ := Res.bind_ok.1 (Option.some.inj h)
    exact Locks.of_eq (Mem.scraperStep_locks _ _) (Except.ok.inj h)
  · obtain ⟨w, _, h⟩ := Res.bind_ok.1 (Option.some.inj h)
    exact Locks.of_eq (Mem.scraperStep_locks _ _) (Except.ok.inj h)
  · cases h
    exact Locks.release _ _ _
  · exact (Locks.release2 _ _).trans (Locks.of_eq (Mem.onRetrieveGas_locks _ _) (Except.ok.inj (Option.some.inj h)))
  · exact Mem.retrieveCreate_locks (Option.some.inj h)
  · exact Mem.onSignatures_locks (Option.some.inj h)
  · exact Locks.of_eq (Mem.retrieveFinalize_locks _) (Except.ok.inj (Option.some.inj h))
  · exact Mem.onFinalizedCount_locks (Option.some.inj h)
  · exact Mem.onReceipts_locks (Option.some.inj h)
  · exact (Locks.release _ _ _).trans (Mem.onErc20Gas_locks (Option.some.inj h))
  · cases h

theorem Task.cleanup_locks {c c' : Mem} {t : Task} (h : t.cleanup c = .ok c') : Locks c c' t.running [] t.caller none := by
  have hq : ∀ (r : List TaskType) (p : Principal), Locks c (c.leave p) [] [] (some p) none := fun _ p => Locks.leave c p
  cases t with
  | ledger t =>
    cases t <;> simp only [Task.cleanup] at h <;> simp only [Task.running, Task.caller]
    all_goals first
      | (cases h; exact Locks.leave _ _)
      | (obtain ⟨c1, h1, h2⟩ := Res.bind_ok.1 h
         cases h2
         exact (Mem.process_locks h1 (by decide)).trans (Locks.release _ _ _))
  | ext t =>
    cases t <;> simp only [Task.cleanup, Except.ok.injEq] at h <;> subst h <;> simp only [Task.running, Task.caller]
    all_goals first
      | exact Locks.release _ _ _
      | exact (Locks.release2 _ _).trans (Locks.release _ _ _)
      | exact (Locks.release _ _ _).trans (Locks.leave _ _)

/-! ## Starting -/

/-- The memory changed from `c` to `c'`, and the locks `run` and `p` were taken. -/
structure Takes (c c' : Mem) (run : List TaskType) (p : Option Principal) : Prop where
  id : c'.id = c.id
  active : ∀ x, x ∈ c'.active ↔ x ∈ c.active ∨ x ∈ run
  principals : ∀ x, x ∈ c'.principals ↔ x ∈ c.principals ∨ p = some x
  nodup : run.Nodup
  fresh : ∀ x ∈ run, x ∉ c.active
  pfresh : ∀ x, p = some x → x ∉ c.principals
  anodup : c.active.Nodup → c'.active.Nodup
  pnodup : c.principals.Nodup → c'.principals.Nodup
  bound : c.principals.length ≤ 100 → c'.principals.length ≤ 100

omit [Keccak] in
theorem Takes.nothing {c c' : Mem} (hi : c'.id = c.id) (ha : c'.active = c.active) (hp : c'.principals = c.principals) :
    Takes c c' [] none := by
  refine ⟨hi, ?_, ?_, List.nodup_nil, ?_, ?_, ?_, ?_, ?_⟩ <;> simp [ha, hp]

omit [Keccak] in
theorem Takes.acquire {c c' : Mem} {t : TaskType} (h : c.acquire t = some c') : Takes c c' [t] none := by
  unfold Mem.acquire at h
  split at h
  · cases h
  · rename_i hn
    cases h
    refine ⟨rfl, ?_, ?_, by simp, ?_, ?_, ?_, ?_, ?_⟩
    · intro x; simp [or_comm]
    · simp
    · simpa using hn
    · simp
    · intro hd; simp [hd, hn]
    · simp
    · simp

omit [Keccak] in
theorem Takes.lockCaller {c c' : Mem} {p : Principal} (h : c.lockCaller p = .ok c') : Takes c c' [] (some p) := by
  unfold Mem.lockCaller Mem.enter at h
  split at h
  · cases h
  · split at h
    · cases h
    · rename_i hx
      cases h
      split at hx
      · cases hx
      · split at hx
        · cases hx
        · split at hx
          · cases hx
          · rename_i h1 h2 h3
            cases hx
            refine ⟨rfl, ?_, ?_, List.nodup_nil, ?_, ?_, ?_, ?_, ?_⟩
            · simp
            · intro x; simp [or_comm, eq_comm]
            · simp
            · rintro x ⟨⟩; exact h2
            · simp
            · intro hd; simp [hd, h2]
            · intro _; simp only [List.length_cons]; omega

omit [Keccak] in
/-- Take locks, then give some back. -/
theorem Takes.locks {c c1 c' : Mem} {r r' : List TaskType} {p p' : Option Principal} (h : Takes c c1 r p)
    (h' : Locks c1 c' r r' p p') : Takes c c' r' p' := by
  refine ⟨h'.id.trans h.id, fun x => ?_, fun x => ?_, h'.nodup, fun x hx => h.fresh x (h'.run x hx),
    fun x hx => h.pfresh x (h'.caller x hx), fun hd => h'.sub.nodup (h.anodup hd), fun hd => h'.psub.nodup (h.pnodup hd),
    fun hb => Nat.le_trans h'.psub.length_le (h.bound hb)⟩
  · rw [h'.active, h.active]
    constructor
    · rintro ⟨h1 | h1, h2⟩
      · exact .inl h1
      · exact .inr (h2 h1)
    · rintro (h1 | h1)
      · exact ⟨.inl h1, fun hr => absurd h1 (h.fresh x hr)⟩
      · exact ⟨.inr (h'.run x h1), fun _ => h1⟩
  · rw [h'.principals, h.principals]
    constructor
    · rintro ⟨h1 | h1, h2⟩
      · exact .inl h1
      · exact .inr (h2 h1)
    · rintro (h1 | h1)
      · exact ⟨.inl h1, fun hr => absurd h1 (h.pfresh x hr)⟩
      · exact ⟨.inr (h'.caller x h1), fun _ => h1⟩

omit [Keccak] in
/-- Take locks twice. -/
theorem Takes.acquire2 {c c1 c2 : Mem} {r : List TaskType} {p : Option Principal} {t : TaskType} (h : Takes c c1 r p)
    (h' : c1.acquire t = some c2) : Takes c c2 (r ++ [t]) p := by
  have k := Takes.acquire h'
  refine ⟨k.id.trans h.id, fun x => ?_, fun x => ?_, ?_, ?_, h.pfresh, fun hd => k.anodup (h.anodup hd),
    fun hd => k.pnodup (h.pnodup hd), fun hb => k.bound (h.bound hb)⟩
  · rw [k.active, h.active, List.mem_append, or_assoc]
  · rw [k.principals, h.principals]; simp
  · rw [List.nodup_append]
    refine ⟨h.nodup, by simp, fun x hx y hy => ?_⟩
    rintro rfl
    exact k.fresh x hy ((h.active x).2 (.inr hx))
  · intro x hx hc
    rcases List.mem_append.1 hx with hx | hx
    · exact h.fresh x hx hc
    · exact k.fresh x hx ((h.active x).2 (.inl hc))

theorem Message.run_takes {c c' : Mem} {msg : Message} {now : Nat} {n : Next} (h : msg.run c now = .ok (c', n)) :
    Takes c c' n.running n.caller := by
  cases msg with
  | mint =>
    simp only [Message.run, Mem.startMint] at h
    split at h
    · cases h; exact Takes.nothing rfl rfl rfl
    · rename_i c1 hc; exact (Takes.acquire hc).locks (Mem.mintLoop_locks h)
  | reimbursement =>
    simp only [Message.run, Mem.startReimbursement] at h
    split at h
    · cases h; exact Takes.nothing rfl rfl rfl
    · rename_i c1 hc; exact (Takes.acquire hc).locks (Mem.reimburseLoop_locks h)
  | retrieve cached =>
    simp only [Message.run, Mem.startRetrieve] at h
    split at h
    · cases h; exact Takes.nothing rfl rfl rfl
    · rename_i c1 hc
      split at h
      · exact (Takes.acquire hc).locks (Locks.of_eq (Mem.retrieveEnd_locks _) (Except.ok.inj h))
      · split at h
        · exact (Takes.acquire hc).locks (Locks.of_eq (Mem.onRetrieveGas_locks _ _) (Except.ok.inj h))
        · split at h
          · exact (Takes.acquire hc).locks (Locks.of_eq (Mem.onRetrieveGas_locks _ _) (Except.ok.inj h))
          · rename_i c2 hc2
            cases h
            exact (Takes.acquire hc).acquire2 hc2
  | scrape =>
    simp only [Message.run] at h
    split at h
    · cases h; exact Takes.nothing rfl rfl rfl
    · rename_i c1 hc
      cases h
      exact (Takes.acquire hc).locks (Locks.same (run := [.scrapLogs]) rfl rfl rfl (by decide))
  | gas =>
    simp only [Message.run] at h
    split at h
    · cases h; exact Takes.nothing rfl rfl rfl
    · rename_i c1 hc
      cases h
      exact Takes.acquire hc
  | withdrawNative caller amount recipient =>
    simp only [Message.run, Mem.startNative, Res.bind_ok] at h
    obtain ⟨c1, hc, h⟩ := h
    refine (Takes.lockCaller hc).locks ?_
    split at h
    · cases h; exact Locks.leave _ _
    · simp only [Res.bind_ok] at h
      obtain ⟨_, _, h⟩ := h
      split at h
      · cases h; exact Locks.leave _ _
      · split at h
        · simp only [Res.bind_ok] at h
          obtain ⟨_, _, h⟩ := h
          cases h; exact Locks.same rfl rfl rfl (by decide)
        · cases h; exact Locks.same rfl rfl rfl (by decide)
  | withdrawErc20 caller amount ledger recipient cached =>
    simp only [Message.run, Mem.startErc20, Res.bind_ok] at h
    obtain ⟨c1, hc, h⟩ := h
    split at h
    · cases h; exact (Takes.lockCaller hc).locks (Locks.leave _ _)
    · simp only [Res.bind_ok] at h
      obtain ⟨_, _, h⟩ := h
      split at h
      · cases h; exact (Takes.lockCaller hc).locks (Locks.leave _ _)
      · split at h
        · exact (Takes.lockCaller hc).locks (Mem.onErc20Gas_locks h)
        · split at h
          · exact (Takes.lockCaller hc).locks (Mem.onErc20Gas_locks h)
          · rename_i c2 hc2
            cases h
            exact (Takes.lockCaller hc).acquire2 hc2
  | addToken caller arg =>
    simp only [Message.run, Res.bind_ok] at h
    obtain ⟨x, _, h⟩ := h
    cases h
    exact Takes.nothing rfl rfl rfl

omit [Keccak] in
theorem Mem.acquire_seen {c c' : Mem} {t : TaskType} (h : c.acquire t = some c') :
    c'.lastObserved = c.lastObserved ∧ c'.lastObservedTime = c.lastObservedTime := by
  unfold Mem.acquire at h
  split at h <;> cases h
  exact ⟨rfl, rfl⟩

omit [Keccak] in
theorem Mem.lockCaller_seen {c c' : Mem} {p : Principal} (h : c.lockCaller p = .ok c') :
    c'.lastObserved = c.lastObserved ∧ c'.lastObservedTime = c.lastObservedTime := by
  unfold Mem.lockCaller Mem.enter at h
  split at h
  · cases h
  · split at h
    · cases h
    · rename_i hx
      cases h
      split at hx
      · cases hx
      · split at hx
        · cases hx
        · split at hx
          · cases hx
          · cases hx; exact ⟨rfl, rfl⟩

/-- No message but `scrape` starts the scraper or touches what it observed. -/
theorem Message.run_seen {c c' : Mem} {msg : Message} {now : Nat} {n : Next} (h : msg.run c now = .ok (c', n))
    (hm : msg ≠ .scrape) : TaskType.scrapLogs ∉ n.running ∧ c'.lastObserved = c.lastObserved ∧
      c'.lastObservedTime = c.lastObservedTime := by
  have go : ∀ {c1 : Mem} {r : List TaskType} {p p' : Option Principal}, c1.lastObserved = c.lastObserved ∧
      c1.lastObservedTime = c.lastObservedTime → Locks c1 c' r n.running p p' → TaskType.scrapLogs ∉ r →
      TaskType.scrapLogs ∉ n.running ∧ c'.lastObserved = c.lastObserved ∧ c'.lastObservedTime = c.lastObservedTime := by
    intro c1 r p p' k l hr
    exact ⟨fun hh => hr (l.run _ hh), (l.seen hr).1.trans k.1, (l.seen hr).2.trans k.2⟩
  cases msg with
  | scrape => exact absurd rfl hm
  | mint =>
    simp only [Message.run, Mem.startMint] at h
    split at h
    · cases h; exact ⟨by simp [Next.running], rfl, rfl⟩
    · rename_i c1 hc; exact go (Mem.acquire_seen hc) (Mem.mintLoop_locks h) (by decide)
  | reimbursement =>
    simp only [Message.run, Mem.startReimbursement] at h
    split at h
    · cases h; exact ⟨by simp [Next.running], rfl, rfl⟩
    · rename_i c1 hc; exact go (Mem.acquire_seen hc) (Mem.reimburseLoop_locks h) (by decide)
  | retrieve cached =>
    simp only [Message.run, Mem.startRetrieve] at h
    split at h
    · cases h; exact ⟨by simp [Next.running], rfl, rfl⟩
    · rename_i c1 hc
      have k := Mem.acquire_seen hc
      split at h
      · exact go k (Locks.of_eq (Mem.retrieveEnd_locks _) (Except.ok.inj h)) (by decide)
      · split at h
        · exact go k (Locks.of_eq (Mem.onRetrieveGas_locks _ _) (Except.ok.inj h)) (by decide)
        · split at h
          · exact go k (Locks.of_eq (Mem.onRetrieveGas_locks _ _) (Except.ok.inj h)) (by decide)
          · rename_i c2 hc2
            cases h
            have l := Mem.acquire_seen hc2
            exact ⟨by simp [Next.running, Task.running], l.1.trans k.1, l.2.trans k.2⟩
  | gas =>
    simp only [Message.run] at h
    split at h
    · cases h; exact ⟨by simp [Next.running], rfl, rfl⟩
    · rename_i c1 hc
      cases h
      exact ⟨by simp [Next.running, Task.running], Mem.acquire_seen hc⟩
  | withdrawNative caller amount recipient =>
    simp only [Message.run, Mem.startNative, Res.bind_ok] at h
    obtain ⟨c1, hc, h⟩ := h
    have k := Mem.lockCaller_seen hc
    split at h
    · cases h; exact ⟨by simp [Next.running, Task.running], k⟩
    · simp only [Res.bind_ok] at h
      obtain ⟨_, _, h⟩ := h
      split at h
      · cases h; exact ⟨by simp [Next.running, Task.running], k⟩
      · split at h
        · simp only [Res.bind_ok] at h
          obtain ⟨_, _, h⟩ := h
          cases h; exact ⟨by simp [Next.running, Task.running], k⟩
        · cases h; exact ⟨by simp [Next.running, Task.running], k⟩
  | withdrawErc20 caller amount ledger recipient cached =>
    simp only [Message.run, Mem.startErc20, Res.bind_ok] at h
    obtain ⟨c1, hc, h⟩ := h
    have k := Mem.lockCaller_seen hc
    split at h
    · cases h; exact ⟨by simp [Next.running, Task.running], k⟩
    · simp only [Res.bind_ok] at h
      obtain ⟨_, _, h⟩ := h
      split at h
      · cases h; exact ⟨by simp [Next.running, Task.running], k⟩
      · split at h
        · exact go k (Mem.onErc20Gas_locks h) (by simp)
        · split at h
          · exact go k (Mem.onErc20Gas_locks h) (by simp)
          · rename_i c2 hc2
            cases h
            have l := Mem.acquire_seen hc2
            exact ⟨by simp [Next.running, Task.running], l.1.trans k.1, l.2.trans k.2⟩
  | addToken caller arg =>
    simp only [Message.run, Res.bind_ok] at h
    obtain ⟨x, _, h⟩ := h
    cases h
    exact ⟨by simp [Next.running], rfl, rfl⟩

end EvmMinter
