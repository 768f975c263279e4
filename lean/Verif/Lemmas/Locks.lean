import Verif.Lemmas.Tasks
/-!
# Locks and message ids in reachable worlds
-/

namespace EvmMinter
open Spec

variable [Keccak]

/-- The timer tasks in progress. -/
def runningOf (l : List Pending) : List TaskType := l.flatMap fun p => p.task.running
/-- The callers with a withdrawal in progress. -/
def callersOf (l : List Pending) : List Principal := l.filterMap fun p => p.task.caller

omit [Keccak] in
@[simp] theorem runningOf_append (l l' : List Pending) : runningOf (l ++ l') = runningOf l ++ runningOf l' := by
  simp [runningOf]
omit [Keccak] in
@[simp] theorem callersOf_append (l l' : List Pending) : callersOf (l ++ l') = callersOf l ++ callersOf l' := by
  simp [callersOf]
omit [Keccak] in
theorem runningOf_cons (p : Pending) (l : List Pending) : runningOf (p :: l) = p.task.running ++ runningOf l := by
  simp [runningOf]
omit [Keccak] in
theorem callersOf_cons (p : Pending) (l : List Pending) : callersOf (p :: l) = p.task.caller.toList ++ callersOf l := by
  cases h : p.task.caller <;> simp [callersOf, h]
omit [Keccak] in
theorem runningOf_next (id : Nat) (n : Next) : runningOf (n.pending id) = n.running := by
  cases n <;> simp [runningOf, Next.pending, Next.running]
omit [Keccak] in
theorem callersOf_next (id : Nat) (n : Next) : callersOf (n.pending id) = n.caller.toList := by
  cases n with
  | finish _ => simp [callersOf, Next.pending, Next.caller]
  | await t => cases h : t.caller <;> simp [callersOf, Next.pending, Next.caller, h]

/-- The lists of locks agree with the suspended tasks. -/
structure LockInv (c : Mem) (l : List Pending) : Prop where
  anodup : c.active.Nodup
  rnodup : (runningOf l).Nodup
  active : ∀ x, x ∈ c.active ↔ x ∈ runningOf l
  pnodup : c.principals.Nodup
  cnodup : (callersOf l).Nodup
  principals : ∀ x, x ∈ c.principals ↔ x ∈ callersOf l
  bound : c.principals.length ≤ 100

omit [Keccak] in
theorem swap_nodup {α : Type} {a r r' b : List α} (h : (a ++ (r ++ b)).Nodup) (hs : ∀ x ∈ r', x ∈ r) (hn : r'.Nodup) :
    (a ++ (r' ++ b)).Nodup := by
  simp only [List.nodup_append, List.mem_append] at h ⊢
  obtain ⟨h1, ⟨h2, h3, h4⟩, h5⟩ := h
  refine ⟨h1, ⟨hn, h3, fun x hx => h4 x (hs x hx)⟩, fun x hx y hy => h5 x hx y ?_⟩
  rcases hy with hy | hy
  · exact .inl (hs y hy)
  · exact .inr hy

omit [Keccak] in
theorem swap_mem {α : Type} {a r r' b : List α} (h : (a ++ (r ++ b)).Nodup) (hs : ∀ x ∈ r', x ∈ r) (x : α) :
    x ∈ a ++ (r' ++ b) ↔ x ∈ a ++ (r ++ b) ∧ (x ∈ r → x ∈ r') := by
  simp only [List.nodup_append, List.mem_append] at h ⊢
  obtain ⟨_, ⟨_, _, h4⟩, h5⟩ := h
  constructor
  · rintro (h | h | h)
    · exact ⟨.inl h, fun hr => absurd rfl (h5 x h x (.inl hr))⟩
    · exact ⟨.inr (.inl (hs x h)), fun _ => h⟩
    · exact ⟨.inr (.inr h), fun hr => absurd rfl (h4 x hr x h)⟩
  · rintro ⟨h | h | h, hr⟩
    · exact .inl h
    · exact .inr (.inl (hr h))
    · exact .inr (.inr h)

omit [Keccak] in
/-- A task goes on or ends. -/
theorem LockInv.swap {c c' : Mem} {pre post l : List Pending} {p : Pending} (h : LockInv c (pre ++ p :: post))
    (hl : Locks c c' p.task.running (runningOf l) p.task.caller (callersOf l).head?) (h1 : (callersOf l).length ≤ 1) :
    LockInv c' (pre ++ l ++ post) := by
  have e1 : runningOf (pre ++ p :: post) = runningOf pre ++ (p.task.running ++ runningOf post) := by
    rw [runningOf_append, runningOf_cons]
  have e2 : callersOf (pre ++ p :: post) = callersOf pre ++ (p.task.caller.toList ++ callersOf post) := by
    rw [callersOf_append, callersOf_cons]
  have ec : ∀ x, x ∈ callersOf l ↔ (callersOf l).head? = some x := by
    intro x
    cases hc : callersOf l with
    | nil => simp
    | cons y t =>
      rw [hc] at h1
      simp only [List.length_cons] at h1
      have : t = [] := by
        apply List.length_eq_zero_iff.1
        omega
      subst this
      simp [eq_comm]
  have hs : ∀ x ∈ callersOf l, x ∈ p.task.caller.toList := by
    intro x hx
    have := hl.caller x ((ec x).1 hx)
    simp [this]
  have hcn : (callersOf l).Nodup := by
    cases hc : callersOf l with
    | nil => simp
    | cons y t =>
      rw [hc] at h1
      simp only [List.length_cons] at h1
      have : t = [] := by
        apply List.length_eq_zero_iff.1
        omega
      subst this
      simp
  have n1 := h.rnodup
  rw [e1] at n1
  have n2 := h.cnodup
  rw [e2] at n2
  refine ⟨hl.sub.nodup h.anodup, ?_, fun x => ?_, hl.psub.nodup h.pnodup, ?_, fun x => ?_,
    Nat.le_trans hl.psub.length_le h.bound⟩
  · rw [runningOf_append, runningOf_append, List.append_assoc]
    exact swap_nodup n1 hl.run hl.nodup
  · rw [runningOf_append, runningOf_append, List.append_assoc, swap_mem n1 hl.run, hl.active, h.active, e1]
  · rw [callersOf_append, callersOf_append, List.append_assoc]
    exact swap_nodup n2 hs hcn
  · rw [callersOf_append, callersOf_append, List.append_assoc, swap_mem n2 hs, hl.principals, h.principals, e2, ec]
    simp

omit [Keccak] in
theorem LockInv.takes {c c' : Mem} {l : List Pending} {id : Nat} {n : Next} (h : LockInv c l)
    (ht : Takes c c' n.running n.caller) : LockInv c' (l ++ n.pending id ++ []) := by
  rw [List.append_nil]
  refine ⟨ht.anodup h.anodup, ?_, fun x => ?_, ht.pnodup h.pnodup, ?_, fun x => ?_, ht.bound h.bound⟩
  · rw [runningOf_append, runningOf_next, List.nodup_append]
    refine ⟨h.rnodup, ht.nodup, fun x hx y hy => ?_⟩
    rintro rfl
    exact ht.fresh x hy ((h.active x).2 hx)
  · rw [runningOf_append, runningOf_next, ht.active, h.active, List.mem_append]
  · rw [callersOf_append, callersOf_next, List.nodup_append]
    refine ⟨h.cnodup, ?_, fun x hx y hy => ?_⟩
    · cases n.caller <;> simp
    · rintro rfl
      exact ht.pfresh x (by simpa using hy) ((h.principals x).2 hx)
  · rw [callersOf_append, callersOf_next, ht.principals, h.principals, List.mem_append]
    simp

omit [Keccak] in
theorem LockInv.next {c c' : Mem} {pre post : List Pending} {p : Pending} {n : Next} (h : LockInv c (pre ++ p :: post))
    (hl : Locks c c' p.task.running n.running p.task.caller n.caller) (id : Nat) : LockInv c' (pre ++ n.pending id ++ post) := by
  refine h.swap ?_ ?_
  · rw [runningOf_next, callersOf_next]
    cases hn : n.caller <;> simpa [hn] using hl
  · rw [callersOf_next]
    cases n.caller <;> simp

omit [Keccak] in
theorem LockInv.dropped {c c' : Mem} {pre post : List Pending} {p : Pending} (h : LockInv c (pre ++ p :: post))
    (hl : Locks c c' p.task.running [] p.task.caller none) : LockInv c' (pre ++ post) := by
  have := h.swap (l := []) (c' := c') hl (by simp [callersOf])
  simpa using this

omit [Keccak] in
theorem LockInv.answered {c : Mem} {pre post : List Pending} {id : Nat} {t : Task} {o o' : Option LedgerAnswer}
    (h : LockInv c (pre ++ ⟨id, t, o⟩ :: post)) : LockInv c (pre ++ ⟨id, t, o'⟩ :: post) := by
  have e1 : runningOf (pre ++ ⟨id, t, o⟩ :: post) = runningOf (pre ++ ⟨id, t, o'⟩ :: post) := by
    simp [runningOf]
  have e2 : callersOf (pre ++ ⟨id, t, o⟩ :: post) = callersOf (pre ++ ⟨id, t, o'⟩ :: post) := by
    simp only [callersOf_append, callersOf_cons]
  exact ⟨h.anodup, e1 ▸ h.rnodup, e1 ▸ h.active, h.pnodup, e2 ▸ h.cnodup, e2 ▸ h.principals, h.bound⟩

theorem lockInv {w : World} (h : Reachable w) : LockInv w.mem w.tasks := by
  induction h with
  | init id a s blocks _ _ =>
    constructor <;> simp [World.initial, runningOf, callersOf]
  | step w w' _ hs ih =>
    cases hs with
    | start msg now c n _ hr => exact ih.takes (Message.run_takes hr)
    | startTrap msg now e _ hr => simpa [World.drop, World.begin] using ih
    | execute pre post id t ht _ => rw [ht] at ih; exact ih.answered
    | refuse pre post id t e ht _ => rw [ht] at ih; exact ih.answered
    | reject pre post id t ht => rw [ht] at ih; exact ih.answered
    | deliver pre post id t a now c n ht hr => rw [ht] at ih; exact ih.next (LedgerTask.resume_locks hr) id
    | deliverTrap pre post id t a now e c ht hr hc => rw [ht] at ih; exact ih.dropped (Task.cleanup_locks hc)
    | kill pre post id t a c ht hc => rw [ht] at ih; exact ih.dropped (Task.cleanup_locks hc)
    | answer pre post id t o a now c n ht _ hr => rw [ht] at ih; exact ih.next (ExtTask.resume_locks hr) id
    | answerTrap pre post id t o a now e c ht _ hr hc => rw [ht] at ih; exact ih.dropped (Task.cleanup_locks hc)
    | killExt pre post id t o c ht hc => rw [ht] at ih; exact ih.dropped (Task.cleanup_locks hc)
    | foreign call _ => exact ih
    | upgrade arg log s ht _ =>
      rw [ht] at ih ⊢
      constructor <;> simp [runningOf, callersOf]

/-! ## Ids -/

/-- Ids are given out once, and a message is either in progress or has ended. -/
structure IdInv (w : World) : Prop where
  started : w.started.map (·.1) = List.range w.nextId
  nodup : (w.tasks.map (·.id) ++ w.finished.map (·.1)).Nodup
  lt : ∀ i ∈ w.tasks.map (·.id) ++ w.finished.map (·.1), i < w.nextId
  all : ∀ i, i < w.nextId → i ∈ w.tasks.map (·.id) ++ w.finished.map (·.1)

omit [Keccak] in
theorem IdInv.perm {w w' : World} (h : IdInv w) (hn : w'.nextId = w.nextId) (hs : w'.started = w.started)
    (hp : (w.tasks.map (·.id) ++ w.finished.map (·.1)).Perm (w'.tasks.map (·.id) ++ w'.finished.map (·.1))) : IdInv w' :=
  ⟨by rw [hs, hn]; exact h.started, hp.nodup_iff.1 h.nodup, fun i hi => hn ▸ h.lt i (hp.mem_iff.2 hi),
    fun i hi => hp.mem_iff.1 (h.all i (hn ▸ hi))⟩

omit [Keccak] in
theorem IdInv.begin {w w' : World} {msg : Message} (h : IdInv w) (hn : w'.nextId = w.nextId + 1)
    (hs : w'.started = w.started ++ [(w.nextId, msg)])
    (hp : (w.tasks.map (·.id) ++ w.finished.map (·.1) ++ [w.nextId]).Perm (w'.tasks.map (·.id) ++ w'.finished.map (·.1))) : IdInv w' := by
  refine ⟨?_, hp.nodup_iff.1 ?_, fun i hi => ?_, fun i hi => hp.mem_iff.1 ?_⟩
  · rw [hs, hn, List.map_append, h.started, List.range_succ]
    rfl
  · rw [List.nodup_append]
    refine ⟨h.nodup, by simp, fun x hx y hy => ?_⟩
    have := h.lt x hx
    simp only [List.mem_singleton] at hy
    omega
  · rcases List.mem_append.1 (hp.mem_iff.2 hi) with hi | hi
    · have := h.lt i hi
      omega
    · simp only [List.mem_singleton] at hi
      omega
  · rw [hn] at hi
    rw [List.mem_append]
    by_cases hc : i < w.nextId
    · exact .inl (h.all i hc)
    · right
      simp only [List.mem_singleton]
      omega

omit [Keccak] in
theorem ids_next (n : Next) (id : Nat) (pre post : List Pending) (o : Option LedgerAnswer) (t : Task) (f : List (Nat × Outcome)) :
    ((pre ++ ⟨id, t, o⟩ :: post).map (·.id) ++ f.map (·.1)).Perm
      ((pre ++ n.pending id ++ post).map (·.id) ++ (f ++ n.finished id).map (·.1)) := by
  cases n with
  | await t' => simp [Next.pending, Next.finished]
  | finish r =>
    simp only [List.map_append, List.map_cons, Next.pending, Next.finished, List.map_nil, List.append_nil, List.append_assoc]
    refine List.Perm.append_left _ ?_
    rw [← List.append_assoc (List.map _ post)]
    exact (List.perm_append_singleton _ _).symm

omit [Keccak] in
theorem ids_drop (id : Nat) (pre post : List Pending) (o : Option LedgerAnswer) (t : Task) (f : List (Nat × Outcome)) (x : Outcome) :
    ((pre ++ ⟨id, t, o⟩ :: post).map (·.id) ++ f.map (·.1)).Perm
      ((pre ++ post).map (·.id) ++ (f ++ [(id, x)]).map (·.1)) := by
  have := ids_next (.finish none) id pre post o t f
  simpa [Next.pending, Next.finished] using this

theorem idInv {w : World} (h : Reachable w) : IdInv w := by
  induction h with
  | init id a s blocks _ _ =>
    constructor <;> simp [World.initial]
  | step w w' _ hs ih =>
    cases hs with
    | start msg now c n _ hr =>
      refine ih.begin rfl rfl ?_
      cases n with
      | await t =>
        simp only [World.advance, Next.pending, Next.finished, World.begin, List.map_append, List.append_nil, List.map_cons, List.map_nil,
          List.append_assoc]
        exact List.Perm.append_left _ List.perm_append_comm
      | finish r =>
        simp [World.advance, Next.pending, Next.finished, World.begin]
    | startTrap msg now e _ hr =>
      refine ih.begin rfl rfl ?_
      simp [World.drop, World.begin]
    | execute pre post id t ht _ => exact ih.perm rfl rfl (by rw [ht]; simp)
    | refuse pre post id t e ht _ => exact ih.perm rfl rfl (by rw [ht]; simp)
    | reject pre post id t ht => exact ih.perm rfl rfl (by rw [ht]; simp)
    | deliver pre post id t a now c n ht hr => exact ih.perm rfl rfl (by rw [ht]; exact ids_next ..)
    | deliverTrap pre post id t a now e c ht hr hc => exact ih.perm rfl rfl (by rw [ht]; exact ids_drop ..)
    | kill pre post id t a c ht hc => exact ih.perm rfl rfl (by rw [ht]; exact ids_drop ..)
    | answer pre post id t o a now c n ht _ hr => exact ih.perm rfl rfl (by rw [ht]; exact ids_next ..)
    | answerTrap pre post id t o a now e c ht _ hr hc => exact ih.perm rfl rfl (by rw [ht]; exact ids_drop ..)
    | killExt pre post id t o c ht hc => exact ih.perm rfl rfl (by rw [ht]; exact ids_drop ..)
    | foreign call _ => exact ih.perm rfl rfl (.refl _)
    | upgrade arg log s ht _ => exact ih.perm rfl rfl (.refl _)

end EvmMinter
