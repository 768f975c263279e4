import Verif.Lemmas.MintInv
import Verif.Spec.Mint
/-!
# Answers of ledgers
-/

namespace EvmMinter
open Spec

variable [Keccak]

/-- An answer on its way to a task: the index of the block with the call of the task, or an error. -/
structure AnswerInv (w : World) : Prop where
  block : ∀ {p t i}, p ∈ w.tasks → p.task = .ledger t → p.answer = some (.block i) →
    i < 2 ^ 64 ∧ w.blockAt (t.call w.mem.id).ledger i = some ⟨t.call w.mem.id, some (p.id, t)⟩
  refused : ∀ {p t e}, p ∈ w.tasks → p.task = .ledger t → p.answer = some (.refused e) → MayRefuse (t.call w.mem.id).op e

omit [Keccak] in
theorem World.blockAt_append {w w' : World} {b : Block} (h : w'.blocks = w.blocks ++ [b]) {l : Principal} {i : Nat} {x : Block}
    (hx : w.blockAt l i = some x) : w'.blockAt l i = some x := by
  unfold World.blockAt at hx ⊢
  rw [h, List.filter_append]
  rw [List.getElem?_append_left]
  · exact hx
  · exact (List.getElem?_eq_some_iff.1 hx).1

omit [Keccak] in
theorem World.blockAt_new {w w' : World} {b : Block} (h : w'.blocks = w.blocks ++ [b]) :
    w'.blockAt b.call.ledger (w.height b.call.ledger) = some b := by
  unfold World.blockAt World.height
  rw [h, List.filter_append]
  simp

omit [Keccak] in
theorem AnswerInv.mono {w w' : World} (h : AnswerInv w) (hi : w'.mem.id = w.mem.id)
    (hb : ∀ l i x, w.blockAt l i = some x → w'.blockAt l i = some x)
    (ht : ∀ p ∈ w'.tasks, p ∈ w.tasks ∨ p.answer = none ∨ p.answer = some .rejected) : AnswerInv w' := by
  constructor
  · intro p t i hp he ha
    rcases ht p hp with hp | hp | hp
    · rw [hi]
      obtain ⟨h1, h2⟩ := h.block hp he ha
      exact ⟨h1, hb _ _ _ h2⟩
    · rw [hp] at ha; cases ha
    · rw [hp] at ha; cases ha
  · intro p t e hp he ha
    rcases ht p hp with hp | hp | hp
    · rw [hi]; exact h.refused hp he ha
    · rw [hp] at ha; cases ha
    · rw [hp] at ha; cases ha

theorem answerInv {w : World} (h : Reachable w) : AnswerInv w := by
  induction h with
  | init id a s blocks _ _ => constructor <;> (intro p t i hp; cases hp)
  | step w w' hr hs ih =>
    have next : ∀ {pre post : List Pending} {id : Nat} {n : Next} {p : Pending}, w.tasks = pre ++ p :: post →
        ∀ q ∈ pre ++ n.pending id ++ post, q ∈ w.tasks ∨ q.answer = none ∨ q.answer = some .rejected := by
      intro pre post id n p ht q hq
      rw [ht]
      simp only [List.mem_append, List.mem_cons] at hq ⊢
      rcases hq with (hq | hq) | hq
      · exact .inl (.inl hq)
      · cases n with
        | await t => simp only [Next.pending, List.mem_singleton] at hq; subst hq; exact .inr (.inl rfl)
        | finish r => cases hq
      · exact .inl (.inr (.inr hq))
    have drop : ∀ {pre post : List Pending} {p : Pending}, w.tasks = pre ++ p :: post →
        ∀ q ∈ pre ++ post, q ∈ w.tasks ∨ q.answer = none ∨ q.answer = some .rejected := by
      intro pre post p ht q hq
      have := next (id := 0) (n := .finish none) ht q (by simpa [Next.pending] using hq)
      exact this
    cases hs with
    | start msg now c n _ hr =>
      refine ih.mono (Message.run_takes hr).id (fun _ _ _ h => h) (fun q hq => ?_)
      simp only [World.advance, World.begin, List.append_nil, List.mem_append] at hq
      rcases hq with hq | hq
      · exact .inl hq
      · cases n with
        | await t => simp only [Next.pending, List.mem_singleton] at hq; subst hq; exact .inr (.inl rfl)
        | finish r => cases hq
    | startTrap msg now e _ hr => exact ih.mono rfl (fun _ _ _ h => h) (fun q hq => .inl (by simpa [World.drop, World.begin] using hq))
    | execute pre post id t ht hh =>
      have hb := @World.blockAt_append w { w with
        blocks := w.blocks ++ [⟨t.call w.mem.id, some (id, t)⟩]
        tasks := pre ++ ⟨id, .ledger t, some (.block (w.height (t.call w.mem.id).ledger))⟩ :: post } ⟨t.call w.mem.id, some (id, t)⟩ rfl
      have hnew := @World.blockAt_new w { w with
        blocks := w.blocks ++ [⟨t.call w.mem.id, some (id, t)⟩]
        tasks := pre ++ ⟨id, .ledger t, some (.block (w.height (t.call w.mem.id).ledger))⟩ :: post } ⟨t.call w.mem.id, some (id, t)⟩ rfl
      constructor
      · intro p t' i hp he ha
        simp only [List.mem_append, List.mem_cons] at hp
        rcases hp with hp | rfl | hp
        · obtain ⟨h1, h2⟩ := ih.block (by rw [ht]; simp [hp]) he ha
          exact ⟨h1, hb h2⟩
        · cases he
          cases ha
          exact ⟨hh, hnew⟩
        · obtain ⟨h1, h2⟩ := ih.block (by rw [ht]; simp [hp]) he ha
          exact ⟨h1, hb h2⟩
      · intro p t' i hp he ha
        simp only [List.mem_append, List.mem_cons] at hp
        rcases hp with hp | rfl | hp
        · exact ih.refused (by rw [ht]; simp [hp]) he ha
        · cases ha
        · exact ih.refused (by rw [ht]; simp [hp]) he ha
    | refuse pre post id t e ht hm =>
      constructor
      · intro p t' i hp he ha
        simp only [List.mem_append, List.mem_cons] at hp
        rcases hp with hp | rfl | hp
        · exact ih.block (by rw [ht]; simp [hp]) he ha
        · cases ha
        · exact ih.block (by rw [ht]; simp [hp]) he ha
      · intro p t' i hp he ha
        simp only [List.mem_append, List.mem_cons] at hp
        rcases hp with hp | rfl | hp
        · exact ih.refused (by rw [ht]; simp [hp]) he ha
        · cases ha; cases he; exact hm
        · exact ih.refused (by rw [ht]; simp [hp]) he ha
    | reject pre post id t ht =>
      refine ih.mono rfl (fun _ _ _ h => h) (fun q hq => ?_)
      rw [ht]
      simp only [List.mem_append, List.mem_cons] at hq ⊢
      rcases hq with hq | rfl | hq
      · exact .inl (.inl hq)
      · exact .inr (.inr rfl)
      · exact .inl (.inr (.inr hq))
    | deliver pre post id t a now c n ht hr => exact ih.mono (LedgerTask.resume_locks hr).id (fun _ _ _ h => h) (next ht)
    | deliverTrap pre post id t a now e c ht hr hc => exact ih.mono (Task.cleanup_locks hc).id (fun _ _ _ h => h) (drop ht)
    | kill pre post id t a c ht hc => exact ih.mono (Task.cleanup_locks hc).id (fun _ _ _ h => h) (drop ht)
    | answer pre post id t o a now c n ht _ hr => exact ih.mono (ExtTask.resume_locks hr).id (fun _ _ _ h => h) (next ht)
    | answerTrap pre post id t o a now e c ht _ hr hc => exact ih.mono (Task.cleanup_locks hc).id (fun _ _ _ h => h) (drop ht)
    | killExt pre post id t o c ht hc => exact ih.mono (Task.cleanup_locks hc).id (fun _ _ _ h => h) (drop ht)
    | foreign call hf => exact ih.mono rfl (fun _ _ _ => World.blockAt_append rfl) (fun q hq => .inl hq)
    | upgrade arg log s ht _ => exact ih.mono rfl (fun _ _ _ h => h) (fun q hq => .inl hq)

end EvmMinter
