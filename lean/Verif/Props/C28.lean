import Verif.Lemmas.Locks
import Verif.Spec.ExampleWorld
/-!
# C28: guards give mutual exclusion and are always released
-/

namespace EvmMinter
open Spec

section
variable [Keccak]

omit [Keccak] in
theorem length_le_of_nodup {α : Type} [DecidableEq α] : ∀ {l m : List α}, l.Nodup → (∀ x ∈ l, x ∈ m) → l.length ≤ m.length
  | [], _, _, _ => Nat.zero_le _
  | a :: t, m, hn, hs => by
    rw [List.nodup_cons] at hn
    have ha := hs a (by simp)
    have : t.length ≤ (m.erase a).length := by
      refine length_le_of_nodup hn.2 fun x hx => ?_
      have hne : x ≠ a := by
        rintro rfl
        exact hn.1 hx
      exact (List.mem_erase_of_ne hne).2 (hs x (List.mem_cons_of_mem _ hx))
    have h2 := List.length_erase_of_mem ha
    have h3 : 0 < m.length := List.length_pos_of_mem ha
    rw [List.length_cons]
    omega

/-- C28, withdrawals: whatever the interleaving, the callers of the withdrawals in progress are all different and there are
at most 100 of them; a caller is blocked exactly while one of their withdrawals is in progress. -/
theorem C28_withdrawals {w : World} (h : Reachable w) :
    (w.tasks.filterMap fun p => p.task.caller).Nodup ∧
      (w.tasks.filterMap fun p => p.task.caller).length ≤ 100 ∧
      ∀ x, x ∈ w.mem.principals ↔ ∃ p ∈ w.tasks, p.task.caller = some x := by
  have inv := lockInv h
  refine ⟨inv.cnodup, Nat.le_trans ?_ inv.bound, fun x => ?_⟩
  · exact length_le_of_nodup inv.cnodup fun x hx => (inv.principals x).2 hx
  · rw [inv.principals, callersOf, List.mem_filterMap]

/-- C28, timers: no timer task runs twice at the same time (nor a task twice in the same suspended task), and its lock is held
exactly while it is in progress. -/
theorem C28_timers {w : World} (h : Reachable w) :
    (w.tasks.flatMap fun p => p.task.running).Nodup ∧
      ∀ t, t ∈ w.mem.active ↔ ∃ p ∈ w.tasks, t ∈ p.task.running := by
  have inv := lockInv h
  refine ⟨inv.rnodup, fun x => ?_⟩
  rw [inv.active, runningOf, List.mem_flatMap]

/-- C28, release: a trap leaves no lock behind, since the destructors that run after it cannot panic; in particular the
cases `deliverTrap`, `answerTrap` and `kill` of the executions are always possible. -/
theorem C28_cleanup (c : Mem) (t : Task) : ∃ c', t.cleanup c = .ok c' ∧
    (∀ x, x ∈ c'.active ↔ x ∈ c.active ∧ x ∉ t.running) ∧
    (∀ x, x ∈ c'.principals ↔ x ∈ c.principals ∧ t.caller ≠ some x) := by
  have ht : ∃ c', t.cleanup c = .ok c' := by
    cases t with
    | ledger t => cases t <;> exact ⟨_, rfl⟩
    | ext t => cases t <;> exact ⟨_, rfl⟩
  obtain ⟨c', hc⟩ := ht
  have hl := Task.cleanup_locks hc
  refine ⟨c', hc, fun x => ?_, fun x => ?_⟩
  · rw [hl.active]
    simp
  · rw [hl.principals]
    simp

/-- C28: an endpoint call of somebody with a withdrawal in progress, or beyond the limit, traps and changes nothing. -/
theorem C28_refused (c : Mem) (now : Nat) (caller : Principal) (amount : Nat) (recipient : List Char) (ledger : Principal)
    (cached : Option GasFeeEstimate) (h : caller ∈ c.principals ∨ 100 ≤ c.principals.length) :
    (∃ e, (Message.withdrawNative caller amount recipient).run c now = .error e) ∧
      ∃ e, (Message.withdrawErc20 caller amount ledger recipient cached).run c now = .error e := by
  have : ∃ e, c.lockCaller caller = .error e := by
    unfold Mem.lockCaller
    split
    · exact ⟨_, rfl⟩
    · unfold Mem.enter
      by_cases h0 : c.m.st.txs.pending.length ≥ 100
      · rw [if_pos h0]; exact ⟨_, rfl⟩
      · rw [if_neg h0]
        by_cases h1 : caller ∈ c.principals
        · rw [if_pos h1]; exact ⟨_, rfl⟩
        · rw [if_neg h1]
          have h2 : c.principals.length ≥ 100 := h.resolve_left h1
          rw [if_pos h2]; exact ⟨_, rfl⟩
  obtain ⟨e, he⟩ := this
  constructor
  · exact ⟨e, by simp only [Message.run, Mem.startNative, he]; rfl⟩
  · exact ⟨e, by simp only [Message.run, Mem.startErc20, he]; rfl⟩

/-- C28: a timer that fires while its task is in progress does nothing. -/
theorem C28_timer_skipped (c : Mem) (now : Nat) (cached : Option GasFeeEstimate) :
    (.mint ∈ c.active → Message.mint.run c now = .ok (c, .finish none)) ∧
      (.reimbursement ∈ c.active → Message.reimbursement.run c now = .ok (c, .finish none)) ∧
      (.retrieveEth ∈ c.active → (Message.retrieve cached).run c now = .ok (c, .finish none)) ∧
      (.scrapLogs ∈ c.active → Message.scrape.run c now = .ok (c, .finish none)) ∧
      (.refreshGasFeeEstimate ∈ c.active → Message.gas.run c now = .ok (c, .finish none)) := by
  refine ⟨fun h => ?_, fun h => ?_, fun h => ?_, fun h => ?_, fun h => ?_⟩ <;>
    simp [Message.run, Mem.startMint, Mem.startReimbursement, Mem.startRetrieve, Mem.acquire, h]

/-- Every message is in progress or has ended, not both, and ends once. -/
theorem C28_messages {w : World} (h : Reachable w) :
    (w.tasks.map (·.id) ++ w.finished.map (·.1)).Nodup ∧
      (w.started.map (·.1)).Perm (w.tasks.map (·.id) ++ w.finished.map (·.1)) := by
  have inv := idInv h
  refine ⟨inv.nodup, ?_⟩
  rw [inv.started]
  rw [List.perm_ext_iff_of_nodup List.nodup_range inv.nodup]
  intro i
  rw [List.mem_range]
  exact ⟨inv.all i, inv.lt i⟩

end

namespace Example

/-- Two callers withdraw at the same time; a second withdrawal of the first one traps, and after a trap in the callback of
the first withdrawal the caller can start again. -/
theorem C28_example : ∃ w, Reachable w ∧ decide (
    w.finished = [(2, .trapped), (0, .killed)] ∧ w.tasks.map (·.id) = [1, 3] ∧ w.mem.principals = [alice, bob]) = true :=
  let q (p : Principal) : Action := .start (.withdrawNative p 5000000000 "0x000000000000000000000000000000000000cafe".toList) 7
  after_reachable (arg := initArg) (l := [q alice, q bob, q alice, .reject 0, .kill 0, q alice]) (by decide +kernel)

end Example
end EvmMinter
