import Verif.Props.C01
import Verif.Lemmas.SoundInv
import Verif.Spec.ExampleRun
/-!
# C05: a deposit is in at most one lifecycle state and terminal states are final
-/

namespace EvmMinter

open Spec

section
variable [Keccak]

/-- No deposit is both minted and invalid. -/
theorem run_minted_or_invalid {log : List Event} {s : State} (h : Run log s) (src : EventSource) :
    s.mintedEvents.get src = none ∨ s.invalidEvents.get src = none := by
  induction h with
  | init a s h => left; rw [(ofInit_ok h).2.1]; rfl
  | event log s e s' hr he ha ih =>
    obtain ⟨s₀, h1, _, _, h4⟩ := run_replay hr
    have hd : s.dep = s₀.dep := by rw [h4]; rfl
    have dl := depLog_of_replay h1 src
    rw [← hd] at dl
    have hst := applyEvent_dep ha
    have ih' : s.dep.minted.get src = none ∨ s.dep.invalid.get src = none := ih
    suffices s'.dep.minted.get src = none ∨ s'.dep.invalid.get src = none from this
    generalize s'.dep = D' at hst ⊢
    cases hst with
    | accept => exact ih'
    | mint _ x d b sym c hev n1 n2 n3 =>
      by_cases hx : src = x
      · subst hx; exact .inr n1
      · simpa [hx] using ih'
    | invalid x reason n1 n2 n3 =>
      by_cases hx : src = x
      · subst hx; exact .inl n2
      · simpa [hx] using ih'
    | invalidAgain => exact ih'
    | quarantine x =>
      by_cases hx : src = x
      · subst hx
        obtain ⟨d, hd⟩ := he
        exact .inl (dl.disj (by show (s.eventsToMint.get src).isSome; simp [hd])).1
      · dsimp only
        split
        · exact ih'
        · simpa [hx] using ih'
    | other => exact ih'
  | reschedule log s r t hr hm ht ih => exact ih
  | scraped log s b hr ih => exact ih
  | restart log s s' hr hs ih =>
    obtain ⟨s₀, h1, _, _, h4⟩ := run_replay hr
    rw [h1, Except.ok.injEq] at hs
    subst hs
    rw [h4] at ih; exact ih

/-- **C05.** At any time a deposit is in at most one of the states waiting, minted, invalid (or quarantined). -/
theorem C05_exclusive {log : List Event} {s : State} (h : Run log s) (src : EventSource) :
    ((s.eventsToMint.get src).isSome → s.mintedEvents.get src = none ∧ s.invalidEvents.get src = none) ∧
    ((s.mintedEvents.get src).isSome → s.eventsToMint.get src = none ∧ s.invalidEvents.get src = none) ∧
    ((s.invalidEvents.get src).isSome → s.eventsToMint.get src = none ∧ s.mintedEvents.get src = none) := by
  have a := run_minted_or_invalid h src
  obtain ⟨s₀, h1, _, _, h4⟩ := run_replay h
  have b : (s.eventsToMint.get src).isSome → s.mintedEvents.get src = none ∧ s.invalidEvents.get src = none := by
    rw [h4]; exact C05_waiting_exclusive h1 src
  refine ⟨b, ?_, ?_⟩
  · intro hm
    cases ht : s.eventsToMint.get src with
    | some d => rw [(b (by simp [ht])).1] at hm; cases hm
    | none =>
      rcases a with a | a
      · rw [a] at hm; cases hm
      · exact ⟨rfl, a⟩
  · intro hm
    cases ht : s.eventsToMint.get src with
    | some d => rw [(b (by simp [ht])).2] at hm; cases hm
    | none =>
      rcases a with a | a
      · exact ⟨rfl, a⟩
      · rw [a] at hm; cases hm

/-- **C05.** Once minted, a deposit is minted with the same data at every later time of the same canister, and
once invalid or quarantined it is so for the same reason. -/
theorem C05_final {log more : List Event} {s s' : State} (h : Run log s) (h' : Run (log ++ more) s')
    (src : EventSource) :
    (∀ m, s.mintedEvents.get src = some m → s'.mintedEvents.get src = some m) ∧
    (∀ r, s.invalidEvents.get src = some r → s'.invalidEvents.get src = some r) := by
  obtain ⟨s₀, h1, _, _, h4⟩ := run_replay h
  obtain ⟨s₁, h5, _, _, h6⟩ := run_replay h'
  have := replay_prefix h5 (replay_ne_nil h1)
  obtain ⟨x, hx, hy⟩ := this
  rw [h1, Except.ok.injEq] at hx; subst hx
  rw [h4, h6]
  exact C05_terminal_states_final hy src

end

/-- Executions with a waiting deposit, and then with minted and invalid ones. -/
example : ∃ s, Run (Example.log.take 5) s ∧ (s.eventsToMint.get ⟨0x11, 0⟩).isSome = true :=
  Example.start_run (k := 4) (by decide +kernel)

example : ∃ s, Run (Example.log.take 13 ++ (Example.log.drop 13).take 8) s ∧
    ((s.mintedEvents.get ⟨0x11, 0⟩).isSome && (s.invalidEvents.get ⟨0x13, 1⟩).isSome) = true :=
  Example.prefix_run (by decide +kernel)

end EvmMinter
