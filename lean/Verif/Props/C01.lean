import Verif.Lemmas.Deposits
import Verif.Spec.Trace
import Verif.Spec.Example
/-!
# C01, C05 (event log part): deposits are credited at most once
-/

namespace EvmMinter

open Spec

section
variable [Keccak]

/-- Relation between the log and the deposit maps for one source. -/
structure DepLog (src : EventSource) (log : List Event) (D : DepState) : Prop where
  mint_count : count (isMintOf src) log = if (D.minted.get src).isSome then 1 else 0
  accept_count : count (isAcceptOf src) log ≤ 1
  accept_live : (D.toMint.get src).isSome ∨ (D.minted.get src).isSome → count (isAcceptOf src) log = 1
  accept_seen : 0 < count (isAcceptOf src) log →
    (D.toMint.get src).isSome ∨ (D.minted.get src).isSome ∨ (D.invalid.get src).isSome
  reject_seen : (∃ e ∈ log, isRejectOf src e = true) → (D.invalid.get src).isSome
  disj : (D.toMint.get src).isSome → D.minted.get src = none ∧ D.invalid.get src = none
  shape : ∀ pre e post, log = pre ++ e :: post → isMintOf src e = true →
    count (isAcceptOf src) pre = 1 ∧ ∀ x ∈ pre, isRejectOf src x = false

omit [Keccak] in
theorem source_intoEvent {src : EventSource} {d : Deposit} :
    isAcceptOf src d.intoEvent = (d.source == src) := by
  cases d <;> rfl

omit [Keccak] in
theorem shape_snoc {src : EventSource} {log : List Event} {e : Event}
    (hs : ∀ pre e post, log = pre ++ e :: post → isMintOf src e = true →
      count (isAcceptOf src) pre = 1 ∧ ∀ x ∈ pre, isRejectOf src x = false)
    (he : isMintOf src e = true → count (isAcceptOf src) log = 1 ∧ ∀ x ∈ log, isRejectOf src x = false) :
    ∀ pre e' post, log ++ [e] = pre ++ e' :: post → isMintOf src e' = true →
      count (isAcceptOf src) pre = 1 ∧ ∀ x ∈ pre, isRejectOf src x = false := by
  intro pre e' post h hm
  rcases List.append_eq_append_iff.1 h with ⟨as, h1, h2⟩ | ⟨bs, h1, h2⟩
  · cases as with
    | nil =>
      simp only [List.append_nil] at h1; subst h1
      simp only [List.nil_append, List.cons.injEq] at h2
      exact he (h2.1 ▸ hm)
    | cons a as =>
      exfalso
      have := congrArg List.length h2
      simp at this
  · cases bs with
    | nil =>
      simp only [List.append_nil] at h1; subst h1
      simp only [List.nil_append, List.cons.injEq] at h2
      exact he (h2.1 ▸ hm)
    | cons b bs =>
      simp only [List.cons_append, List.cons.injEq] at h2
      obtain ⟨rfl, h2⟩ := h2
      exact hs pre e' bs h1 hm

omit [Keccak] in
theorem DepLog.step {src : EventSource} {log : List Event} {D D' : DepState} {e : Event}
    (h : DepLog src log D) (hst : DepStep D e D') : DepLog src (log ++ [e]) D' := by
  have cnt : ∀ p : Event → Bool, count p (log ++ [e]) = count p log + if p e then 1 else 0 := by
    intro p; simp [count, List.countP_append, List.countP_cons]
  have rej : (∃ x ∈ log ++ [e], isRejectOf src x = true) ↔
      (∃ x ∈ log, isRejectOf src x = true) ∨ isRejectOf src e = true := by
    simp [or_and_right, exists_or]
  obtain ⟨h1, h2, h3, h4, h5, h6, h7⟩ := h
  cases hst with
  | accept d n1 n2 n3 =>
    have hm : isMintOf src d.intoEvent = false := by cases d <;> rfl
    have hr : isRejectOf src d.intoEvent = false := by cases d <;> rfl
    have ha := source_intoEvent (src := src) (d := d)
    by_cases e : d.source = src
    · subst e
      simp only [beq_self_eq_true] at ha
      have hz : count (isAcceptOf d.source) log = 0 := by
        rcases Nat.eq_zero_or_pos (count (isAcceptOf d.source) log) with h | h
        · exact h
        · rcases h4 h with h | h | h <;> simp [n1, n2, n3] at h
      refine ⟨?_, ?_, ?_, ?_, ?_, ?_, shape_snoc h7 (by simp [hm])⟩
      · rw [cnt, hm]; simpa using h1
      · rw [cnt, ha, hz]; simp
      · intro _; rw [cnt, ha, hz]; simp
      · intro _; left; simp
      · rw [rej, hr]; simpa using h5
      · intro _; exact ⟨n2, n3⟩
    · have ha' : isAcceptOf src d.intoEvent = false := by rw [ha]; simpa using e
      have hg : ∀ v, (D.toMint.insert d.source v).get src = D.toMint.get src := by
        intro v; simp [Ne.symm e]
      refine ⟨?_, ?_, ?_, ?_, ?_, ?_, shape_snoc h7 (by simp [hm])⟩
      · rw [cnt, hm]; simpa using h1
      · rw [cnt, ha']; simpa using h2
      · rw [cnt, ha']; simp only [hg]; simpa using h3
      · rw [cnt, ha']; simp only [hg]; simpa using h4
      · rw [rej, hr]; simpa using h5
      · simp only [hg]; exact h6
  | mint _ s' d b sym c hev n1 n2 n3 =>
    have hm : isMintOf src e = (s' == src) := by
      rcases hev with ⟨rfl, _⟩ | ⟨a, rfl, _⟩ <;> rfl
    have hr : isRejectOf src e = false := by rcases hev with ⟨rfl, _⟩ | ⟨a, rfl, _⟩ <;> rfl
    have ha : isAcceptOf src e = false := by rcases hev with ⟨rfl, _⟩ | ⟨a, rfl, _⟩ <;> rfl
    by_cases hs : s' = src
    · subst hs
      simp only [beq_self_eq_true] at hm
      have hone : count (isAcceptOf s') log = 1 := h3 (.inl (by simp [n3]))
      have hnr : ∀ x ∈ log, isRejectOf s' x = false := by
        intro x hx
        by_cases hh : isRejectOf s' x = true
        · have := h5 ⟨x, hx, hh⟩; simp [n1] at this
        · simpa using hh
      refine ⟨?_, ?_, ?_, ?_, ?_, ?_, shape_snoc h7 (fun _ => ⟨hone, hnr⟩)⟩
      · rw [cnt, hm, h1, n2]; simp
      · rw [cnt, ha, hone]; simp
      · intro _; rw [cnt, ha, hone]; simp
      · intro _; right; left; simp
      · rw [rej, hr]; simpa using h5
      · simp
    · have hm' : isMintOf src e = false := by rw [hm]; simpa using hs
      have hs' : src ≠ s' := Ne.symm hs
      refine ⟨?_, ?_, ?_, ?_, ?_, ?_, shape_snoc h7 (by simp [hm'])⟩
      · rw [cnt, hm']; simpa [hs'] using h1
      · rw [cnt, ha]; simpa using h2
      · rw [cnt, ha]; simpa [hs'] using h3
      · rw [cnt, ha]; simpa [hs'] using h4
      · rw [rej, hr]; simpa using h5
      · simpa [hs'] using h6
  | invalid s' reason n1 n2 n3 =>
    have hm : isMintOf src (.invalidDeposit s' reason) = false := rfl
    have ha : isAcceptOf src (.invalidDeposit s' reason) = false := rfl
    have hr : isRejectOf src (.invalidDeposit s' reason) = (s' == src) := rfl
    refine ⟨?_, ?_, ?_, ?_, ?_, ?_, shape_snoc h7 (by simp [hm])⟩
    · rw [cnt, hm]; simpa using h1
    · rw [cnt, ha]; simpa using h2
    · rw [cnt, ha]; simpa using h3
    · rw [cnt, ha]
      intro hh
      rcases h4 (by simpa using hh) with h | h | h
      · exact .inl h
      · exact .inr (.inl h)
      · refine .inr (.inr ?_)
        simp only [FMap.get_insert]; split
        · rfl
        · exact h
    · rw [rej, hr]
      rintro (hh | hh)
      · have := h5 hh; simp only [FMap.get_insert]; split
        · rfl
        · exact this
      · have : s' = src := by simpa using hh
        subst this; simp
    · intro hh
      have := h6 hh
      refine ⟨this.1, ?_⟩
      simp only [FMap.get_insert]; split
      · rename_i e; subst e; simp [n1] at hh
      · exact this.2
  | invalidAgain s' reason x n1 n2 n3 =>
    have hm : isMintOf src (.invalidDeposit s' reason) = false := rfl
    have ha : isAcceptOf src (.invalidDeposit s' reason) = false := rfl
    have hr : isRejectOf src (.invalidDeposit s' reason) = (s' == src) := rfl
    refine ⟨?_, ?_, ?_, ?_, ?_, h6, shape_snoc h7 (by simp [hm])⟩
    · rw [cnt, hm]; simpa using h1
    · rw [cnt, ha]; simpa using h2
    · rw [cnt, ha]; simpa using h3
    · rw [cnt, ha]; simpa using h4
    · rw [rej, hr]
      rintro (hh | hh)
      · exact h5 hh
      · have : s' = src := by simpa using hh
        subst this; simp [n3]
  | quarantine s' =>
    have hm : isMintOf src (.quarantinedDeposit s') = false := rfl
    have ha : isAcceptOf src (.quarantinedDeposit s') = false := rfl
    have hr : isRejectOf src (.quarantinedDeposit s') = (s' == src) := rfl
    have hinv : ∀ x, ((if D.invalid.contains s' = true then D.invalid
        else D.invalid.insert s' .quarantinedDeposit).get x).isSome =
        (x == s' || (D.invalid.get x).isSome) := by
      intro x
      split
      · rename_i hc
        by_cases hx : x = s'
        · subst hx; simpa [FMap.contains] using hc
        · simp [hx]
      · by_cases hx : x = s'
        · subst hx; simp
        · simp [hx]
    refine ⟨?_, ?_, ?_, ?_, ?_, ?_, shape_snoc h7 (by simp [hm])⟩
    · rw [cnt, hm]; simpa using h1
    · rw [cnt, ha]; simpa using h2
    · rw [cnt, ha]
      simp only [FMap.get_erase]
      intro hh
      split at hh
      · simpa using h3 (.inr (by simpa using hh))
      · simpa using h3 hh
    · rw [cnt, ha]
      intro hh
      simp only [FMap.get_erase, hinv]
      by_cases hx : src = s'
      · right; right; simp [hx]
      · simpa [hx] using h4 (by simpa using hh)
    · rw [rej, hr, hinv]
      rintro (hh | hh)
      · simp [h5 hh]
      · have : s' = src := by simpa using hh
        simp [this]
    · simp only [FMap.get_erase]
      intro hh
      split at hh
      · simp at hh
      · rename_i hx
        have := h6 hh
        refine ⟨this.1, ?_⟩
        have h := hinv src
        simp only [this.2, beq_eq_false_iff_ne.2 hx] at h
        simpa using h
  | other _ hk =>
    have hm : isMintOf src e = false := by cases e <;> simp_all [isMintOf]
    have ha : isAcceptOf src e = false := by cases e <;> simp_all [isAcceptOf]
    have hr : isRejectOf src e = false := by cases e <;> simp_all [isRejectOf]
    refine ⟨?_, ?_, ?_, ?_, ?_, h6, shape_snoc h7 (by simp [hm])⟩
    · rw [cnt, hm]; simpa using h1
    · rw [cnt, ha]; simpa using h2
    · rw [cnt, ha]; simpa using h3
    · rw [cnt, ha]; simpa using h4
    · rw [rej, hr]; simpa using h5

theorem depLog_of_replay {log : List Event} {s : State} (h : replay log = .ok s) (src : EventSource) :
    DepLog src log s.dep := by
  refine replay_induct (P := fun log s => DepLog src log s.dep) ?_ ?_ h
  · intro a s hs
    obtain ⟨h1, h2, h3, _⟩ := ofInit_ok hs
    refine ⟨by simp [State.dep, h2, count, isMintOf], by simp [count, isAcceptOf],
      by simp [State.dep, h1, h2], by simp [count, isAcceptOf], by simp [isRejectOf],
      by simp [State.dep, h1], ?_⟩
    intro pre e post he hm
    cases pre with
    | nil => simp at he; obtain ⟨rfl, _⟩ := he; simp [isMintOf] at hm
    | cons x t => simp at he
  · intro log s e s' _ hp ha
    exact hp.step (applyEvent_dep ha)

/-- **C01.** In every audit log the canister can hold, a deposit has at most one Minted event; a Minted event
is preceded by exactly one Accepted event for the same source (and there is no other one anywhere in the log);
and no Invalid or Quarantined event for the source precedes it. -/
theorem C01_deposit_credited_at_most_once {log : List Event} {s : State} (h : replay log = .ok s)
    (src : EventSource) :
    count (isMintOf src) log ≤ 1 ∧ count (isAcceptOf src) log ≤ 1 ∧
    ∀ pre e post, log = pre ++ e :: post → isMintOf src e = true →
      count (isAcceptOf src) pre = 1 ∧ ∀ x ∈ pre, isRejectOf src x = false := by
  have := depLog_of_replay h src
  refine ⟨?_, this.accept_count, this.shape⟩
  rw [this.mint_count]; split <;> simp

/-- **C05 (event log part).** In every reachable state a deposit waiting to be minted is neither minted nor
invalid. -/
theorem C05_waiting_exclusive {log : List Event} {s : State} (h : replay log = .ok s) (src : EventSource)
    (hw : (s.eventsToMint.get src).isSome) :
    s.mintedEvents.get src = none ∧ s.invalidEvents.get src = none :=
  (depLog_of_replay h src).disj hw

omit [Keccak] in
theorem dep_monotone {D D' : DepState} {e : Event} (h : DepStep D e D') (src : EventSource) :
    (∀ m, D.minted.get src = some m → D'.minted.get src = some m) ∧
    (∀ r, D.invalid.get src = some r → D'.invalid.get src = some r) := by
  cases h with
  | accept => exact ⟨fun _ h => h, fun _ h => h⟩
  | mint _ s' d b sym c hev n1 n2 n3 =>
    refine ⟨?_, fun _ h => h⟩
    intro m hm
    simp only [FMap.get_insert]
    split
    · rename_i e; subst e; simp [n2] at hm
    · exact hm
  | invalid s' reason n1 n2 n3 =>
    refine ⟨fun _ h => h, ?_⟩
    intro r hr
    simp only [FMap.get_insert]
    split
    · rename_i e; subst e; simp [n3] at hr
    · exact hr
  | invalidAgain => exact ⟨fun _ h => h, fun _ h => h⟩
  | quarantine s' =>
    refine ⟨fun _ h => h, ?_⟩
    intro r hr
    dsimp only
    split
    · exact hr
    · rename_i hc
      simp only [FMap.get_insert]
      split
      · rename_i e; subst e; simp [FMap.contains, hr] at hc
      · exact hr
  | other => exact ⟨fun _ h => h, fun _ h => h⟩

/-- **C05 (event log part).** Minted deposits stay minted with the same data, and invalid or quarantined
deposits stay so with the same reason, whatever events follow. -/
theorem C05_terminal_states_final {s s' : State} {l : List Event} (h : applyEvents s l = .ok s')
    (src : EventSource) :
    (∀ m, s.mintedEvents.get src = some m → s'.mintedEvents.get src = some m) ∧
    (∀ r, s.invalidEvents.get src = some r → s'.invalidEvents.get src = some r) := by
  induction l generalizing s with
  | nil => simp only [applyEvents, Except.ok.injEq] at h; subst h; exact ⟨fun _ h => h, fun _ h => h⟩
  | cons e t ih =>
    simp only [applyEvents, Res.bind_ok] at h
    obtain ⟨s1, h1, h2⟩ := h
    have a := dep_monotone (applyEvent_dep h1) src
    have b := ih h2
    exact ⟨fun m hm => b.1 m (a.1 m hm), fun r hr => b.2 r (a.2 r hr)⟩

end

/-- The hypotheses are met by a history with two minted deposits. -/
example : ∃ s, replay Example.log = .ok s ∧ count (isMintOf ⟨0x11, 0⟩) Example.log = 1 := by
  obtain ⟨s, h⟩ := Example.log_ok
  exact ⟨s, h, by decide⟩

/-- A history with a minted and an invalid deposit, and (a prefix of it) with a waiting one. -/
example : ∃ s, replay Example.log = .ok s ∧
    ((s.mintedEvents.get ⟨0x11, 0⟩).isSome && (s.invalidEvents.get ⟨0x13, 1⟩).isSome) = true :=
  Example.of_checkLog (by decide +kernel)

example : ∃ s, replay (Example.log.take 5) = .ok s ∧ (s.eventsToMint.get ⟨0x11, 0⟩).isSome = true :=
  Example.of_checkLog (by decide +kernel)

end EvmMinter
