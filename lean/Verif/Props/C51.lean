import Verif.Props.C39
/-!
# C51: retries of RPC calls, C52: one faulty provider
-/

namespace EvmMinter
namespace Rpc

variable {α : Type}

/-! ## C51 -/

/-- `expected` is the largest amount that a "too few cycles" error of the answer asks for. -/
def Asks (r : MultiRpcResult α) (expected : Nat) : Prop :=
  let errors : List (Except RpcError α) := match r with
    | .consistent r => [r]
    | .inconsistent l => l.map (·.2)
  (∃ received, .error (.provider (.tooFewCycles expected received)) ∈ errors) ∧
  ∀ n received, .error (.provider (.tooFewCycles n received)) ∈ errors → n ≤ expected

theorem maxExpected_some {r : MultiRpcResult α} {n : Nat} : maxExpectedTooFewCycles r = some n ↔ Asks r n := by
  unfold maxExpectedTooFewCycles Asks
  dsimp only
  rw [List.max?_eq_some_iff]
  have hmem : ∀ (l : List (Except RpcError α)) m, m ∈ (l.filterMap fun r => match r with
      | .error (.provider (.tooFewCycles expected _)) => some expected
      | _ => none) ↔ ∃ received, .error (.provider (.tooFewCycles m received)) ∈ l := by
    intro l m
    rw [List.mem_filterMap]
    constructor
    · rintro ⟨a, ha, h⟩
      split at h
      · cases h; exact ⟨_, ha⟩
      · cases h
    · rintro ⟨c, hc⟩
      exact ⟨_, hc, rfl⟩
  constructor
  · rintro ⟨h1, h2⟩
    exact ⟨(hmem _ n).1 h1, fun m c hm => h2 m ((hmem _ m).2 ⟨c, hm⟩)⟩
  · rintro ⟨h1, h2⟩
    refine ⟨(hmem _ n).2 h1, fun m hm => ?_⟩
    obtain ⟨c, hc⟩ := (hmem _ m).1 hm
    exact h2 m c hc

theorem callInternal_spec (ask : Nat → Nat → Except (Nat × String) (MultiRpcResult α)) (left n cycles : Nat) :
    let r := callInternal ask n cycles left
    r.1.head? = some cycles ∧ r.1.length ≤ left + 1 ∧
    (∀ i c, r.1[i]? = some c → i + 1 = r.1.length →
      r.2 = callAnswer (ask (n + i) c) ∧ ((∃ m, Asks r.2 m) → r.1.length = left + 1)) ∧
    ∀ i c d, r.1[i]? = some c → r.1[i + 1]? = some d →
      ∃ m, Asks (callAnswer (ask (n + i) c)) m ∧ d = max (min (2 * c) (2 ^ 128 - 1)) m := by
  induction left generalizing n cycles with
  | zero =>
    unfold callInternal
    refine ⟨rfl, Nat.le_refl _, ?_, ?_⟩
    · intro i c hi hl
      obtain rfl : i = 0 := by simpa using hl
      cases hi
      exact ⟨rfl, fun _ => rfl⟩
    · intro i c d _ h
      simp at h
  | succ left ih =>
    unfold callInternal
    cases hm : maxExpectedTooFewCycles (callAnswer (ask n cycles)) with
    | none =>
      dsimp only
      refine ⟨rfl, by simp, ?_, ?_⟩
      · intro i c hi hl
        obtain rfl : i = 0 := by simpa using hl
        cases hi
        refine ⟨rfl, ?_⟩
        rintro ⟨m, h⟩
        rw [maxExpected_some.2 h] at hm
        cases hm
      · intro i c d _ h
        simp at h
    | some m =>
      dsimp only
      obtain ⟨h1, h2, h3, h4⟩ := ih (n + 1) (max (min (cycles * 2) (2 ^ 128 - 1)) m)
      generalize callInternal ask (n + 1) (max (min (cycles * 2) (2 ^ 128 - 1)) m) left = r at h1 h2 h3 h4 ⊢
      refine ⟨rfl, by simpa using h2, ?_, ?_⟩
      · intro i c hi hl
        rw [List.length_cons] at hl
        cases i with
        | zero =>
          have : r.1 = [] := List.length_eq_zero_iff.1 (by omega)
          rw [this] at h1
          cases h1
        | succ j =>
          obtain ⟨h5, h6⟩ := h3 j c hi (by omega)
          refine ⟨by rw [h5, Nat.add_assoc, Nat.add_comm 1 j], fun h => ?_⟩
          rw [List.length_cons, h6 h]
      · intro i c d hi hd
        cases i with
        | zero =>
          cases hi
          refine ⟨m, maxExpected_some.1 hm, ?_⟩
          have hd : r.1[0]? = some d := hd
          rw [← List.head?_eq_getElem?, h1] at hd
          cases hd
          rw [Nat.mul_comm]
        | succ j =>
          obtain ⟨m', h5, h6⟩ := h4 j c d hi hd
          exact ⟨m', by rw [← Nat.add_assoc, Nat.add_right_comm]; exact h5, h6⟩

/-- A call of the client of the minter. It asks at least once and at most eleven times, first with 30 billion cycles. Every
further call comes after an answer with a "too few cycles" error and carries twice the cycles of the one before (at most what 128
bits hold), or what the error asks for if this is more. The result is the answer to the last call, and it contains such an error only after
eleven calls. -/
theorem C51_retries (ask : Nat → Nat → Except (Nat × String) (MultiRpcResult α)) :
    (call ask).1.head? = some 30000000000 ∧ (call ask).1.length ≤ 11 ∧
    (∀ i c, (call ask).1[i]? = some c → i + 1 = (call ask).1.length →
      (call ask).2 = callAnswer (ask i c) ∧ ((∃ m, Asks (call ask).2 m) → (call ask).1.length = 11)) ∧
    ∀ i c d, (call ask).1[i]? = some c → (call ask).1[i + 1]? = some d →
      ∃ m, Asks (callAnswer (ask i c)) m ∧ d = max (min (2 * c) (2 ^ 128 - 1)) m := by
  obtain ⟨h1, h2, h3, h4⟩ := callInternal_spec ask 10 0 30000000000
  refine ⟨h1, h2, ?_, ?_⟩
  · intro i c hi hl
    have := h3 i c hi hl
    rw [Nat.zero_add] at this
    exact this
  · intro i c d hi hd
    have := h4 i c d hi hd
    rw [Nat.zero_add] at this
    exact this

/-- **C51** (rejected calls): a rejected call is not repeated and counts as an error of the providers; if logs were asked for it is
taken for a response that is too large exactly if the code is `SysFatal` and the message mentions the size limit. -/
theorem C51_rejected (ask : Nat → Nat → Except (Nat × String) (MultiRpcResult (List LogEntry))) {code : Nat} {message : String}
    (h : ask 0 30000000000 = .error (code, message)) :
    (call ask).1 = [30000000000] ∧
    (logsAnswer (logs (call ask).2) = .tooLarge ↔ code = 1 ∧ "size limit".toList <:+: message.toList) ∧
    (logsAnswer (logs (call ask).2) = .failed ↔ ¬ (code = 1 ∧ "size limit".toList <:+: message.toList)) := by
  have e : call ask = ([30000000000], .consistent (.error (.http (.ic code message)))) := by
    unfold call callInternal
    rw [h]
    rfl
  rw [e]
  refine ⟨rfl, ?_⟩
  show (logsAnswer (.error (.http (.ic code message))) = .tooLarge ↔ _) ∧ (logsAnswer (.error (.http (.ic code message))) = .failed ↔ _)
  have large : isResponseTooLarge (.ic code message) = true ↔ code = 1 ∧ "size limit".toList <:+: message.toList := by
    simp only [isResponseTooLarge, Bool.and_eq_true, beq_iff_eq, decide_eq_true_eq]
  rw [← large]
  show ((if isResponseTooLarge (.ic code message) = true then LogsAnswer.tooLarge else .failed) = .tooLarge ↔ _) ∧
    ((if isResponseTooLarge (.ic code message) = true then LogsAnswer.tooLarge else .failed) = .failed ↔ _)
  cases isResponseTooLarge (.ic code message) <;> simp

/-- If the canister is satisfied with the cycles it asked for, one retry suffices. -/
theorem C51_one_retry (ask : Nat → Nat → Except (Nat × String) (MultiRpcResult α)) {need : Nat}
    (h : ∀ n c, need ≤ c → ∀ m, ¬ Asks (callAnswer (ask n c)) m) (h' : ∀ n c m, Asks (callAnswer (ask n c)) m → m = need) :
    (call ask).1.length ≤ 2 := by
  obtain ⟨_, _, _, h4⟩ := C51_retries ask
  by_contra hc
  obtain ⟨c0, hc0⟩ : ∃ c, (call ask).1[0]? = some c := ⟨_, List.getElem?_eq_getElem (by omega)⟩
  obtain ⟨c1, hc1⟩ : ∃ c, (call ask).1[1]? = some c := ⟨_, List.getElem?_eq_getElem (by omega)⟩
  obtain ⟨c2, hc2⟩ : ∃ c, (call ask).1[2]? = some c := ⟨_, List.getElem?_eq_getElem (by omega)⟩
  obtain ⟨m, hm, rfl⟩ := h4 0 _ _ hc0 hc1
  obtain ⟨m', hm', _⟩ := h4 1 _ _ hc1 hc2
  have := h' _ _ _ hm
  exact h 1 _ (by rw [this]; exact Nat.le_max_right _ _) m' hm'

/-! ## C52 -/

/-- If some provider answers truthfully, the minter takes no other logs for true than those. The only exception would be a report of the
RPC canister itself that all providers agree. -/
theorem C52_no_false_logs {l : List (Provider × Except RpcError (List LogEntry))} {true_ logs' : List LogEntry} {p : Provider}
    (hp : (p, .ok true_) ∈ l) (h : logs (.inconsistent l) = .ok logs') : logs' = true_ := by
  rcases C39_logs.1 h with h | ⟨l', h, _, h3⟩
  · cases h
  · cases h
    exact (h3 p true_ hp).symm

/-- The same for receipts. -/
theorem C52_no_false_receipt {l : List (Provider × Except RpcError (Option EvmReceipt))} {e : EvmReceipt} {x : Receipt} {p : Provider}
    (hp : (p, .ok (some e)) ∈ l) (h : receipt (.inconsistent l) = .ok (some x)) :
    x.transactionHash = e.transactionHash ∧ x.gasUsed = e.gasUsed ∧ x.effectiveGasPrice = e.effectiveGasPrice ∧
      (x.status = .success ↔ e.status = some 1) ∧ (x.status = .failure ↔ e.status = some 0) := by
  obtain ⟨e', ha, h1, h2, h3, h4, h5, h6⟩ := C39_receipt.1 h
  rcases ha with ha | ⟨l', ha, _, hall⟩
  · cases ha
  · cases ha
    have he : e = e' := Option.some.inj (hall p _ hp)
    subst he
    refine ⟨h5, h4, h3, ?_, ?_⟩ <;> rcases h6 with ⟨a, b⟩ | ⟨a, b⟩ <;> simp [a, b]

/- Full statement: one faulty provider cannot make the minter skip a block. It is false on networks with two providers
(`Example.C52_two_providers`); what is proved needs a second truthful answer. -/
/-- If at least two providers return the true logs and at most one does anything else, the minter uses the true logs, or none
because the other one returned different logs. In no case it takes the response for too large, so no block is skipped. -/
theorem C52_one_faulty_partial {l : List (Provider × Except RpcError (List LogEntry))} {t : List LogEntry}
    (h2 : 2 ≤ l.countP fun x => decide (x.2 = .ok t)) (h1 : (l.countP fun x => decide (x.2 ≠ .ok t)) ≤ 1) :
    logsAnswer (logs (.inconsistent l)) = .logs t ∨
      logsAnswer (logs (.inconsistent l)) = .failed ∧ ∃ p w, (p, .ok w) ∈ l ∧ w ≠ t := by
  by_cases hall : ∀ p w, (p, .ok w) ∈ l → w = t
  · left
    have : logs (.inconsistent l) = .ok t := by
      refine C39_logs.2 (.inr ⟨l, rfl, Nat.le_trans h2 ?_, hall⟩)
      refine List.countP_mono_left fun x _ hx => ?_
      rw [decide_eq_true_eq] at hx
      rw [hx]
      rfl
    rw [this]
    rfl
  · right
    push Not at hall
    obtain ⟨p, w, hm, hw⟩ := hall
    refine ⟨?_, p, w, hm, hw⟩
    cases hl : logs (.inconsistent l) with
    | ok v =>
      rcases C39_logs.1 hl with h | ⟨l', h, _, h3⟩
      · cases h
      · cases h
        obtain ⟨⟨q, s⟩, hq, hs⟩ := List.countP_pos_iff.1 (by omega : 0 < l.countP fun x => decide (x.2 = .ok t))
        rw [decide_eq_true_eq] at hs
        simp only at hs
        subst hs
        exact absurd ((h3 p w hm).trans (h3 q t hq).symm) hw
    | error e =>
      unfold logsAnswer
      dsimp only
      rw [if_neg]
      -- the error lists the answers of the providers, and all of them are successful
      have he : e = .inconsistent (l.map convert) := by
        have hr : reduceWithEquality (fromMultiResult (.inconsistent l)) = .error e := by
          unfold logs at hl
          rw [show (Except.ok : List LogEntry → Except String (List LogEntry)) = fun a => .ok a from rfl, mapReduce_id] at hl
          exact hl
        have := (C39_equality _).2 e hr
        unfold fromMultiResult at this
        rw [Except.error.injEq] at this
        exact this.symm
      subst he
      unfold MultiCallError.hasHttpErrorMatching
      dsimp only
      rw [List.any_map, List.any_eq_true]
      rintro ⟨⟨q, s⟩, hq, hs⟩
      cases s with
      | ok a => cases hs
      | error e =>
        -- two different entries would differ from the true logs
        have hcount : 2 ≤ l.countP fun x => decide (x.2 ≠ .ok t) := by
          obtain ⟨l₁, l₂, rfl⟩ := List.append_of_mem hm
          rw [List.countP_append, List.countP_cons_of_pos (by simpa using hw)]
          have hq' : (q, Except.error e) ∈ l₁ ∨ (q, Except.error e) ∈ l₂ := by
            rcases List.mem_append.1 hq with h | h
            · exact .inl h
            · rcases List.mem_cons.1 h with h | h
              · cases h
              · exact .inr h
          rcases hq' with h | h
          · have := List.countP_pos_iff (p := fun x : Provider × Except RpcError (List LogEntry) => decide (x.2 ≠ .ok t)).2 ⟨_, h, by simp⟩
            omega
          · have := List.countP_pos_iff (p := fun x : Provider × Except RpcError (List LogEntry) => decide (x.2 ≠ .ok t)).2 ⟨_, h, by simp⟩
            omega
        omega

/-- A response is taken for too large only if at least one provider says so, or the RPC canister as a whole. -/
theorem C52_too_large {r : MultiRpcResult (List LogEntry)} (h : logsAnswer (logs r) = .tooLarge) :
    (∃ message, r = .consistent (.error (.http (.ic 1 message))) ∧ "size limit".toList <:+: message.toList) ∨
    ∃ l, r = .inconsistent l ∧ ∃ p message, (p, .error (.http (.ic 1 message))) ∈ l ∧ "size limit".toList <:+: message.toList := by
  have large : ∀ e, isResponseTooLarge e = true → ∃ message, e = .ic 1 message ∧ "size limit".toList <:+: message.toList := by
    intro e he
    cases e with
    | ic code message =>
      simp only [isResponseTooLarge, Bool.and_eq_true, beq_iff_eq, decide_eq_true_eq] at he
      exact ⟨message, by rw [he.1], he.2⟩
    | invalidHttpJsonRpcResponse s b => cases he
  cases hl : logs r with
  | ok v => rw [hl] at h; cases h
  | error e =>
    rw [hl] at h
    unfold logsAnswer at h
    dsimp only at h
    split at h
    · rename_i hm
      have hr : reduceWithEquality (fromMultiResult r) = .error e := by
        unfold logs at hl
        rw [show (Except.ok : List LogEntry → Except String (List LogEntry)) = fun a => .ok a from rfl, mapReduce_id] at hl
        exact hl
      have hr := (C39_equality _).2 e hr
      cases r with
      | consistent r =>
        left
        cases r with
        | ok a => cases hr
        | error x =>
          cases x <;> cases hr
          · cases hm
          · obtain ⟨m, rfl, hi⟩ := large _ hm
            exact ⟨m, rfl, hi⟩
          · cases hm
          · cases hm
      | inconsistent l =>
        right
        obtain ⟨l', hl', he⟩ := fromMultiResult_inconsistent.1 (show fromMultiResult (.inconsistent l) = .error (.inconsistent (l.map convert)) from rfl)
        unfold fromMultiResult at hr
        rw [Except.error.injEq] at hr
        subst hr
        refine ⟨l, rfl, ?_⟩
        unfold MultiCallError.hasHttpErrorMatching at hm
        dsimp only at hm
        rw [List.any_map, List.any_eq_true] at hm
        obtain ⟨⟨q, s⟩, hq, hs⟩ := hm
        cases s with
        | ok a => cases hs
        | error x =>
          cases x with
          | http x =>
            obtain ⟨m, rfl, hi⟩ := large x hs
            exact ⟨q, m, hq, hi⟩
          | provider x => cases hs
          | jsonRpc c m => cases hs
          | validation t => cases hs
    · cases h

end Rpc

namespace Example
open Rpc

/-- With two providers (`get_providers` for Sepolia, Avalanche, Fantom and the BSC test network, rpc_client/providers.rs) one of them can make
the minter take the response for too large although the other one returned the logs. -/
theorem C52_two_providers (t : List LogEntry) :
    logsAnswer (logs (.inconsistent [(0, .ok t), (1, .error (.http (.ic 1 "Http body exceeds size limit of 2000 bytes.")))])) = .tooLarge := by
  have hm : isResponseTooLarge (.ic 1 "Http body exceeds size limit of 2000 bytes.") = true := by decide +kernel
  have hl : logs (.inconsistent [(0, .ok t), (1, .error (.http (.ic 1 "Http body exceeds size limit of 2000 bytes.")))]) =
      .error (.inconsistent [(0, .ok t), (1, .error (.http (.ic 1 "Http body exceeds size limit of 2000 bytes.")))]) := rfl
  rw [hl]
  unfold logsAnswer MultiCallError.hasHttpErrorMatching
  simp [hm]

/-- The first call has too few cycles, the second one succeeds. -/
theorem C51_example :
    call (α := Nat) (fun n _ => .ok (if n = 0 then .consistent (.error (.provider (.tooFewCycles 70000000000 30000000000))) else .consistent (.ok 5))) =
      ([30000000000, 70000000000], .consistent (.ok 5)) := by
  rfl

/-- A rejected call whose message mentions the size limit. -/
theorem C51_rejected_example :
    logsAnswer (logs (call (fun _ _ => .error (1, "Http body exceeds size limit of 2000 bytes."))).2) = .tooLarge :=
  ((C51_rejected (fun _ _ => .error (1, "Http body exceeds size limit of 2000 bytes.")) rfl).2.1).2
    ⟨rfl, by decide +kernel⟩

end Example
end EvmMinter
