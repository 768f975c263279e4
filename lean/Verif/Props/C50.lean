import Verif.Lemmas.EventCbor
import Verif.Model.Storage
import Verif.Spec.Example
/-!
# C50: the event log survives storage

Recorded events are encoded into stable memory and decoded after an upgrade.
-/

namespace EvmMinter
open Spec Cbor

namespace Spec

/-- `l` holds the events of `log`, recorded one after the other. -/
inductive Holds (nil : Bool) : StableLog → List (Nat × Event) → Prop where
  | empty : Holds nil [] []
  | record {l log} (now : Nat) (e : Event) : Holds nil l log → Word64 now → Event.Typed e →
      Holds nil (l.record nil now e) (log ++ [(now, e)])

end Spec

/-- **C50** Every event reads back with its timestamp, whatever follows it. -/
theorem C50_event {nil : Bool} {t : Nat} {e : Event} (ht : Word64 t) (h : Spec.Event.Typed e) (rest : Bytes) :
    decodeEvent (event nil t e ++ rest) = .ok (t, e) := by
  unfold decodeEvent
  rw [Reads.event ht h rest]

/-- **C50** Different events have different bytes, and the bytes of one are no beginning of those of another. -/
theorem C50_prefix_free {nil : Bool} {t t' : Nat} {e e' : Event} (ht : Word64 t) (h : Spec.Event.Typed e) (ht' : Word64 t')
    (h' : Spec.Event.Typed e') (hp : event nil t e <+: event nil t' e') : t = t' ∧ e = e' := by
  obtain ⟨rest, hr⟩ := hp
  have h1 := C50_event (nil := nil) ht h rest
  have h2 := C50_event (nil := nil) ht' h' []
  rw [hr] at h1
  rw [List.append_nil, h1] at h2
  simp only [Except.ok.injEq, Prod.mk.injEq] at h2
  exact h2

theorem events_append {l : StableLog} {es : List (Nat × Event)} {b : Bytes} {e : Nat × Event} (h : l.events = .ok es)
    (hb : decodeEvent b = .ok e) : StableLog.events (l ++ [b]) = .ok (es ++ [e]) := by
  induction l generalizing es with
  | nil =>
    simp only [StableLog.events] at h
    cases h
    simp [StableLog.events, hb, bind, Except.bind, pure, Except.pure]
  | cons x l ih =>
    simp only [StableLog.events, List.cons_append, bind, Except.bind, pure, Except.pure] at h ⊢
    cases hx : decodeEvent x with
    | error _ => rw [hx] at h; simp at h
    | ok y =>
      rw [hx] at h
      simp only at h ⊢
      cases hl : StableLog.events l with
      | error _ => rw [hl] at h; simp at h
      | ok ys =>
        rw [hl] at h
        simp only [Except.ok.injEq] at h
        subst h
        rw [ih hl]
        rfl

/-- **C50** The log reads back as it was recorded. -/
theorem C50_log {nil : Bool} {l : StableLog} {log : List (Nat × Event)} (h : Holds nil l log) : l.events = .ok log := by
  induction h with
  | empty => rfl
  | record now e _ ht he ih =>
    refine events_append ih ?_
    rw [← List.append_nil (event nil now e)]
    exact C50_event ht he []

/-- **C50** What an upgrade rebuilds from stable memory is the replay of the recorded events. -/
theorem C50_upgrade [Keccak] {nil : Bool} {l : StableLog} {log : List (Nat × Event)} (h : Holds nil l log) :
    l.replay = replay (log.map (·.2)) := by
  unfold StableLog.replay
  rw [C50_log h]
  rfl

namespace Example
attribute [local instance] keccak

/-- The log of the example as recorded, one event per second. -/
def stored (l : List Event) : StableLog := (l.zipIdx 1).foldl (fun s p => s.record true (p.2 * 1000000000) p.1) []

/-- The first 17 events (the hash function of the examples is not one of 256 bits). -/
theorem C50_example : (stored (log.take 17)).length = 17 ∧
    (StableLog.events (stored (log.take 17))).toOption.map (fun es => es.map (·.2)) = some (log.take 17) ∧
    (stored log).map List.length = [95, 80, 46, 97, 63, 50, 78, 46, 73, 56, 121, 63, 128, 15, 20, 56, 63, 94, 94, 56, 15] := by
  decide +kernel

/-- One damaged entry and the log can't be read: the upgrade traps and the canister stays at its old version. -/
theorem C50_example_damaged : (StableLog.replay (stored (log.take 17))).toOption.isSome = true ∧
    (StableLog.replay ((stored (log.take 17)).set 5 [130, 1])).toOption.isNone = true := by
  decide +kernel

end Example
end EvmMinter
