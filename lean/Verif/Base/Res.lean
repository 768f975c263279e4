/-!
# Panics as values

`Res α` is the result of code that may panic (trap): `.error msg` is a panic, never a default value.
-/

namespace EvmMinter

/-- Result of a computation that may panic. -/
abbrev Res (α : Type) := Except String α

/-- `assert!`/`assert_eq!`. -/
def ensure (b : Bool) (msg : String) : Res Unit := if b then .ok () else .error msg

/-- `Option::expect`. -/
def expect {α : Type} (o : Option α) (msg : String) : Res α :=
  match o with
  | some a => .ok a
  | none => .error msg

instance {ε α : Type} [DecidableEq ε] [DecidableEq α] : DecidableEq (Except ε α)
  | .ok a, .ok b => if h : a = b then isTrue (by rw [h]) else isFalse (by simpa using h)
  | .error a, .error b => if h : a = b then isTrue (by rw [h]) else isFalse (by simpa using h)
  | .ok _, .error _ => isFalse (by simp)
  | .error _, .ok _ => isFalse (by simp)

namespace Res

@[simp] theorem bind_ok {α β : Type} {x : Res α} {f : α → Res β} {b : β} :
    (x >>= f) = Except.ok b ↔ ∃ a, x = .ok a ∧ f a = .ok b := by
  cases x with
  | error e => simp [bind, Except.bind]
  | ok a => simp [bind, Except.bind]

@[simp] theorem ensure_ok {b : Bool} {m : String} {u : Unit} : ensure b m = .ok u ↔ b = true := by
  cases u
  unfold ensure
  cases b <;> simp

@[simp] theorem expect_ok {α : Type} {o : Option α} {m : String} {a : α} :
    expect o m = .ok a ↔ o = some a := by
  unfold expect
  cases o <;> simp

@[simp] theorem pure_ok {α : Type} {a b : α} : (pure a : Res α) = .ok b ↔ a = b := by
  simp [pure, Except.pure]

theorem ok_bind {α β : Type} (a : α) (f : α → Res β) : ((.ok a : Res α) >>= f) = f a := rfl

end Res

end EvmMinter
