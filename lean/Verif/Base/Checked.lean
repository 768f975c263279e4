/-!
# Checked 256-bit amounts

`CheckedAmountOf<Unit>` (minter/src/checked_amount/mod.rs) wraps a `u256`. Values are modelled as natural
numbers; every operation that can leave `[0, 2^256)` is checked as in the code.
-/

namespace EvmMinter

/-- `2^256`. -/
def U256 : Nat := 2 ^ 256

/-- `CheckedAmountOf::MAX` (checked_amount/mod.rs:64). -/
def u256Max : Nat := 2 ^ 256 - 1

/-- `checked_add` (checked_amount/mod.rs:100-102). -/
def cadd (a b : Nat) : Option Nat := if a + b < U256 then some (a + b) else none

/-- `checked_sub` (checked_amount/mod.rs:112-114). -/
def csub (a b : Nat) : Option Nat := if b ≤ a then some (a - b) else none

/-- `checked_mul` (checked_amount/mod.rs:120-122). -/
def cmul (a b : Nat) : Option Nat := if a * b < U256 then some (a * b) else none

/-- `checked_increment` (checked_amount/mod.rs:104-106). -/
def cinc (a : Nat) : Option Nat := cadd a 1

/-- `checked_div_ceil` (checked_amount/mod.rs:124-135): quotient, plus one if the remainder is non-zero. -/
def cdivCeil (a b : Nat) : Option Nat :=
  if b = 0 then none
  else if a % b = 0 then some (a / b) else cadd (a / b) 1

/-- `checked_div_floor` (checked_amount/mod.rs:137-144). -/
def cdivFloor (a b : Nat) : Option Nat := if b = 0 then none else some (a / b)

@[simp] theorem cadd_eq_some {a b c : Nat} : cadd a b = some c ↔ a + b = c ∧ c < U256 := by
  unfold cadd
  split
  · rename_i h
    simp only [Option.some.injEq]
    constructor
    · rintro rfl; exact ⟨rfl, h⟩
    · exact fun h => h.1
  · rename_i h
    simp only [reduceCtorEq, false_iff]
    rintro ⟨rfl, h'⟩; exact h h'

@[simp] theorem csub_eq_some {a b c : Nat} : csub a b = some c ↔ a = c + b := by
  unfold csub
  split <;> simp <;> omega

@[simp] theorem cmul_eq_some {a b c : Nat} : cmul a b = some c ↔ a * b = c ∧ c < U256 := by
  unfold cmul
  split
  · rename_i h
    simp only [Option.some.injEq]
    constructor
    · rintro rfl; exact ⟨rfl, h⟩
    · exact fun h => h.1
  · rename_i h
    simp only [reduceCtorEq, false_iff]
    rintro ⟨rfl, h'⟩; exact h h'

end EvmMinter
