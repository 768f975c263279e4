import Verif.Model.Tasks

/-!
# The early deposit check of the swap canister

`check_new_deposits` (main.rs:714-725). Its effect beyond the checks is `scrape_logs`, the same as of the timer, so it is not a
message of its own in `Spec/World.lean`.
-/

namespace EvmMinter

/-- `check_new_deposits` (main.rs:714-725) up to its first `await`. -/
def Mem.checkNewDeposits [Keccak] (c : Mem) (caller : Principal) (now : Nat) : Res (Mem × Next) :=
  match c.m.st.swapCanisterId with
  | none => .error "ERROR: swap feature not activated"
  | some swap =>
    if swap ≠ caller then .error "ERROR: only the swap canister id can add request for early deposit check"
    else Message.scrape.run c now

end EvmMinter
