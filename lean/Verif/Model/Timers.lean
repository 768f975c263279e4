import Verif.Model.Tasks
/-!
# Timers for minting (deposit.rs:29-208, 447-478)

`mint` is run by one-shot timers only. One is set whenever logs were registered while deposits wait (deposit.rs:461-463), another
at the end of a `mint` that counted errors (deposit.rs:201-207). The other tasks have interval timers (main.rs:63-89).
-/

namespace EvmMinter

/-- `has_events_to_mint` (state.rs:232-234). -/
def State.hasEventsToMint (s : State) : Bool := !s.eventsToMint.toList.isEmpty

/-- Does the callback of a task set a timer for `mint`? `c'` is the memory after the callback: `register_deposit_events`
(deposit.rs:447-478) reads `has_events_to_mint` after it has recorded the deposits; what it records then are invalid deposits. -/
def ExtTask.setsMintTimer (c' : Mem) : ExtTask → ExtAnswer → Bool
  | .scrape (.querying _), .logs (.logs _) => c'.m.st.hasEventsToMint
  | _, _ => false

/-- Is the answer counted in `error_count` (deposit.rs:104-124)? A fee that is not minted is not (deposit.rs:147-168). -/
def LedgerTask.countsError : LedgerTask → LedgerAnswer → Bool
  | .mintUser _ _ _ _ _ _, .block _ => false
  | .mintUser _ _ _ _ _ _, _ => true
  | _, _ => false

end EvmMinter
