import Verif.Model.State
/-!
# Canister upgrades (minter/src/main.rs, minter/src/lifecycle.rs)
-/

namespace EvmMinter

/-- `MinterArg` (lifecycle.rs:217-220). -/
inductive MinterArg where
  | init (a : InitArg)
  | upgrade (a : UpgradeArg)

/-- `post_upgrade` (main.rs:137-149, lifecycle.rs:195-214) with the log found in stable memory: the new log and state,
or a trap. Logging and timers are left out. -/
def postUpgrade [Keccak] (log : List Event) (arg : Option MinterArg) : Res (List Event × State) :=
  match arg with
  | some (.init _) => .error "cannot upgrade canister state with init args"
  | some (.upgrade a) => do
    let s ← replay log
    let s' ← applyEvent s (.upgrade a)
    return (log ++ [.upgrade a], s')
  | none => do
    let s ← replay log
    return (log, s)

/-- A whole upgrade of a canister with log `log` and state `s`: `pre_upgrade` (main.rs:123-134), then `post_upgrade`.
A trap in either undoes everything. -/
def upgradeCanister [Keccak] (log : List Event) (s : State) (arg : Option MinterArg) : List Event × State :=
  match postUpgrade (log ++ [.syncedToBlock s.lastScrapedBlockNumber]) arg with
  | .ok r => r
  | .error _ => (log, s)

end EvmMinter
