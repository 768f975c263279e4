import Verif.Model.Address
import Verif.Model.Tasks
/-!
# The search of withdrawals (endpoints.rs, main.rs: `withdrawal_status`)
-/

namespace EvmMinter

/-- `WithdrawalSearchParameter` (endpoints.rs:264-269). -/
inductive SearchArg where
  | byWithdrawalId (index : Nat)
  | byRecipient (address : List Char)
  | bySenderAccount (account : Account)
deriving DecidableEq

/-- `TryFrom<WithdrawalSearchParameter>` (endpoints.rs:271-282). -/
def SearchArg.parse : SearchArg → Option SearchParameter
  | .byWithdrawalId i => some (.byWithdrawalId i)
  | .byRecipient a => (Address.parse a).map .byRecipient
  | .bySenderAccount a => some (.bySenderAccount a.owner a.subaccount)

/-- The query endpoint `withdrawal_status` (main.rs:420-459): the details, each with the recipient as it is printed
(main.rs:430). -/
def State.searchWithdrawals [Keccak] (s : State) (arg : SearchArg) : Res (List (WithdrawalDetail × List Char)) := do
  let p ← expect arg.parse "called `Result::unwrap()` on an `Err` value"
  let l ← s.withdrawalStatus p
  return l.map fun d => (d, d.recipient.display)

end EvmMinter
