import Verif.Model.Types
import Verif.Spec.Helper
/-!
# The helper contract (evm_helper_contract/src/Deposit.sol)

`deposit` as a function on the balances of the EVM. The public mappings `tokenAmount` and `feeTank` and the event `gasFeeAdded`
are declared by the contract but not used by any function; there is no other function, no `receive` and no `fallback`.
-/

namespace EvmMinter
namespace Helper
open Spec

/-- The balances of the EVM: of native tokens by account, and of each token contract by contract and account. -/
structure Accounts where
  native : Address → Nat
  tokens : Address → Address → Nat

/-- A mapping changed at one place. -/
def update (f : Address → Nat) (a : Address) (n : Nat) : Address → Nat := fun x => if x = a then n else f x

/-- A transfer between two accounts of one mapping; `none` if the balance is insufficient. -/
def transfer (f : Address → Nat) (source target : Address) (n : Nat) : Option (Address → Nat) :=
  if n ≤ f source then
    let g := update f source (f source - n)
    some (update g target (g target + n))
  else none

/-- A transfer of native tokens. -/
def Accounts.pay (s : Accounts) (source target : Address) (n : Nat) : Option Accounts :=
  (transfer s.native source target n).map fun f => { s with native := f }

/-- The arguments of a call of `deposit` with its sender and value (Deposit.sol:46-51). -/
structure Call where
  sender : Address
  value : Nat
  token : Address
  amount : Nat
  principal : Word32
  subaccount : Nat

/-- The arguments are in the range of their Solidity types. -/
def Call.Typed (c : Call) : Prop :=
  c.sender < 2 ^ 160 ∧ c.value < 2 ^ 256 ∧ c.token < 2 ^ 160 ∧ c.amount < 2 ^ 256 ∧ c.subaccount < 2 ^ 256

/-- What `deposit` calls: the minter's address, which takes a payment without data or refuses it, and a token contract.
`transferFrom token source target amount s` is what `SafeERC20.safeTransferFrom` (OpenZeppelin) does to the balances: `none` if it
reverts, that is if the call fails, returns `false`, or there is no contract at the address. -/
structure Callees where
  minterTakes : Bool
  transferFrom : Address → Address → Address → Nat → Accounts → Option Accounts

/-- `deposit` (Deposit.sol:46-75), with the transfer of `msg.value` to the contract that precedes it; `none` if the call reverts,
otherwise the balances and the emitted event. `minter` is the immutable `minterAddress`, `helper` the address of the contract. -/
def deposit (minter helper : Address) (env : Callees) (c : Call) (s : Accounts) : Option (Accounts × DepositLog) :=
  match s.pay c.sender helper c.value with
  | none => none
  | some s =>
    if c.value > 0 then
      if env.minterTakes then
        match s.pay helper minter c.value with
        | none => none
        | some s => some (s, ⟨c.sender, 0, c.value, c.principal, c.subaccount⟩)
      else none
    else
      match env.transferFrom c.token c.sender minter c.amount s with
      | none => none
      | some s => some (s, ⟨c.sender, c.token, c.amount, c.principal, c.subaccount⟩)

end Helper
end EvmMinter
