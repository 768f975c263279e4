import Verif.Model.Tasks
/-!
# The arguments of calls to ledgers

`LedgerTask.call` names what a call is meant to be: a mint, a burn or a transfer. ICRC-1 ledgers know only transfers; whether one is a
mint or a burn is decided by the accounts. Here are the accounts and amounts that the code passes.
-/

namespace EvmMinter

/-- The arguments of `icrc1_transfer` (`spender` is `none`) or `icrc2_transfer_from`. The spender, and the sender of `icrc1_transfer`, is
the caller with the given subaccount. -/
structure TransferArgs where
  spender : Option Account
  «from» : Account
  to : Account
  amount : Nat
deriving DecidableEq, Repr

/-- The arguments of the call that a task makes. `self` is the minter's principal. -/
def LedgerTask.args (self : Principal) : LedgerTask → TransferArgs
  -- `icrc1_transfer`, `from_subaccount: None` (deposit.rs:92-102)
  | .mintUser _ d _ _ amount _ => ⟨none, ⟨self, none⟩, ⟨d.principal, d.subaccount⟩, amount⟩
  -- deposit.rs:134-146
  | .mintFee _ _ _ _ fee _ _ => ⟨none, ⟨self, none⟩, ⟨self, some feesSubaccount⟩, fee⟩
  -- withdraw.rs:70-83
  | .reimburse _ r _ _ => ⟨none, ⟨self, none⟩, ⟨r.to, r.toSubaccount⟩, r.reimbursedAmount⟩
  -- `transfer_from`, `spender_subaccount: None`, to the fee account (ledger_client.rs:202-215)
  | .nativeFee q _ _ amount => ⟨some ⟨self, none⟩, ⟨q.caller, none⟩, ⟨self, some feesSubaccount⟩, amount⟩
  | .erc20Fee q amount => ⟨some ⟨self, none⟩, ⟨q.caller, none⟩, ⟨self, some feesSubaccount⟩, amount⟩
  -- `transfer_from` to `ic_cdk::id().into()` (ledger_client.rs:102-112)
  | .nativeBurn q _ amount _ => ⟨some ⟨self, none⟩, ⟨q.caller, none⟩, ⟨self, none⟩, amount⟩
  | .erc20NativeBurn q _ => ⟨some ⟨self, none⟩, ⟨q.caller, none⟩, ⟨self, none⟩, q.txFee⟩
  | .erc20TokenBurn q _ _ => ⟨some ⟨self, none⟩, ⟨q.caller, none⟩, ⟨self, none⟩, q.amount⟩
  -- `transfer_from` with `spender_subaccount: None` from the fee account (ledger_client.rs:298-311)
  | .nativeRefund q _ amount _ => ⟨some ⟨self, none⟩, ⟨self, some feesSubaccount⟩, ⟨q.caller, none⟩, amount⟩
  | .erc20Refund q amount _ => ⟨some ⟨self, none⟩, ⟨self, some feesSubaccount⟩, ⟨q.caller, none⟩, amount⟩

end EvmMinter
