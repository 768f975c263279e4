import Verif.Spec.Backing
/-!
# Solvency

The EVM chain as far as it concerns the minter's account: the deposits that the helper contract passed on to it, and the
transactions of the account that are in the chain. No such thing exists in the program, which only sees what the RPC providers
answer; `EvmChain.Agrees` says what is assumed of the two together.
-/

namespace EvmMinter
namespace Spec
variable [Keccak]

/-- The final chain. -/
structure EvmChain where
  /-- The deposits made at the helper contract, which passes them on to the minter's address. -/
  deposits : List Deposit
  /-- The transactions sent from the minter's address, with their receipts. -/
  mined : List FinalizedTx

/-- Native value that the minter's address received. -/
def EvmChain.received (ch : EvmChain) : Nat :=
  (ch.deposits.map fun d => match d with | .native e => e.value | .erc20 _ => 0).sum

/-- Tokens of contract `c` that the minter's address received. -/
def EvmChain.receivedTokens (ch : EvmChain) (c : Address) : Nat :=
  (ch.deposits.map fun d => match d with | .native _ => 0 | .erc20 e => if e.erc20ContractAddress = c then e.value else 0).sum

/-- Native value that left the minter's address: fees and transfers. -/
def EvmChain.spent (ch : EvmChain) : Nat := (ch.mined.map fun f => feePaid f + valueSent f).sum

/-- Tokens of contract `c` that left the minter's address. -/
def EvmChain.spentTokens (ch : EvmChain) (c : Address) : Nat := (ch.mined.map (tokensSent c)).sum

/-- The chain obeys its protocol, only what the minter has signed is sent from its address, and what the minter has recorded as
seen on the chain is there. -/
structure EvmChain.Agrees (ch : EvmChain) (log : List Event) : Prop where
  /-- An account's transactions have different nonces. -/
  nonces : (ch.mined.map fun f => f.signed.tx.nonce).Nodup
  /-- Transactions from the minter's address carry its signature. -/
  signed : ∀ f ∈ ch.mined, ∃ i, .signedTransaction i f.signed ∈ log
  /-- A transaction does not use more gas than its limit. -/
  gas : ∀ f ∈ ch.mined, f.receipt.gasUsed ≤ f.signed.tx.gasLimit
  /-- A transaction does not pay more for gas than its maximum. -/
  price : ∀ f ∈ ch.mined, f.receipt.effectiveGasPrice ≤ f.signed.tx.maxFeePerGas
  /-- Receipts name the transaction by its hash. -/
  hash : ∀ f ∈ ch.mined, f.receipt.transactionHash = f.signed.hash
  /-- The hashes of two signed transactions do not collide. -/
  noCollision : ∀ i j x y, .signedTransaction i x ∈ log → .signedTransaction j y ∈ log → x.hash = y.hash → x = y
  /-- The recorded receipts are receipts of the chain. -/
  receipts : ∀ i r, .finalizedTransaction i r ∈ log → ∃ f ∈ ch.mined, f.receipt = r
  /-- The recorded deposits are deposits of the chain. -/
  deposited : ∀ e ∈ log, ∀ d, e.deposit? = some d → d ∈ ch.deposits

/-- The transaction in the chain that was signed for the withdrawal. -/
def EvmChain.minedFor (ch : EvmChain) (log : List Event) (i : LedgerBurnIndex) : Option FinalizedTx :=
  ch.mined.find? fun f => decide (.signedTransaction i f.signed ∈ log)

/-- What is owed in native tokens for a withdrawal, going by the chain (`World.nativeOwed` goes by what the minter knows of
it): all that was burned, until there is a transaction in the chain; after a failed one its amount, until it is given back. -/
def EvmChain.nativeOwed (ch : EvmChain) (w : World) : Event → Nat
  | .acceptedNativeWithdrawalRequest r =>
    match ch.minedFor w.mem.m.log r.ledgerBurnIndex with
    | none => r.withdrawalAmount
    | some f => if f.receipt.status = .failure ∧ ¬ w.GaveBack w.mem.m.st.nativeLedgerId r.ledgerBurnIndex then f.signed.tx.amount else 0
  | .acceptedErc20WithdrawalRequest r =>
    match ch.minedFor w.mem.m.log r.nativeLedgerBurnIndex with
    | none => r.maxTransactionFee
    | some _ => 0
  | .failedErc20WithdrawalRequest r =>
    if w.GaveBack w.mem.m.st.nativeLedgerId r.ledgerBurnIndex then 0 else r.reimbursedAmount
  | _ => 0

/-- What is owed in tokens of an ERC-20 ledger for a withdrawal, going by the chain: the withdrawn amount, unless a transaction
for it has succeeded or the burn was given back. -/
def EvmChain.tokenOwed (ch : EvmChain) (w : World) (ledger : Principal) : Event → Nat
  | .acceptedErc20WithdrawalRequest r =>
    if r.erc20LedgerId = ledger ∧ ¬ w.GaveBack ledger r.erc20LedgerBurnIndex ∧
        ¬ (ch.minedFor w.mem.m.log r.nativeLedgerBurnIndex).any (fun f => f.receipt.status == .success) then r.withdrawalAmount else 0
  | _ => 0

/-- No withdrawal burns 2²⁵⁶ − 1 or more (with exactly 2²⁵⁶ − 1 the value and the fee of the transaction may exceed the burn,
see C15). -/
def BurnsSmall (log : List Event) : Prop :=
  (∀ r, .acceptedNativeWithdrawalRequest r ∈ log → r.withdrawalAmount < 2 ^ 256 - 1) ∧
  (∀ r, .acceptedErc20WithdrawalRequest r ∈ log → r.maxTransactionFee < 2 ^ 256 - 1)

end Spec
end EvmMinter
