import Verif.Spec.Trace
/-!
# Vocabulary for the balance properties
-/

namespace EvmMinter.Spec

/-- Native tokens brought in by the event. -/
def nativeIn : Event → Nat
  | .acceptedDeposit d => d.value
  | _ => 0

/-- Tokens of contract `c` brought in by the event. -/
def erc20In (c : Address) : Event → Nat
  | .acceptedErc20Deposit d => if d.erc20ContractAddress = c then d.value else 0
  | _ => 0

/-- Sum over the events of a log. -/
def total (f : Event → Nat) (log : List Event) : Nat := (log.map f).sum

/-- Fee that the chain took for the transaction: price times gas, successful or not. -/
def feePaid (f : FinalizedTx) : Nat := f.receipt.effectiveGasPrice * f.receipt.gasUsed

/-- Native value that left with the transaction. -/
def valueSent (f : FinalizedTx) : Nat :=
  match f.receipt.status with
  | .success => f.signed.tx.amount
  | .failure => 0

/-- Tokens of contract `c` that left with the transaction, a call of `transfer(to, value)`: the last 32 bytes of
the 68-byte call data are the value. -/
def tokensSent (c : Address) (f : FinalizedTx) : Nat :=
  match f.receipt.status with
  | .success => if f.signed.tx.destination = c ∧ f.signed.tx.data ≠ [] then beNat (f.signed.tx.data.drop 36) else 0
  | .failure => 0

/-- Fee charged to the user for the withdrawal: what was burned and not sent, or the fee burned separately. -/
def feeCharged (requests : FMap LedgerBurnIndex Request) (i : LedgerBurnIndex) (f : FinalizedTx) : Nat :=
  match requests.get i with
  | some (.native q) => q.withdrawalAmount - f.signed.tx.amount
  | some (.erc20 q) => q.maxTransactionFee
  | none => 0

/-- Tokens of contract `c` that the successful withdrawal paid out, according to the user's request. -/
def tokensRequested (requests : FMap LedgerBurnIndex Request) (c : Address) (i : LedgerBurnIndex)
    (f : FinalizedTx) : Nat :=
  match f.receipt.status, requests.get i with
  | .success, some (.erc20 q) => if q.erc20ContractAddress = c then q.withdrawalAmount else 0
  | _, _ => 0

/-- Tracked balance of a token. -/
def tokenBalance (s : State) (c : Address) : Nat := (s.erc20Balances.get c).getD 0

end EvmMinter.Spec
