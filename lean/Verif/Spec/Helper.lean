import Verif.Model.Parser
/-!
# What the helper contract emits (evm_helper_contract/src/Deposit.sol)

Written from the Solidity source and the ABI: indexed arguments are topics, the others are concatenated words.
-/

namespace EvmMinter
namespace Spec

/-- The ABI word of a number (or of an address). -/
def word (n : Nat) : Word32 := ⟨toBE 32 n, length_toBE _ _⟩

/-- The word a user passes for a principal: its length, its bytes, zeros. -/
def principalWord (p : Principal) : Bytes :=
  UInt8.ofNat p.bytes.length :: p.bytes ++ List.replicate (31 - p.bytes.length) 0

/-- The principals that may be credited. -/
def Creditable (p : Principal) : Prop :=
  1 ≤ p.bytes.length ∧ p.bytes.length ≤ 29 ∧ p ≠ Principal.anonymous

instance (p : Principal) : Decidable (Creditable p) := by unfold Creditable; infer_instance

/-- The arguments of a `DepositLog` (Deposit.sol:20-26). -/
structure DepositLog where
  fromAddress : Nat
  token : Nat
  amount : Nat
  principal : Word32
  subaccount : Nat

/-- The arguments are in the range of their Solidity types. -/
def DepositLog.Typed (x : DepositLog) : Prop :=
  x.fromAddress < 2 ^ 160 ∧ x.token < 2 ^ 160 ∧ x.amount < 2 ^ 256 ∧ x.subaccount < 2 ^ 256

/-- What `deposit` can emit (Deposit.sol:53-75): a native deposit has the zero address and a positive amount; a token is
a contract, and there is none at the zero address. -/
def DepositLog.Emittable (x : DepositLog) : Prop := x.Typed ∧ (x.token = 0 → 0 < x.amount)

/-- The topics of the event: `keccak256("DepositLog(address,address,uint256,bytes32,bytes32)")` and the indexed
arguments. -/
def DepositLog.topics (x : DepositLog) : List Word32 :=
  [word 0xdeaddf8708b62ae1bf8ec4693b523254aa961b2da6bc5be57f3188ee784d6275, word x.token, word x.amount, x.principal]

/-- The data of the event: the other arguments. -/
def DepositLog.data (x : DepositLog) : Bytes := (word x.fromAddress).1 ++ (word x.subaccount).1

/-- The log is in block `b`, at position `src`, with the content of `x`. -/
structure MinedLog (e : LogEntry) (b : BlockNumber) (src : EventSource) (x : DepositLog) : Prop where
  block : e.blockNumber = some b
  txHash : e.transactionHash = some src.transactionHash
  index : e.logIndex = some src.logIndex
  blockHash : e.blockHash ≠ none
  txIndex : e.transactionIndex ≠ none
  kept : e.removed = false
  topics : e.topics = x.topics
  data : e.data = x.data

/-- The deposit event that credits what was emitted. The zero subaccount is the default one. -/
def DepositLog.deposit (x : DepositLog) (b : BlockNumber) (src : EventSource) (p : Principal) : Deposit :=
  if x.token = 0 then
    .native { transactionHash := src.transactionHash, blockNumber := b, logIndex := src.logIndex
              fromAddress := x.fromAddress, value := x.amount, principal := p
              subaccount := if x.subaccount = 0 then none else some x.subaccount }
  else
    .erc20 { transactionHash := src.transactionHash, blockNumber := b, logIndex := src.logIndex
             fromAddress := x.fromAddress, value := x.amount, principal := p, erc20ContractAddress := x.token
             subaccount := if x.subaccount = 0 then none else some x.subaccount }

end Spec
end EvmMinter
