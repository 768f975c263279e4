import Verif.Model.Requests
import Verif.Spec.Fork
import Verif.Spec.Chain
import Verif.Props.C44
/-!
# Truthful nodes

What the methods of the Ethereum JSON-RPC interface mean on a chain (`Forking`, Spec/Fork.lean): what a node may return that describes
the chain as it is, or as it was some blocks ago. The arguments of the methods are read as the interface defines them: a block tag, a
list of contracts, a filter of topics, a hash or a transaction written in hexadecimal digits.
-/

namespace EvmMinter
namespace Spec
open Rpc

/-- The successful answers in a report. -/
def _root_.EvmMinter.Rpc.MultiRpcResult.values {α : Type} : MultiRpcResult α → List α
  | .consistent (.ok a) => [a]
  | .consistent (.error _) => []
  | .inconsistent l => l.filterMap fun x => match x.2 with
    | .ok a => some a
    | .error _ => none

/-- The number of a block that the tag may stand for. -/
def Forking.Block (f : Forking) : EvmBlockTag → BlockNumber → Prop
  | .finalized, n => n ≤ f.height
  | .number k, n => n = k
  | _, n => n ≤ f.tipHeight

/-- The block is in the range. -/
def InRange : EvmBlockTag → EvmBlockTag → BlockNumber → Prop
  | .number k, .number k', n => k ≤ n ∧ n ≤ k'
  | _, _, _ => True

/-- A log may be returned by `eth_getLogs`: it is of one of the contracts, its topics match the filter, it is in the range. The logs of
the helper contract are the ones that it emitted. -/
structure Forking.Log (f : Forking) (helper : Address) (fromBlock toBlock : EvmBlockTag) (addresses : List Address)
    (topics : List (List Word32)) (e : LogEntry) : Prop where
  address : e.address ∈ addresses
  topics : FilterMatches topics e.topics
  range : ∀ n, e.blockNumber = some n → InRange fromBlock toBlock n
  emitted : e.address = helper → ∃ x ∈ f.tip.logs, MinedLog e x.block x.src x.log

/-- The receipt of a transaction, as nodes write it: the status is 1 if it succeeded and 0 otherwise. -/
structure WritesReceipt (r : Receipt) (e : EvmReceipt) : Prop where
  blockHash : e.blockHash = r.blockHash
  blockNumber : e.blockNumber = r.blockNumber
  price : e.effectiveGasPrice = r.effectiveGasPrice
  gas : e.gasUsed = r.gasUsed
  hash : e.transactionHash = r.transactionHash
  status : e.status = some (match r.status with
    | .success => 1
    | .failure => 0)

/-- A receipt may be returned for a text: the text is a hash in hexadecimal digits, and the receipt is the one of the transaction with
this hash. Of the transactions from the minter's address (`own`) it is known which were mined. -/
def Forking.Receipt (f : Forking) (own : Hash → Prop) (text : List Char) (e : EvmReceipt) : Prop :=
  ∃ digits, HexString 64 text digits ∧ e.transactionHash = base16 digits ∧
    (own (base16 digits) → ∃ x ∈ f.tip.mined, WritesReceipt x.receipt e)

/-- The number of transactions from the minter's address. -/
def Forking.Count (f : Forking) (minter a : Address) : EvmBlockTag → TransactionCount → Prop
  | .finalized, n => a = minter → n ≤ f.final.nonce
  | _, _ => True

/-- What a report of truthful nodes may contain. Nothing is said of fees and of the outcome of sending. -/
def Forking.Reports (f : Forking) (minter helper : Address) (own : Hash → Prop) : RpcMethod → RpcReport → Prop
  | .getBlockByNumber tag, .block r => ∀ b ∈ r.values, f.Block tag b.number
  | .getLogs a b addresses topics, .logs r => ∀ l ∈ r.values, ∀ e ∈ l, f.Log helper a b addresses topics e
  | .getTransactionReceipt text, .receipt r => ∀ e, some e ∈ r.values → f.Receipt own text e
  | .getTransactionCount a tag, .count r => ∀ n ∈ r.values, f.Count minter a tag n
  | .feeHistory _ _ _, .fees _ => True
  | .sendRawTransaction _, .sent _ => True
  | _, _ => False

/-- The bytes that a text stands for: `0x` and two hexadecimal digits for each byte. -/
def HexBytes (text : List Char) (b : Bytes) : Prop :=
  ∃ digits, HexString (2 * b.length) text digits ∧ ∀ i (h : i < b.length), ∃ c d, digits[2 * i]? = some c ∧ digits[2 * i + 1]? = some d ∧
    (b[i]).toNat = 16 * digitValue c + digitValue d

/-- The helper contract is the only one that the minter was told to watch. -/
def OnlyHelper (helper : Address) (log : List Event) : Prop :=
  (∀ a t, .init a ∈ log → a.helperContractAddress = some t → Address.parse t = some helper) ∧
  ∀ a t, .upgrade a ∈ log → a.helperContractAddress = some t → Address.parse t = some helper

/-- The hash is the one of a transaction that the minter signed. -/
def Signed [Keccak] (log : List Event) (h : Hash) : Prop := ∃ i x, .signedTransaction i x ∈ log ∧ x.hash = h

/-- The logs that complete answers of `eth_getLogs` consist of, on a chain given by the logs of its blocks. -/
def LogsOf (c : Chain) : RpcMethod → List LogEntry → Prop
  | .getLogs (.number a) (.number b) addresses topics, l =>
    (∀ e, e ∈ l ↔ ∃ n, a ≤ n ∧ n ≤ b ∧ e ∈ c n ∧ e.address ∈ addresses ∧ FilterMatches topics e.topics) ∧
    (l.filterMap sourceOf).Nodup
  | _, _ => False

end Spec
end EvmMinter
