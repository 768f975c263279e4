import Verif.Model.Scrape
import Verif.Spec.Helper
/-!
# How providers match logs, and when a batch of logs is new

The matching rule is the one of the Ethereum JSON-RPC method `eth_getLogs`: position by position, an empty list matches
any topic.
-/

namespace EvmMinter
namespace Spec

/-- The topics of a log match a filter. -/
def FilterMatches (filter : List (List Word32)) (topics : List Word32) : Prop :=
  filter.length ≤ topics.length ∧
  ∀ (i : Nat) (l : List Word32) (t : Word32), filter[i]? = some l → topics[i]? = some t → l = [] ∨ t ∈ l

/-- The position of a log on the chain, if it is known. -/
def sourceOf (e : LogEntry) : Option EventSource :=
  match e.transactionHash, e.logIndex with
  | some h, some i => some ⟨h, i⟩
  | _, _ => none

/-- The minter knows nothing of the source. -/
def Unknown (s : State) (src : EventSource) : Prop :=
  s.eventsToMint.get src = none ∧ s.mintedEvents.get src = none ∧ s.invalidEvents.get src = none

/-- No log is repeated and none is known. -/
structure NewLogs (s : State) (l : List LogEntry) : Prop where
  distinct : (l.filterMap sourceOf).Nodup
  unknown : ∀ e ∈ l, ∀ src, sourceOf e = some src → Unknown s src

/-- The deposits among the logs. -/
def depositsOf (l : List LogEntry) : List Deposit :=
  l.filterMap fun e => match parseLog e with
    | .ok (.ok d) => some d
    | _ => none

/-- Total of the native deposits. -/
def nativeTotal : List Deposit → Nat
  | [] => 0
  | .native d :: t => d.value + nativeTotal t
  | .erc20 _ :: t => nativeTotal t

/-- Total of the deposits of a token. -/
def tokenTotal (c : Address) : List Deposit → Nat
  | [] => 0
  | .native _ :: t => tokenTotal c t
  | .erc20 d :: t => (if d.erc20ContractAddress = c then d.value else 0) + tokenTotal c t

/-- The balances with the deposits added are 256-bit numbers. -/
def Fits (s : State) (l : List Deposit) : Prop :=
  s.nativeBalance.balance + nativeTotal l < 2 ^ 256 ∧
  ∀ c, (s.erc20Balances.get c).getD 0 + tokenTotal c l < 2 ^ 256

end Spec
end EvmMinter
