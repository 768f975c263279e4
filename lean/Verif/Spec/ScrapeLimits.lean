import Verif.Spec.Scrape
/-!
# What the scraper may ask for, and when
-/

namespace EvmMinter
namespace Spec

/-- The times at which attempts to scrape started. -/
def startsOf (h : List Obs) : List Nat := h.filterMap fun
  | .started now => some now
  | _ => none

/-- The number of times that the latest block was asked for since an attempt started. -/
def asked (h : List Obs) : Nat := h.foldl (fun n o => match o with
  | .started _ => 0
  | .latest _ => n + 1
  | .answered _ _ => n) 0

/-- The blocks to wait for on the chain: 20 on BSC; 12 on Arbitrum One, Base, Optimism, Avalanche and Fantom. On other chains
the configured block tag has to be one that is not reorganised. -/
def safetyMargin (chainId : Nat) : Nat :=
  if chainId = 56 then 20
  else if chainId ∈ [42161, 8453, 10, 43114, 250] then 12
  else 0

/-- Block `b` was old enough: the chain was reported to be at a block that is later by the margin of the network. Initially,
the last observed block is. -/
def Seen (w₀ : Scraper) (h : List Obs) (b : BlockNumber) : Prop :=
  w₀.lastObserved = some b ∨ ∃ n, Obs.latest (some n) ∈ h ∧ b + safetyMargin w₀.m.st.evmNetwork.chainId ≤ n

/-- The contract and the topics are those to scrape at some point between the start and the current state. -/
def FilterOf [Keccak] (w₀ w : Scraper) (contract : Address) (topics : List Topic) : Prop :=
  ∃ log s sc, Run log s ∧ w₀.m.log <+: log ∧ log <+: w.m.log ∧ s.nextScrape = .ok sc ∧
    contract = sc.contractAddress ∧ topics = sc.topics

end Spec
end EvmMinter
