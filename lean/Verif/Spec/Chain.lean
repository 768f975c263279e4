import Verif.Spec.Filter
import Verif.Spec.Scrape
import Verif.Spec.Trace
/-!
# The chain that providers report

The logs of the blocks the scraper may ask for (see C47 for which these are), and providers that answer truthfully.
-/

namespace EvmMinter
namespace Spec

/-- The logs of each block. -/
abbrev Chain := BlockNumber → List LogEntry

/-- A log has the number of its block, and a position (hash of the transaction and index) that no other log has. There is
no log in the block with the largest number. -/
structure Chain.Ok (c : Chain) : Prop where
  mined : ∀ b e, e ∈ c b → e.blockNumber = some b
  unique : ∀ b b' e e', e ∈ c b → e' ∈ c b' → sourceOf e = sourceOf e' → b = b' ∧ e = e'
  last : c u256Max = []

/-- If logs are returned they are the logs of the chain that match the request, each once. -/
def Honest (c : Chain) (r : LogsRequest) : LogsAnswer → Prop
  | .logs l => (∀ e, e ∈ l ↔ ∃ b, r.range.start ≤ b ∧ b ≤ r.range.stop ∧ e ∈ c b ∧ e.address = r.address ∧ FilterMatches r.topics e.topics) ∧
      (l.filterMap sourceOf).Nodup
  | _ => True

/-- All answers in the history are truthful. -/
def HonestHistory (c : Chain) (h : List Obs) : Prop := ∀ r a, Obs.answered r a ∈ h → Honest c r a

/-- The deposits in the event log are on the chain, at or below the last scraped block. So it is right after `init`. -/
def Anchored (c : Chain) (w : Scraper) : Prop :=
  ∀ src ev, ev ∈ w.m.log → (isAcceptOf src ev = true ∨ isRejectOf src ev = true) →
    ∃ b e, b ≤ w.m.st.lastScrapedBlockNumber ∧ e ∈ c b ∧ sourceOf e = some src

/-- The blocks recorded as skipped are at or below the last scraped block. So it is right after `init`. -/
def SkippedBelow (w : Scraper) : Prop :=
  ∀ b, w.m.st.skippedBlocks.contains b = true → b ≤ w.m.st.lastScrapedBlockNumber

end Spec
end EvmMinter
