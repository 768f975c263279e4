import Verif.Spec.Fair
import Verif.Spec.History
import Verif.Spec.Filter
import Verif.Spec.ScrapeLimits
/-!
# Endless executions in which the chain is watched

`Watching ρ α N c helper`: from time `N` on the logs of chain `c` are scraped by timers that fire again and again, calls return, and what
is returned is true. Calls may still fail, and answers may be too large. `α i` is the answer that the scraper receives at time `i` (if it
receives one); it has to be named because an answer cannot be told from its effects.
-/

namespace EvmMinter
namespace Spec
variable [Keccak]

/-- Task `t` receives the answer `a`: its callback runs, or it traps. -/
def Receives (w w' : World) (t : ExtTask) (a : ExtAnswer) : Prop :=
  ∃ pre post id o now, w.tasks = pre ++ ⟨id, .ext t, o⟩ :: post ∧ a.Typed ∧
    ((∃ c n, t.resume w.mem now a = some (.ok (c, n)) ∧ w' = w.advance pre post id c n) ∨
      ∃ e c, t.resume w.mem now a = some (.error e) ∧ w' = w.drop pre post id c .trapped)

/-- At time `i` the scraping task `t` receives the answer `a`. -/
def Gets (ρ : Nat → World) (α : Nat → ExtAnswer) (i : Nat) (t : ScrapeTask) (a : ExtAnswer) : Prop :=
  Receives (ρ i) (ρ (i + 1)) (.scrape t) a ∧ α i = a

structure Watching (ρ : Nat → World) (α : Nat → ExtAnswer) (N : Nat) (c : Chain) (helper : Address) : Prop where
  chain : c.Ok
  /-- When an answer is received, `α` says which. -/
  told : ∀ i, N ≤ i → ∀ t a, Receives (ρ i) (ρ (i + 1)) (.scrape t) a → Receives (ρ i) (ρ (i + 1)) (.scrape t) (α i)
  /-- At time `N` no scraping is in progress. What was accepted or skipped before is at or below the last scraped block. -/
  idle : ∀ p ∈ (ρ N).tasks, ∀ t, p.task ≠ .ext (.scrape t)
  anchored : Anchored c (ρ N).scraper
  skipped : SkippedBelow (ρ N).scraper
  observed : ∀ b, (ρ N).mem.lastObserved = some b → b < 2 ^ 256 - 1
  helper : (ρ N).mem.m.st.helperContractAddress = some helper
  /-- A token is registered (otherwise see C45). -/
  token : ∃ t, Event.addedErc20Token t ∈ (ρ N).mem.m.log
  /-- No upgrade sets the last scraped block or the helper contract, or lowers the next nonce. -/
  nonce : ∀ i, N ≤ i → NonceNeverLowered (ρ i).mem.m.log
  kept : ∀ i, N ≤ i → NeverReset ((ρ i).since (ρ N)) ∧ HelperKept ((ρ i).since (ρ N))
  /-- The interval timer fires again and again. -/
  interval : ∀ i, ∃ j, i ≤ j ∧ Starts (ρ j) (ρ (j + 1)) .scrape
  /-- Calls return, and their callbacks run. -/
  returns : ∀ i, N ≤ i → ∀ id t o, ⟨id, .ext (.scrape t), o⟩ ∈ (ρ i).tasks →
    ∃ j, i ≤ j ∧ ∀ o', ⟨id, .ext (.scrape t), o'⟩ ∉ (ρ j).tasks
  /-- No callback is made to trap. -/
  calm : ∀ i, N ≤ i → ∀ id, (id, .killed) ∈ (ρ (i + 1)).finished → (id, .killed) ∈ (ρ i).finished
  /-- The latest block is not the one with the largest number. -/
  latest : ∀ i, N ≤ i → ∀ k n, Gets ρ α i (.observing k) (.block (some n)) → n < 2 ^ 256 - 1
  /-- The logs returned are true, and the balances with the deposits added are 256-bit numbers. -/
  honest : ∀ i, N ≤ i → ∀ q a, Gets ρ α i (.querying q) (.logs a) →
    Honest c q.request a ∧ ∀ l, a = .logs l → Fits (ρ i).mem.m.st (depositsOf l)

/-- From time `M` on block `b` is deep enough in the chain that is reported, and log queries do not fail. -/
structure Deep (ρ : Nat → World) (α : Nat → ExtAnswer) (M : Nat) (b : BlockNumber) : Prop where
  latest : ∀ i, M ≤ i → ∀ k a, Gets ρ α i (.observing k) (.block a) →
    ∃ n, a = some n ∧ b + safetyMargin (ρ i).mem.m.st.evmNetwork.chainId ≤ n
  logs : ∀ i, M ≤ i → ∀ q a, Gets ρ α i (.querying q) (.logs a) → a ≠ .failed

/-- From time `N` on the logs of a single block are never too large. -/
def Manageable (ρ : Nat → World) (α : Nat → ExtAnswer) (N : Nat) : Prop :=
  ∀ i, N ≤ i → ∀ q, Gets ρ α i (.querying q) (.logs .tooLarge) → q.current.start ≠ q.current.stop

end Spec
end EvmMinter
