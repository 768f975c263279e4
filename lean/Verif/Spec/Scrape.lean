import Verif.Model.Scrape
import Verif.Model.Upgrade
import Verif.Spec.Live
/-!
# Executions of the scraper

The scraping task interleaved with the rest of the minter, with the history of the answers it received.
-/

namespace EvmMinter
namespace Spec

/-- Events of the log that no code but the scraper, `init` and upgrades write. -/
def ScraperEvent : Event → Prop
  | .init _ | .upgrade _ | .syncedToBlock _ | .acceptedDeposit _ | .acceptedErc20Deposit _ | .invalidDeposit _ _
  | .skippedBlock _ => True
  | _ => False

/-- The argument of an upgrade leaves the last scraped block alone. -/
def KeepsScraped : Option MinterArg → Prop
  | some (.upgrade a) => a.lastScrapedBlockNumber = none
  | _ => True

/-- A point of an execution where no scraping is in progress. The two block numbers are 256-bit words. -/
structure Idle [Keccak] (w : Scraper) : Prop where
  run : Run w.m.log w.m.st
  task : w.task = none
  observed : ∀ b, w.lastObserved = some b → b < U256
  scraped : w.m.st.lastScrapedBlockNumber < U256

/-- What the scraper does and sees. -/
inductive Obs where
  /-- an attempt to scrape starts, at a time -/
  | started (now : Nat)
  /-- the latest block was returned, or an error -/
  | latest (b : Option BlockNumber)
  /-- logs were asked for and this is the answer -/
  | answered (r : LogsRequest) (a : LogsAnswer)

/-- `Scraping w₀ w h`: the minter can get from `w₀` to `w`, and `h` is what the scraper did and saw on the way. -/
inductive Scraping [Keccak] (w₀ : Scraper) : Scraper → List Obs → Prop where
  | refl : Scraping w₀ w₀ []
  /-- `scrape_logs` is called, by a timer or by the swap canister, and no other call is in progress. -/
  | start (w : Scraper) (h) (now : Nat) : Scraping w₀ w h → w.task.isNone = true → Scraping w₀ (w.start now) (h ++ [.started now])
  /-- `scrape_logs` is called while another call is in progress. -/
  | busy (w : Scraper) (h) (now : Nat) : Scraping w₀ w h → w.task.isSome = true → Scraping w₀ (w.start now) h
  /-- The latest block, or an error, is returned. -/
  | block (w w' : Scraper) (h) (n : Nat) (latest : Option BlockNumber) : Scraping w₀ w h → (∀ b, latest = some b → b < U256) →
      w.task = some (.observing n) → w.onBlock n latest = .ok w' → Scraping w₀ w' (h ++ [.latest latest])
  /-- Logs, or an error, are returned. -/
  | logs (w w' : Scraper) (h) (q : Query) (a : LogsAnswer) : Scraping w₀ w h →
      w.task = some (.querying q) → w.onLogs q a = .ok w' → Scraping w₀ w' (h ++ [.answered q.request a])
  /-- A trap: the state is the one before the message and the task is dropped. -/
  | trap (w : Scraper) (h) : Scraping w₀ w h → Scraping w₀ { w with task := none } h
  /-- Another part of the minter runs: it writes other events, and it may move withdrawals to the end of the queue. -/
  | other (w : Scraper) (h) (es : List Event) (m' : Minter) : Scraping w₀ w h → (∀ e ∈ es, ¬ ScraperEvent e) →
      m'.log = w.m.log ++ es → Run m'.log m'.st → m'.st.lastScrapedBlockNumber = w.m.st.lastScrapedBlockNumber →
      Scraping w₀ { w with m := m' } h
  /-- A successful upgrade that does not set the last scraped block. -/
  | upgrade (w : Scraper) (h) (arg : Option MinterArg) (log : List Event) (s : State) : Scraping w₀ w h →
      KeepsScraped arg → postUpgrade (w.m.log ++ [.syncedToBlock w.m.st.lastScrapedBlockNumber]) arg = .ok (log, s) →
      Scraping w₀ ⟨⟨s, log⟩, none, none, none⟩ h

/-- The answers a task can receive, from query `q` on. -/
inductive Answers : Query → List LogsAnswer → Prop where
  | nil (q : Query) : Answers q []
  | last (q : Query) (a : LogsAnswer) : q.next a = .ok none → Answers q [a]
  | cons (q q' : Query) (a : LogsAnswer) (l : List LogsAnswer) : q.next a = .ok (some q') → Answers q' l → Answers q (a :: l)

end Spec
end EvmMinter
