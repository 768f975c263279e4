import Verif.Spec.World
import Verif.Spec.Chain
import Verif.Spec.Helper
import Verif.Spec.Mint
import Verif.Spec.Scrape
/-!
# What the scraper of a world did and saw

Executions of the minter with its ledgers (Spec/World.lean), together with the answers that the scraper received on the way.
-/

namespace EvmMinter
namespace Spec
variable [Keccak]

/-- The steps in which the scraper starts or receives an answer. -/
inductive Observes : World → World → Obs → Prop where
  /-- `scrape_logs` starts, and no other call of it is in progress. -/
  | started (w : World) (now : Nat) (c : Mem) (t : Task) : Message.run w.mem now .scrape = .ok (c, .await t) →
      Observes w ((w.begin .scrape).advance w.tasks [] w.nextId c (.await t)) (.started now)
  /-- The latest block, or an error, is returned. -/
  | latest (w : World) (pre post : List Pending) (id : Nat) (k : Nat) (o : Option LedgerAnswer) (b : Option BlockNumber) (now : Nat)
      (c : Mem) (n : Next) : w.tasks = pre ++ ⟨id, .ext (.scrape (.observing k)), o⟩ :: post → (ExtAnswer.block b).Typed →
      ExtTask.resume w.mem now (.scrape (.observing k)) (.block b) = some (.ok (c, n)) →
      Observes w (w.advance pre post id c n) (.latest b)
  /-- Logs, or an error, are returned. -/
  | answered (w : World) (pre post : List Pending) (id : Nat) (q : Query) (o : Option LedgerAnswer) (a : LogsAnswer) (now : Nat)
      (c : Mem) (n : Next) : w.tasks = pre ++ ⟨id, .ext (.scrape (.querying q)), o⟩ :: post →
      ExtTask.resume w.mem now (.scrape (.querying q)) (.logs a) = some (.ok (c, n)) →
      Observes w (w.advance pre post id c n) (.answered q.request a)

/-- `History w₀ w h`: the world can get from `w₀` to `w`, and `h` is what the scraper did and saw on the way. -/
inductive History (w₀ : World) : World → List Obs → Prop where
  | refl : History w₀ w₀ []
  | scraper (w w' : World) (h : List Obs) (o : Obs) : History w₀ w h → Observes w w' o → History w₀ w' (h ++ [o])
  | other (w w' : World) (h : List Obs) : History w₀ w h → Step w w' → (∀ o, ¬ Observes w w' o) → History w₀ w' h

/-- The suspended call of `scrape_logs`. -/
def scrapeTask (l : List Pending) : Option ScrapeTask := l.findSome? fun p =>
  match p.task with
  | .ext (.scrape t) => some t
  | _ => none

/-- The part of the world that concerns scraping. -/
def World.scraper (w : World) : Scraper := ⟨w.mem.m, w.mem.lastObserved, w.mem.lastObservedTime, scrapeTask w.tasks⟩

/-- No upgrade sets the last scraped block. -/
def NeverReset (log : List Event) : Prop := ∀ a, Event.upgrade a ∈ log → a.lastScrapedBlockNumber = none

/-- No upgrade sets the address of the helper contract. -/
def HelperKept (log : List Event) : Prop := ∀ a, Event.upgrade a ∈ log → a.helperContractAddress = none

/-- The events recorded since `w₀`. -/
def World.since (w w₀ : World) : List Event := w.mem.m.log.drop w₀.mem.m.log.length

/-- An execution from `w₀` to `w` in which the scraper sees `h`. No scraping is in progress in `w₀`, and afterwards no upgrade
sets the last scraped block. No upgrade lowers the nonce. -/
structure Followed (w₀ w : World) (h : List Obs) : Prop where
  reachable : Reachable w₀
  idle : ∀ p ∈ w₀.tasks, ∀ t, p.task ≠ .ext (.scrape t)
  history : History w₀ w h
  nonce : NonceNeverLowered w.mem.m.log
  kept : NeverReset (w.since w₀)

/-- What the scraper sees is the truth about chain `c`, and the helper contract is not changed. -/
structure Watched (c : Chain) (helper : Address) (w₀ w : World) (h : List Obs) : Prop extends Followed w₀ w h where
  helper : w₀.mem.m.st.helperContractAddress = some helper
  helperKept : HelperKept (w.since w₀)
  chain : c.Ok
  honest : HonestHistory c h

/-- The log with content `x` is on the chain: in block `b`, at position `src`, emitted by the contract at `helper`. -/
def OnChain (c : Chain) (helper : Address) (b : BlockNumber) (src : EventSource) (x : DepositLog) : Prop :=
  ∃ e ∈ c b, e.address = helper ∧ MinedLog e b src x

/-- A log on the chain: its block, its position and its content. -/
structure ChainLog where
  block : BlockNumber
  src : EventSource
  log : DepositLog

/-- The account of a `DepositLog` for principal `p`. -/
def DepositLog.account (x : DepositLog) (p : Principal) : Account := ⟨p, if x.subaccount = 0 then none else some x.subaccount⟩

/-- The twin ledger of the token of a `DepositLog`. -/
def DepositLog.LedgerIs (x : DepositLog) (s : State) (ledger : Principal) : Prop :=
  if x.token = 0 then ledger = s.nativeLedgerId else ∃ symbol, s.erc20Tokens.getEntryAlt x.token = some (ledger, symbol)

/-- The block credits what was emitted: to the account in the log, on the twin ledger of the token, and the amount in the log.
Only from the native token is a fee taken. -/
def Block.Credits (b : Block) (s : State) (x : DepositLog) (p : Principal) : Prop :=
  x.LedgerIs s b.call.ledger ∧ ∃ amount, b.call.op = .mint (x.account p) amount ∧ amount ≤ x.amount ∧
    (x.token ≠ 0 → amount = x.amount)

end Spec
end EvmMinter
