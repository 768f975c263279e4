import Verif.Model.Ranges
import Verif.Model.Parser
import Verif.Model.Withdraw
/-!
# Log scraping (minter/src/deposit.rs:210-503, deposit_logs/scraping.rs, main.rs:252-274)

The scraping task is a state machine: it is suspended while it waits for the answer to a call, and `onBlock`/`onLogs` run
the code from one answer to the next call. The code in between is atomic. The classification of an RPC error as "response
too large" (`has_http_outcall_error_matching(is_response_too_large)`) is part of the answer. Timers set for minting are
left out here.
-/

namespace EvmMinter

/-- `Topic` (rpc_declrations.rs:226-229). -/
inductive Topic where
  | single (w : Word32)
  | multiple (l : List Word32)
deriving DecidableEq

/-- `Scrape` (deposit_logs/scraping.rs:9-13). -/
structure Scrape where
  contractAddress : Address
  lastScraped : BlockNumber
  topics : List Topic

/-- `next_scrape` (deposit_logs/scraping.rs:29-52). -/
def State.nextScrape (s : State) : Res Scrape := do
  let contract ← expect s.helperContractAddress "called `Option::unwrap()` on a `None` value"
  return ⟨contract, s.lastScrapedBlockNumber, [.single depositTopic, .multiple (s.erc20Tokens.altKeys.map wordOfAddress)]⟩

/-- `into_evm_topic` (rpc_client/mod.rs:835-847). -/
def evmTopics (l : List Topic) : List (List Word32) :=
  l.map fun
    | .single w => [w]
    | .multiple ws => ws

/-- A suspended `scrape_block_range` (deposit.rs:377-445) inside `scrape_until_block` (deposit.rs:333-375): the range whose
logs were requested, the rest of `subranges`, and the remaining chunks. -/
structure Query where
  contractAddress : Address
  topics : List Topic
  current : BlockRange
  rest : List BlockRange
  chunks : Chunks

/-- `GetLogsParam` (rpc_declrations.rs) as the provider sees it, with the topics of `into_evm_topic`. -/
structure LogsRequest where
  address : Address
  topics : List (List Word32)
  range : BlockRange

/-- The request of `scrape_block_range` (deposit.rs:390-395). -/
def Query.request (q : Query) : LogsRequest := ⟨q.contractAddress, evmTopics q.topics, q.current⟩

/-- What `get_logs` returns: logs, an error that says the response is too large, or another error. -/
inductive LogsAnswer where
  | logs (l : List LogEntry)
  | tooLarge
  | failed

/-- The next iteration of the `for` loop of `scrape_until_block` (deposit.rs:356-374). -/
def nextChunk (contract : Address) (topics : List Topic) (c : Chunks) : Res (Option Query) := do
  match ← c.next with
  | (some r, c') => return some ⟨contract, topics, r, [], c'⟩
  | (none, _) => return none

/-- `scrape_until_block` (deposit.rs:333-374) up to the first query; `none` if there is nothing to query. -/
def State.startQuery (s : State) (lastBlock : BlockNumber) (maxSpread : Nat) : Res (Option Query) := do
  let scrape ← s.nextScrape
  let range : BlockRange := ⟨(cinc scrape.lastScraped).getD u256Max, lastBlock⟩
  let chunks ← range.intoChunks maxSpread
  nextChunk scrape.contractAddress scrape.topics chunks

/-- The `while` condition of `scrape_block_range` with the ranges left in `subranges` (deposit.rs:386-388). -/
def Query.loop (q : Query) (subranges : List BlockRange) : Res (Option Query) :=
  match subranges with
  | r :: t => .ok (some { q with current := r, rest := t })
  | [] => nextChunk q.contractAddress q.topics q.chunks

/-- Which query comes after an answer (deposit.rs:402-443); `none` if the task ends. -/
def Query.next (q : Query) (a : LogsAnswer) : Res (Option Query) :=
  match a with
  | .logs _ => q.loop q.rest
  | .tooLarge =>
    if q.current.start = q.current.stop then q.loop q.rest
    else do
      let (left, right) ← q.current.halves
      let rest :=
        match right with
        | none => q.rest
        | some r =>
          match q.rest with
          | n :: t => r.joinWith n :: t
          | [] => [r]
      match left with
      | some l => q.loop (l :: rest)
      | none => q.loop rest
  | .failed => .ok none

/-- `register_deposit_events` (deposit.rs:447-478). -/
def Minter.registerDeposits [Keccak] (m : Minter) (events : List Deposit) (errors : List LogError) : Res Minter := do
  let m ← m.processEvents (events.map Deposit.intoEvent)
  m.processEvents (errors.filterMap fun
    | .pending => none
    | .invalid src e => some (.invalidDeposit src e.message))

/-- `s.last_scraped_block_number = b`. -/
def Minter.setScraped (m : Minter) (b : BlockNumber) : Minter :=
  { m with st := { m.st with lastScrapedBlockNumber := b } }

/-- What the answer to a query does to the minter (deposit.rs:397-421). -/
def Minter.onAnswer [Keccak] (m : Minter) (r : BlockRange) (a : LogsAnswer) : Res Minter :=
  match a with
  | .logs l => do
    let (events, errors) ← parseAllLogs l
    let m ← m.registerDeposits events errors
    return m.setScraped r.stop
  | .tooLarge =>
    if r.start = r.stop then do
      let m ← m.processEvent (.skippedBlock r.stop)
      return m.setScraped r.stop
    else .ok m
  | .failed => .ok m

/-- `max_block_spread_for_logs_scraping` (state.rs:222-226). -/
def maxBlockSpread : Nat := 1000

/-- The number of blocks kept between the latest block and the last one scraped (deposit.rs:257-319). -/
def EvmNetwork.margin : EvmNetwork → Nat
  | .bsc => 20
  | .arbitrumOne | .base | .optimism | .avalanche | .fantom => 12
  | _ => 0

/-- The suspended `scrape_logs` (deposit.rs:210-246). -/
inductive ScrapeTask where
  /-- waiting for the latest block, after a number of failed attempts -/
  | observing (attempts : Nat)
  /-- waiting for logs -/
  | querying (q : Query)

/-- The minter with the part of the state that is not in the event log and concerns scraping (state.rs: fields
`last_observed_block_number`, `last_observed_block_time`, and `ScrapLogs` in `active_tasks`): the task is present exactly
while its `TimerGuard` is held. -/
structure Scraper where
  m : Minter
  lastObserved : Option BlockNumber
  lastObservedTime : Option Nat
  task : Option ScrapeTask

namespace Scraper

/-- The start of `scrape_logs` (deposit.rs:211-217). -/
def start (w : Scraper) (now : Nat) : Scraper :=
  match w.task with
  | some _ => w
  | none => { w with lastObservedTime := some now, task := some (.observing 0) }

/-- `update_last_observed_block_number` after its call (deposit.rs:255-330): the new value of the field, which is also
returned. `none` is a failed call. -/
def observe (w : Scraper) (latest : Option BlockNumber) : Option BlockNumber :=
  match latest with
  | some n =>
    if w.m.st.evmNetwork.margin = 0 then some n else csub n w.m.st.evmNetwork.margin
  | none => w.lastObserved

/-- `scrape_logs` after the answer with the latest block (deposit.rs:222-245). -/
def onBlock (w : Scraper) (attempts : Nat) (latest : Option BlockNumber) : Res Scraper := do
  let seen := w.observe latest
  let w := { w with lastObserved := seen }
  match seen with
  | some b => do
    let q ← w.m.st.startQuery b maxBlockSpread
    return { w with task := q.map .querying }
  | none =>
    if attempts + 1 ≥ 3 then return { w with task := none }
    else return { w with task := some (.observing (attempts + 1)) }

/-- `scrape_logs` after the answer to a query (deposit.rs:397-443). -/
def onLogs [Keccak] (w : Scraper) (q : Query) (a : LogsAnswer) : Res Scraper := do
  let m ← w.m.onAnswer q.current a
  let q' ← q.next a
  return { w with m := m, task := q'.map .querying }

end Scraper

/-- `RequestScrapingError` (endpoints.rs:313-317). -/
inductive RequestScrapingError where
  | calledTooManyTimes | invalidBlockNumber | blockAlreadyObserved
deriving DecidableEq

/-- Saturating addition of 64-bit numbers. -/
def saddU64 (a b : Nat) : Nat := min (a + b) (2 ^ 64 - 1)

/-- `validate_log_scraping_request` (deposit.rs:485-503). -/
def validateScrapingRequest (lastBlock lastTime block now : Nat) : Except RequestScrapingError Unit :=
  if lastBlock ≥ block then .error .blockAlreadyObserved
  else if now < saddU64 lastTime 60000000000 then .error .calledTooManyTimes
  else .ok ()

/-- `request_scraping_logs` (main.rs:252-274) up to setting the timer. -/
def Scraper.request (w : Scraper) (block : Nat) (now : Nat) : Res (Except RequestScrapingError Unit) := do
  let lastBlock ← expect w.lastObserved "The block number should not be null at the time of this function call"
  let lastTime ← expect w.lastObservedTime "The block time should not be null at the time of this function call"
  match u256OfNat block with
  | none => return .error .invalidBlockNumber
  | some b => return validateScrapingRequest lastBlock lastTime b now

end EvmMinter
