import Verif.Lemmas.WorldScrape
import Verif.Props.C29
import Verif.Props.C48
/-!
# C07, C09, C29, C45, C47 in executions with ledgers

What is proved about the scraper holds in executions of the whole minter with its ledgers (Spec/World.lean).
-/

namespace EvmMinter
open Spec
variable [Keccak] {w₀ w : World} {h : List Obs}

/-- **C07**, in executions with ledgers. -/
theorem C07_world (W : Followed w₀ w h) :
    w₀.mem.m.st.lastScrapedBlockNumber ≤ w.mem.m.st.lastScrapedBlockNumber ∧
    (∀ b, w₀.mem.m.st.lastScrapedBlockNumber < b → b ≤ w.mem.m.st.lastScrapedBlockNumber →
      (∃ r l, Obs.answered r (.logs l) ∈ h ∧ b ∈ blocks r.range) ∨ w.mem.m.st.skippedBlocks.contains b = true) ∧
    ∀ d : Deposit, d.intoEvent ∈ w.since w₀ ↔ ∃ r ls e, Obs.answered r (.logs ls) ∈ h ∧ e ∈ ls ∧ parseLog e = .ok (.ok d) := by
  refine ⟨C07_forward W.isIdle W.scraping, C07_no_silent_skip W.isIdle W.scraping, ?_⟩
  obtain ⟨l, h1, h2⟩ := C07_deposits_accepted W.isIdle W.scraping
  have h1 : w.mem.m.log = w₀.mem.m.log ++ l := h1
  have hl : l = w.since w₀ := by
    have := W.log
    rw [h1, List.append_cancel_left_eq] at this
    exact this
  rw [← hl]; exact h2

/-- **C09**, in executions with ledgers. -/
theorem C09_world (W : Followed w₀ w h) (b : BlockNumber) (hb : w.mem.m.st.skippedBlocks.contains b = true) :
    w₀.mem.m.st.skippedBlocks.contains b = true ∨ ∃ r, r.range = ⟨b, b⟩ ∧ Obs.answered r .tooLarge ∈ h :=
  (C09_skipped_only_if_too_large W.isIdle W.scraping).1 b hb

/-- **C29**, in executions with ledgers. -/
theorem C29_world (W : Followed w₀ w h) (block now : Nat) (hnow : now < 2 ^ 64 - 1)
    (ha : w.scraper.request block now = .ok (.ok ())) :
    ∃ b t, w.mem.lastObserved = some b ∧ b < block ∧ t + 60 * 1000000000 ≤ now ∧
      ((startsOf h = [] ∧ w₀.mem.lastObservedTime = some t) ∨ (startsOf h).getLast? = some t) :=
  C29_rate_limit W.isIdle W.scraping block now hnow ha

/-- **C47**, in executions with ledgers. -/
theorem C47_world (W : Followed w₀ w h) :
    (∀ r a, Obs.answered r a ∈ h →
      (∃ topics, r.topics = evmTopics topics ∧ FilterOf w₀.scraper w.scraper r.address topics) ∧ r.range.start ≤ r.range.stop ∧
      (w₀.mem.m.st.lastScrapedBlockNumber < r.range.start ∨ r.range.start = 2 ^ 256 - 1) ∧
      r.range.stop + 1 ≤ r.range.start + 1000 ∧ ∃ b, Seen w₀.scraper h b ∧ r.range.stop ≤ b) ∧
    (w.mem.m.st.lastScrapedBlockNumber = w₀.mem.m.st.lastScrapedBlockNumber ∨
      ∃ b, Seen w₀.scraper h b ∧ w.mem.m.st.lastScrapedBlockNumber ≤ b) ∧
    asked h ≤ 3 :=
  ⟨C47_requests W.isIdle W.scraping, C47_scraped W.isIdle W.scraping, C47_attempts W.isIdle W.scraping⟩

/-- **C45**, with an honest provider, in executions with ledgers: the callback that receives truthful logs does not trap. -/
theorem C45_world_partial {c : Chain} {helper : Address} (W : Watched c helper w₀ w h) (ha : Anchored c w₀.scraper)
    (hsk : SkippedBelow w₀.scraper) (hreg : tokensOf w₀.mem.m.log ≠ []) {pre post : List Pending} {id : Nat} {q : Query}
    {o : Option LedgerAnswer} (ht : w.tasks = pre ++ ⟨id, .ext (.scrape (.querying q)), o⟩ :: post) (a : LogsAnswer)
    (hans : Honest c q.request a) (hf : ∀ l, a = .logs l → Fits w.mem.m.st (depositsOf l)) (hmax : q.current.stop < 2 ^ 256 - 1)
    (now : Nat) : ∃ c' n, ExtTask.resume w.mem now (.scrape (.querying q)) (.logs a) = some (.ok (c', n)) := by
  have L := lockInv (W.history.reachable W.reachable)
  rw [ht] at L
  obtain ⟨k1, k2⟩ := scrapeTask_split L
  have htask : scrapeTask w.tasks = some (.querying q) := by
    rw [ht, List.append_cons, scrapeTask_append, scrapeTask_append, k1]; rfl
  have hw : w.mem.scraper (.querying q) = w.scraper := by unfold Mem.scraper World.scraper; rw [htask]
  obtain ⟨x, hx⟩ := C45_honest_partial W.chain W.isIdle ha hreg W.scraping W.honest q htask a hans hf hsk hmax
  refine ⟨(w.mem.scraperStep x).1, (w.mem.scraperStep x).2, ?_⟩
  simp only [ExtTask.resume, hw, hx, Res.ok_bind]
  rfl

end EvmMinter
