import Verif.Props.C07
import Verif.Spec.ScrapeLimits
/-!
# C29: rate limit of scraping requests; C47: what the scraper asks for
-/

namespace EvmMinter
open Spec

section
variable [Keccak]

/-- The second invariant of the scraper: what it asks for and when. -/
structure QueryInv (w₀ w : Scraper) (h : List Obs) : Prop where
  filter : ∀ q, w.task = some (.querying q) → FilterOf w₀ w q.contractAddress q.topics
  limit : ∀ q, w.task = some (.querying q) → ∃ b, Seen w₀ h b ∧ q.current.start + q.todo ≤ b + 1
  size : ∀ q, w.task = some (.querying q) → q.chunks.size = maxBlockSpread ∧
    blockCount (q.current :: q.rest) ≤ maxBlockSpread
  observed : ∀ b, w.lastObserved = some b → Seen w₀ h b
  requests : ∀ r a, Obs.answered r a ∈ h →
    (∃ topics, r.topics = evmTopics topics ∧ FilterOf w₀ w r.address topics) ∧ r.range.start ≤ r.range.stop ∧
    (w₀.m.st.lastScrapedBlockNumber < r.range.start ∨ r.range.start = u256Max) ∧
    r.range.stop + 1 ≤ r.range.start + maxBlockSpread ∧ ∃ b, Seen w₀ h b ∧ r.range.stop ≤ b
  settled : ∀ r a, Obs.answered r a ∈ h → Settles r.range a → r.range.stop ≤ w.m.st.lastScrapedBlockNumber
  scraped : w.m.st.lastScrapedBlockNumber = w₀.m.st.lastScrapedBlockNumber ∨
    ∃ b, Seen w₀ h b ∧ w.m.st.lastScrapedBlockNumber ≤ b
  time : ∀ t, w.lastObservedTime = some t →
    (startsOf h = [] ∧ w₀.lastObservedTime = some t) ∨ (startsOf h).getLast? = some t

theorem Spec.FilterOf.mono {w₀ w w' : Scraper} {c : Address} {t : List Topic} (hp : w.m.log <+: w'.m.log)
    (h : FilterOf w₀ w c t) : FilterOf w₀ w' c t := by
  obtain ⟨log, s, sc, h1, h2, h3, h4⟩ := h
  exact ⟨log, s, sc, h1, h2, h3.trans hp, h4⟩

theorem QueryInv.mono {w₀ w w' : Scraper} {h : List Obs} (i : QueryInv w₀ w h)
    (hp : w.m.log <+: w'.m.log) (ht : ∀ q, w'.task = some (.querying q) → w.task = some (.querying q))
    (ho : ∀ b, w'.lastObserved = some b → w.lastObserved = some b)
    (hl : w.m.st.lastScrapedBlockNumber = w'.m.st.lastScrapedBlockNumber)
    (htime : ∀ t, w'.lastObservedTime = some t → w.lastObservedTime = some t) : QueryInv w₀ w' h where
  filter q hq := (i.filter q (ht q hq)).mono hp
  limit q hq := i.limit q (ht q hq)
  size q hq := i.size q (ht q hq)
  observed b hb := i.observed b (ho b hb)
  requests r a hr := by
    obtain ⟨⟨t, h1, h2⟩, h3⟩ := i.requests r a hr
    exact ⟨⟨t, h1, h2.mono hp⟩, h3⟩
  settled r l hr hs := hl ▸ i.settled r l hr hs
  scraped := hl ▸ i.scraped
  time t hh := i.time t (htime t hh)

omit [Keccak] in
theorem Spec.Seen.mono {w₀ : Scraper} {h : List Obs} {b : BlockNumber} (x : Obs) (hs : Seen w₀ h b) : Seen w₀ (h ++ [x]) b := by
  rcases hs with hs | ⟨n, h1, h2⟩
  · exact .inl hs
  · exact .inr ⟨n, List.mem_append_left _ h1, h2⟩

omit [Keccak] in
theorem Query.WF.range {q : Query} (w : q.WF) : q.current.start ≤ q.current.stop ∧ q.current.stop < U256 ∧
    q.current.stop + 1 ≤ q.current.start + q.todo := by
  obtain ⟨b, ⟨-, g2, g3, -⟩, -⟩ := w.adj
  refine ⟨g2, g3, ?_⟩
  simp only [Query.todo, blockCount]; womega

/-- Two executions with the same beginning are on the same network. -/
theorem network_of_prefix {log log' : List Event} {s s' : State} (h : Run log s) (h' : Run log' s') (hp : log <+: log') :
    s'.evmNetwork = s.evmNetwork := by
  obtain ⟨a, t, h1, h2⟩ := run_network h
  obtain ⟨a', t', h1', h2'⟩ := run_network h'
  obtain ⟨r, hr⟩ := hp
  rw [h1, h1'] at hr
  simp only [List.cons_append, List.cons.injEq, Event.init.injEq] at hr
  rw [h2, h2', hr.1]

theorem margin_eq (n : EvmNetwork) : n.margin = safetyMargin n.chainId := by cases n <;> rfl

theorem queryInv {w₀ : Scraper} (h0 : Idle w₀) {w : Scraper} {h} (hw : Scraping w₀ w h) : QueryInv w₀ w h := by
  induction hw with
  | refl =>
    exact ⟨fun q hq => (by rw [h0.task] at hq; cases hq), fun q hq => (by rw [h0.task] at hq; cases hq),
      fun q hq => (by rw [h0.task] at hq; cases hq), fun b hb => .inl hb, by simp, by simp, .inl rfl, fun t ht => .inl ⟨rfl, ht⟩⟩
  | busy w h now _ hb ih =>
    have : w.start now = w := by
      unfold Scraper.start
      split
      · rfl
      · rename_i hn; rw [hn] at hb; cases hb
    rw [this]; exact ih
  | start w h now _ hn ih =>
    have : w.start now = { w with lastObservedTime := some now, task := some (.observing 0) } := by
      unfold Scraper.start
      split
      · rename_i hn'; rw [hn'] at hn; cases hn
      · rfl
    rw [this]
    refine ⟨by simp, by simp, by simp, fun b hb => (ih.observed b hb).mono _, ?_, ?_, ih.scraped.imp_right fun ⟨b, h1, h2⟩ => ⟨b, h1.mono _, h2⟩, ?_⟩
    · intro r a hr
      simp only [List.mem_append, List.mem_singleton, reduceCtorEq, or_false] at hr
      obtain ⟨h1, h2, h3, h6, b, h4, h5⟩ := ih.requests r a hr
      exact ⟨h1, h2, h3, h6, b, h4.mono _, h5⟩
    · intro r l hr
      simp only [List.mem_append, List.mem_singleton, reduceCtorEq, or_false] at hr
      exact ih.settled r l hr
    · intro t ht
      simp only [Option.some.injEq] at ht
      refine .inr ?_
      simp [startsOf, List.filterMap_append, ht]
  | block w w' h n latest hs hlat htask hb ih =>
    have I := scrapeInv h0 hs
    obtain ⟨l, hl, -⟩ := I.log
    have hnet : w.m.st.evmNetwork = w₀.m.st.evmNetwork :=
      network_of_prefix h0.run I.run (by rw [hl]; exact List.prefix_append _ _)
    have hobs : ∀ b, w.observe latest = some b → Seen w₀ (h ++ [.latest latest]) b := by
      intro b hh
      unfold Scraper.observe at hh
      cases latest with
      | none => exact (ih.observed b hh).mono _
      | some x =>
        refine .inr ⟨x, List.mem_append_right _ List.mem_cons_self, ?_⟩
        simp only at hh
        rw [hnet] at hh
        rw [← margin_eq]
        split at hh
        · simp only [Option.some.injEq] at hh; womega
        · rw [csub_eq_some] at hh; womega
    have hbound : ∀ b, w.observe latest = some b → b < U256 := by
      intro b hh
      unfold Scraper.observe at hh
      cases latest with
      | none => exact I.observed b hh
      | some x =>
        have := hlat x rfl
        simp only at hh
        split at hh
        · simp only [Option.some.injEq] at hh; womega
        · rw [csub_eq_some] at hh; womega
    have rest : ∀ o : Option ScrapeTask, (∀ q, o = some (.querying q) → FilterOf w₀ w q.contractAddress q.topics ∧
        (∃ b, Seen w₀ (h ++ [.latest latest]) b ∧ q.current.start + q.todo ≤ b + 1) ∧
        q.chunks.size = maxBlockSpread ∧ blockCount (q.current :: q.rest) ≤ maxBlockSpread) →
        QueryInv w₀ { w with lastObserved := w.observe latest, task := o } (h ++ [.latest latest]) := by
      intro o ho
      refine ⟨fun q hq => (ho q hq).1, fun q hq => (ho q hq).2.1, fun q hq => (ho q hq).2.2, hobs, ?_, ?_, ih.scraped.imp_right fun ⟨b, h1, h2⟩ => ⟨b, h1.mono _, h2⟩, ?_⟩
      · intro r a hr
        simp only [List.mem_append, List.mem_singleton, reduceCtorEq, or_false] at hr
        obtain ⟨h1, h2, h3, h6, b, h4, h5⟩ := ih.requests r a hr
        exact ⟨h1, h2, h3, h6, b, h4.mono _, h5⟩
      · intro r l hr
        simp only [List.mem_append, List.mem_singleton, reduceCtorEq, or_false] at hr
        exact ih.settled r l hr
      · intro t ht
        have : startsOf (h ++ [.latest latest]) = startsOf h := by simp [startsOf, List.filterMap_append]
        rw [this]
        exact ih.time t ht
    unfold Scraper.onBlock at hb
    simp only at hb
    split at hb
    · rename_i b hobsb
      simp only [Res.bind_ok, Res.pure_ok] at hb
      obtain ⟨o, h1, rfl⟩ := hb
      refine rest _ ?_
      intro q hq
      cases o with
      | none => simp at hq
      | some q' =>
        simp only [Option.map_some, Option.some.injEq, ScrapeTask.querying.injEq] at hq
        subst hq
        obtain ⟨k1, k2, k7, k8, k9, k3, ⟨c, k4, k5⟩, k6⟩ := startQuery_ok _ b (hbound b hobsb) _ _ h1 q' rfl
        refine ⟨⟨w.m.log, w.m.st, ⟨c, w.m.st.lastScrapedBlockNumber,
            [.single depositTopic, .multiple (w.m.st.erc20Tokens.altKeys.map wordOfAddress)]⟩, I.run,
            by rw [hl]; exact List.prefix_append _ _, List.prefix_refl _, ?_, k5, k6⟩, ⟨b, hobs b hobsb, ?_⟩, k8, ?_⟩
        · simp only [State.nextScrape, k4, expect, Res.ok_bind]; rfl
        · have := k1.range
          rw [k2] at this ⊢
          womega
        · rw [k7]; simp only [blockCount]; womega
    · split at hb
      · simp only [Res.pure_ok] at hb
        subst hb
        exact rest _ (by simp)
      · simp only [Res.pure_ok] at hb
        subst hb
        exact rest _ (by simp)
  | logs w w' h q a hs htask hl ih =>
    have I := scrapeInv h0 hs
    simp only [Scraper.onLogs, Res.bind_ok, Res.pure_ok] at hl
    obtain ⟨m', hm, o, hq, rfl⟩ := hl
    obtain ⟨wq, hstart, hstart'⟩ := I.task q htask
    obtain ⟨c1, c2, c3⟩ := wq.range
    have hbd := I.bounded
    have hue := u256_eq
    obtain ⟨hrun, ⟨f, hf, hlog⟩, hset, hnset, -⟩ := onAnswer_ok hm I.run
    obtain ⟨o', ho', hnext⟩ := query_next q wq a
    rw [hq] at ho'
    simp only [Except.ok.injEq] at ho'
    subst ho'
    have hp : w.m.log <+: m'.log := by rw [hlog]; exact List.prefix_append _ _
    have hle : w.m.st.lastScrapedBlockNumber ≤ m'.st.lastScrapedBlockNumber := by
      by_cases hss : Settles q.current a
      · rw [hset hss]; womega
      · rw [hnset hss]; exact Nat.le_refl _
    have F := ih.filter q htask
    obtain ⟨b, hb1, hb2⟩ := ih.limit q htask
    obtain ⟨hz1, hz2⟩ := ih.size q htask
    refine ⟨?_, ?_, ?_, fun b hb => (ih.observed b hb).mono _, ?_, ?_, ?_, ?_⟩
    · intro q' hq'
      cases o with
      | none => simp at hq'
      | some q'' =>
        simp only [Option.map_some, Option.some.injEq, ScrapeTask.querying.injEq] at hq'
        subst hq'
        obtain ⟨-, k1, k2, -⟩ := hnext q'' rfl
        rw [k1, k2]
        exact F.mono hp
    · intro q' hq'
      cases o with
      | none => simp at hq'
      | some q'' =>
        simp only [Option.map_some, Option.some.injEq, ScrapeTask.querying.injEq] at hq'
        subst hq'
        obtain ⟨-, -, -, -, k1, k2⟩ := hnext q'' rfl
        refine ⟨b, hb1.mono _, ?_⟩
        by_cases hss : Settles q.current a
        · obtain ⟨e1, e2, -⟩ := k1 hss
          womega
        · obtain ⟨-, e1, e2, -⟩ := k2 hss
          womega
    · intro q' hq'
      cases o with
      | none => simp at hq'
      | some q'' =>
        simp only [Option.map_some, Option.some.injEq, ScrapeTask.querying.injEq] at hq'
        subst hq'
        obtain ⟨-, -, -, k0, k1, k2⟩ := hnext q'' rfl
        refine ⟨k0.trans hz1, ?_⟩
        by_cases hss : Settles q.current a
        · obtain ⟨-, -, e1, e2⟩ := k1 hss
          by_cases hre : q.rest = []
          · obtain ⟨e3, e4⟩ := e2 hre
            rw [e3]
            simp only [blockCount]; womega
          · rw [e1 hre]
            simp only [blockCount] at hz2
            womega
        · obtain ⟨-, -, -, -, e1⟩ := k2 hss
          rw [e1]; exact hz2
    · intro r a' hr
      rcases List.mem_append.1 hr with hr | hr
      · obtain ⟨⟨t, h1, h1'⟩, h2, h3, h6, b, h4, h5⟩ := ih.requests r a' hr
        exact ⟨⟨t, h1, h1'.mono hp⟩, h2, h3, h6, b, h4.mono _, h5⟩
      · simp only [List.mem_singleton, Obs.answered.injEq] at hr
        obtain ⟨rfl, rfl⟩ := hr
        have hfw := I.forward
        refine ⟨⟨q.topics, rfl, F.mono hp⟩, c1, ?_, ?_, b, hb1.mono _, ?_⟩
        · simp only [Query.request]
          have := I.bounded
          have := u256_eq
          womega
        · simp only [Query.request]
          simp only [blockCount] at hz2
          womega
        · simp only [Query.request]; womega
    · intro r l hr hss
      rcases List.mem_append.1 hr with hr | hr
      · exact Nat.le_trans (ih.settled r l hr hss) hle
      · simp only [List.mem_singleton, Obs.answered.injEq] at hr
        obtain ⟨rfl, rfl⟩ := hr
        rw [hset hss]
        exact Nat.le_refl _
    · by_cases hss : Settles q.current a
      · refine .inr ⟨b, hb1.mono _, ?_⟩
        rw [hset hss]; womega
      · rw [hnset hss]
        exact ih.scraped.imp_right fun ⟨b, h1, h2⟩ => ⟨b, h1.mono _, h2⟩
    · intro t ht
      have : startsOf (h ++ [.answered q.request a]) = startsOf h := by simp [startsOf, List.filterMap_append]
      rw [this]
      exact ih.time t ht
  | trap w h _ ih =>
    exact ih.mono (List.prefix_refl _) (by simp) (fun _ h => h) rfl (fun _ h => h)
  | other w h es m' hs hne hl hr hb ih =>
    exact ih.mono (by rw [hl]; exact List.prefix_append _ _) (fun _ h => h) (fun _ h => h) hb.symm (fun _ h => h)
  | upgrade w h arg log s hs hk hp ih =>
    obtain ⟨k1, k2, k3, l, k4, k5⟩ := upgrade_keeps (scrapeInv h0 hs).run hk hp
    exact ih.mono (by rw [k4]; exact List.prefix_append _ _) (by simp) (by simp) k2.symm (by simp)

/-- **C47.** Every request for logs asks the helper contract configured at some point, with the topics of the tokens
registered then; for a non-empty range of at most 1000 blocks, above the block scraped initially (unless the block number is
the maximum), and not beyond a block that was reported and is old enough. -/
theorem C47_requests {w₀ w : Scraper} {h : List Obs} (h0 : Idle w₀) (hw : Scraping w₀ w h) (r : LogsRequest)
    (a : LogsAnswer) (hr : Obs.answered r a ∈ h) :
    (∃ topics, r.topics = evmTopics topics ∧ FilterOf w₀ w r.address topics) ∧ r.range.start ≤ r.range.stop ∧
    (w₀.m.st.lastScrapedBlockNumber < r.range.start ∨ r.range.start = 2 ^ 256 - 1) ∧
    r.range.stop + 1 ≤ r.range.start + 1000 ∧ ∃ b, Seen w₀ h b ∧ r.range.stop ≤ b :=
  (queryInv h0 hw).requests r a hr

/-- **C47.** The last scraped block is the initial one or a block that was reported and is old enough. -/
theorem C47_scraped {w₀ w : Scraper} {h : List Obs} (h0 : Idle w₀) (hw : Scraping w₀ w h) :
    w.m.st.lastScrapedBlockNumber = w₀.m.st.lastScrapedBlockNumber ∨
      ∃ b, Seen w₀ h b ∧ w.m.st.lastScrapedBlockNumber ≤ b :=
  (queryInv h0 hw).scraped

/-- **C47.** An attempt to scrape asks for the latest block at most three times. -/
theorem C47_attempts {w₀ w : Scraper} {h : List Obs} (h0 : Idle w₀) (hw : Scraping w₀ w h) : asked h ≤ 3 := by
  suffices hh : asked h ≤ 3 ∧ ∀ n, w.task = some (.observing n) → asked h = n ∧ n ≤ 2 from hh.1
  have snoc : ∀ (h : List Obs) (o : Obs), asked (h ++ [o]) = match o with
      | .started _ => 0
      | .latest _ => asked h + 1
      | .answered _ _ => asked h := by
    intro h o
    unfold asked
    rw [List.foldl_append]
    rfl
  induction hw with
  | refl => exact ⟨Nat.zero_le _, fun n hn => by rw [h0.task] at hn; cases hn⟩
  | busy w h now _ hb ih =>
    have : w.start now = w := by
      unfold Scraper.start
      split
      · rfl
      · rename_i hn; rw [hn] at hb; cases hb
    rw [this]; exact ih
  | start w h now _ hn ih =>
    rw [snoc]
    refine ⟨Nat.zero_le _, fun n hn' => ?_⟩
    unfold Scraper.start at hn'
    split at hn'
    · rename_i h1; rw [h1] at hn; cases hn
    · cases hn'; exact ⟨rfl, by omega⟩
  | block w w' h n latest hs hlat htask hb ih =>
    obtain ⟨i1, i2⟩ := ih.2 n htask
    rw [snoc]
    refine ⟨by dsimp only; omega, fun n' hn' => ?_⟩
    unfold Scraper.onBlock at hb
    simp only at hb
    split at hb
    · simp only [Res.bind_ok, Res.pure_ok] at hb
      obtain ⟨o, h1, rfl⟩ := hb
      cases o <;> cases hn'
    · split at hb
      · simp only [Res.pure_ok] at hb
        subst hb
        cases hn'
      · simp only [Res.pure_ok] at hb
        subst hb
        cases hn'
        dsimp only
        omega
  | logs w w' h q a hs htask hl ih =>
    rw [snoc]
    refine ⟨ih.1, fun n hn => ?_⟩
    simp only [Scraper.onLogs, Res.bind_ok, Res.pure_ok] at hl
    obtain ⟨m', hm, o, hq, rfl⟩ := hl
    cases o <;> cases hn
  | trap w h _ ih => exact ⟨ih.1, fun n hn => by cases hn⟩
  | other w h es m' hs hne hl hr hb ih => exact ih
  | upgrade w h arg log s hs hk hp ih => exact ⟨ih.1, fun n hn => by cases hn⟩

/-- **C29**, exactly when a request is accepted. -/
theorem C29_accepts_exactly (w : Scraper) (block now : Nat) (hnow : now < 2 ^ 64 - 1) :
    w.request block now = .ok (.ok ()) ↔ block < 2 ^ 256 ∧
      ∃ b t, w.lastObserved = some b ∧ w.lastObservedTime = some t ∧ b < block ∧ t + 60 * 1000000000 ≤ now := by
  unfold Scraper.request
  cases hb : w.lastObserved with
  | none => simp [expect, Res.ok_bind, Res.bind_ok]
  | some b =>
    cases ht : w.lastObservedTime with
    | none => simp [expect, Res.ok_bind, Res.bind_ok]
    | some t =>
      simp only [expect, Res.ok_bind, u256OfNat]
      have hu : U256 = 2 ^ 256 := rfl
      by_cases hl : block < U256
      · simp only [hl, if_true, validateScrapingRequest, Res.pure_ok]
        by_cases g1 : b ≥ block
        · simp only [if_pos g1, reduceCtorEq, Option.some.injEq, false_iff]
          rintro ⟨-, b', t', rfl, rfl, h3, h4⟩
          womega
        · simp only [if_neg g1]
          by_cases g2 : now < saddU64 t 60000000000
          · simp only [if_pos g2, reduceCtorEq, Option.some.injEq, false_iff]
            rintro ⟨-, b', t', rfl, rfl, h3, h4⟩
            unfold saddU64 at g2; womega
          · simp only [if_neg g2, Option.some.injEq, true_iff]
            refine ⟨by womega, b, t, rfl, rfl, by womega, ?_⟩
            unfold saddU64 at g2; womega
      · simp only [hl, if_false, Res.pure_ok, reduceCtorEq, false_iff]
        rintro ⟨h, -⟩
        womega

/-- **C29.** When a request for scraping is accepted: the block is a 256-bit number above the last observed one, and the
latest attempt to scrape started at least a minute ago. It started in the history considered or before. The one exception
is the last nanosecond that a time stamp can express. -/
theorem C29_rate_limit {w₀ w : Scraper} {h : List Obs} (h0 : Idle w₀) (hw : Scraping w₀ w h) (block now : Nat)
    (hnow : now < 2 ^ 64 - 1) (ha : w.request block now = .ok (.ok ())) :
    ∃ b t, w.lastObserved = some b ∧ b < block ∧ t + 60 * 1000000000 ≤ now ∧
      ((startsOf h = [] ∧ w₀.lastObservedTime = some t) ∨ (startsOf h).getLast? = some t) := by
  obtain ⟨-, b, t, h1, h2, h3, h4⟩ := (C29_accepts_exactly w block now hnow).1 ha
  exact ⟨b, t, h1, h3, h4, (queryInv h0 hw).time t h2⟩

/-- The exception: in the last nanosecond any request for a new block is accepted, even if an attempt just started. -/
theorem C29_last_nanosecond (w : Scraper) (b : BlockNumber) (hb : w.lastObserved = some b) (hb' : b < 2 ^ 256 - 1)
    (ht : w.lastObservedTime = some (2 ^ 64 - 1)) : w.request (b + 1) (2 ^ 64 - 1) = .ok (.ok ()) := by
  unfold Scraper.request
  have hl : b + 1 < U256 := by unfold U256; womega
  have g1 : ¬ b ≥ b + 1 := by womega
  simp only [hb, ht, expect, Res.ok_bind, u256OfNat, hl, if_true, validateScrapingRequest, if_neg g1]
  rfl

end

/-! ## A concrete run -/

namespace Example

/-- The example of C07: the second attempt to scrape started at time 8, the chain was at block 106. -/
example : ∃ s w h, Run (log.take 1) s ∧ Scraping ⟨⟨s, log.take 1⟩, none, none, none⟩ w h ∧
    startsOf h = [7, 8] ∧ w.lastObserved = some 106 ∧
    w.request 107 (8 + 60000000000) = .ok (.ok ()) ∧
    w.request 107 (8 + 59999999999) = .ok (.error .calledTooManyTimes) ∧
    w.request 106 (8 + 60000000000) = .ok (.error .blockAlreadyObserved) ∧
    w.request (2 ^ 256) (8 + 60000000000) = .ok (.error .invalidBlockNumber) := by
  obtain ⟨s, hr, hp⟩ := start_run (k := 0) (p := fun s => match play ⟨⟨s, log.take 1⟩, none, none, none⟩ [] happens with
    | some (w, h) => decide (startsOf h = [7, 8] ∧ w.lastObserved = some 106 ∧ w.lastObservedTime = some 8)
    | none => false) (by decide +kernel)
  split at hp
  · rename_i w h hw
    obtain ⟨h1, h2, h3⟩ := of_decide_eq_true hp
    refine ⟨s, w, h, hr, play_sound _ .refl hw, h1, h2, ?_, ?_, ?_, ?_⟩
    all_goals simp only [Scraper.request, h2, h3, expect, Res.ok_bind]
    all_goals rfl
  · cases hp

end Example

end EvmMinter
