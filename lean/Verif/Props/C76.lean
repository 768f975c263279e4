import Verif.Spec.ExampleWatch
import Verif.Props.C61
import Verif.Props.C74
/-!
# C76: a deposit on the chain is credited in the end
-/

namespace EvmMinter
open Spec

/-! ## The control flow of the scraper -/

theorem nextChunk_none {contract : Address} {topics : List Topic} {c : Chunks} (hs : c.size ≠ 0) (hb : c.range.stop < U256)
    (h : nextChunk contract topics c = .ok none) : c.exhausted = true ∨ c.range.stop < c.range.start := by
  obtain ⟨o, c', h1, _, _, h3, _⟩ := chunks_next c hs hb
  unfold nextChunk at h
  rw [h1, Res.ok_bind] at h
  cases o with
  | none => exact h3.1 rfl
  | some r => cases h

/-- A task that ends although no query failed has asked for all blocks. -/
theorem query_end {q : Query} (w : q.WF) {a : LogsAnswer} (h : q.next a = .ok none) (ha : a ≠ .failed) :
    Settles q.current a ∧ q.current.start + q.todo = q.current.stop + 1 := by
  obtain ⟨⟨b, ⟨_, g2, g3, g4⟩, hc⟩, hs, hb⟩ := w
  have fin : q.loop q.rest = .ok none → q.current.start + q.todo = q.current.stop + 1 := by
    intro hl
    unfold Query.loop at hl
    split at hl
    · cases hl
    · rename_i hr
      rw [hr] at g4
      have g4 : q.current.stop + 1 = b := g4
      have hx : q.chunks.exhausted = true := by
        rcases nextChunk_none hs hb hl with hx | hx
        · exact hx
        · rcases hc with hc | hc
          · exact hc
          · exfalso; womega
      simp only [Query.todo, hr, blockCount, Chunks.left, hx, if_true]
      womega
  cases a with
  | logs l => exact ⟨trivial, fin h⟩
  | failed => exact absurd rfl ha
  | tooLarge =>
    simp only [Query.next] at h
    split at h
    · rename_i he
      exact ⟨he, fin h⟩
    · exfalso
      rename_i he
      simp only [Res.bind_ok] at h
      obtain ⟨⟨l, r⟩, hh, h⟩ := h
      have hl : ∃ l', l = some l' := by
        unfold BlockRange.halves at hh
        split at hh
        · cases hh; exact ⟨_, rfl⟩
        · simp only [Res.bind_ok, Res.expect_ok] at hh
          obtain ⟨d, h1, m, h2, m', h3, hh⟩ := hh
          unfold BlockRange.partitionAt at hh
          have k1 := (cadd_eq_some.1 h2).1
          have k2 : m' = m + 1 := by unfold cinc at h3; exact (cadd_eq_some.1 h3).1.symm
          split at hh
          · exfalso; womega
          · split at hh
            · cases hh; exact ⟨_, rfl⟩
            · simp only [Res.bind_ok, Res.pure_ok, Prod.mk.injEq] at hh
              obtain ⟨_, _, rfl, _⟩ := hh
              exact ⟨_, rfl⟩
      obtain ⟨l', rfl⟩ := hl
      simp only [Query.loop] at h
      cases h

/-- Nothing is queried only if the last block was scraped before. -/
theorem startQuery_none {s : State} {lastBlock : BlockNumber} (hb : lastBlock < U256) (h : s.startQuery lastBlock maxBlockSpread = .ok none) :
    lastBlock ≤ s.lastScrapedBlockNumber := by
  unfold State.startQuery State.nextScrape at h
  simp only [Res.bind_ok, Res.expect_ok, Res.pure_ok] at h
  obtain ⟨sc, ⟨c, hc, rfl⟩, ch, h1, h2⟩ := h
  unfold BlockRange.intoChunks at h1
  simp only [Res.bind_ok, Res.ensure_ok, Res.pure_ok] at h1
  obtain ⟨_, hs, rfl⟩ := h1
  rcases nextChunk_none (show maxBlockSpread ≠ 0 by decide) hb h2 with hx | hx
  · cases hx
  · have hU : U256 = u256Max + 1 := u256_eq
    simp only at hx
    unfold cinc cadd at hx
    by_cases hh : s.lastScrapedBlockNumber + 1 < U256
    · rw [if_pos hh] at hx; simp only [Option.getD_some] at hx; womega
    · rw [if_neg hh] at hx; simp only [Option.getD_none] at hx; womega

/-- The blocks left to query, and the blocks of the current query. -/
def Query.measure (q : Query) : Nat := q.todo * U256 + (q.current.stop - q.current.start)

theorem query_decreases {q q' : Query} (w : q.WF) {a : LogsAnswer} (h : q.next a = .ok (some q')) :
    q'.WF ∧ q'.measure < q.measure ∧ q'.current.start + q'.todo = q.current.start + q.todo := by
  obtain ⟨o, ho, hq⟩ := query_next q w a
  rw [h] at ho
  simp only [Except.ok.injEq] at ho
  obtain ⟨k1, _, _, _, k5, k6⟩ := hq q' ho.symm
  obtain ⟨b, ⟨_, g2, g3, _⟩, _⟩ := w.adj
  obtain ⟨b', ⟨_, g2', g3', _⟩, _⟩ := k1.adj
  refine ⟨k1, ?_⟩
  unfold Query.measure
  by_cases hset : Settles q.current a
  · obtain ⟨m1, m2, _⟩ := k5 hset
    have hle : q'.todo + 1 ≤ q.todo := by womega
    have := Nat.mul_le_mul_right U256 hle
    rw [Nat.succ_mul] at this
    exact ⟨by womega, by womega⟩
  · obtain ⟨rfl, m2, m3, m4, _⟩ := k6 hset
    have hne : q.current.start ≠ q.current.stop := fun he => hset he
    rw [m2, m3, m4]
    refine ⟨?_, rfl⟩
    have : q.current.start + (q.current.stop - q.current.start) / 2 - q.current.start < q.current.stop - q.current.start := by womega
    exact Nat.add_lt_add_left this _

theorem mem_tokensOf {log : List Event} {t : Erc20Token} : t ∈ tokensOf log ↔ Event.addedErc20Token t ∈ log := by
  induction log with
  | nil => simp [tokensOf]
  | cons e l ih => cases e <;> simp [tokensOf, ih]

section
variable [Keccak]

/-! ## Histories -/

theorem Spec.Observes.answers {w w' : World} {r : LogsRequest} {a : LogsAnswer} (h : Observes w w' (.answered r a)) :
    ∃ q, r = q.request ∧ Receives w w' (.scrape (.querying q)) (.logs a) ∧ Replies w w' (.scrape (.querying q)) (.logs a) := by
  generalize ho : Obs.answered r a = o at h
  cases h with
  | started | latest => cases ho
  | answered pre post id q o a' now c n ht hr =>
    cases ho
    exact ⟨q, rfl, ⟨pre, post, id, o, now, ht, trivial, .inl ⟨c, n, hr, rfl⟩⟩, ⟨pre, post, id, o, now, c, n, ht, hr, rfl⟩⟩

theorem Spec.Observes.reports {w w' : World} {b : Option BlockNumber} (h : Observes w w' (.latest b)) :
    ∃ k, Receives w w' (.scrape (.observing k)) (.block b) := by
  generalize ho : Obs.latest b = o at h
  cases h with
  | started | answered => cases ho
  | latest pre post id k o b' now c n ht hty hr =>
    cases ho
    exact ⟨k, pre, post, id, o, now, ht, hty, .inl ⟨c, n, hr, rfl⟩⟩

/-- If an answer was received without a trap, then the answer that is named was too. -/
theorem Spec.Receives.latest {w w' : World} {b : Option BlockNumber} (h : Observes w w' (.latest b)) {k : Nat} {a : ExtAnswer}
    (ha : Receives w w' (.scrape (.observing k)) a) : ∃ b', a = .block b' ∧ Observes w w' (.latest b') := by
  obtain ⟨pre, post, id, o, now, ht, hty, ⟨c, n, hr, rfl⟩ | ⟨e, c, hr, he⟩⟩ := ha
  · cases a with
    | block b' => exact ⟨b', rfl, .latest w pre post id k o b' now c n ht hty hr⟩
    | _ => simp only [ExtTask.resume, reduceCtorEq] at hr
  · exfalso
    generalize ho : Obs.latest b = x at h
    cases h with
    | started | answered => cases ho
    | latest pre' post' id' k' o' b' now' c' n' _ _ _ =>
      have := congrArg World.finished he
      simp only [World.advance, World.drop, List.append_cancel_left_eq] at this
      cases n' <;> simp [Next.finished] at this

theorem Spec.Receives.answered {w w' : World} {r : LogsRequest} {l : LogsAnswer} (h : Observes w w' (.answered r l)) {q : Query} {a : ExtAnswer}
    (ha : Receives w w' (.scrape (.querying q)) a) : ∃ l', a = .logs l' ∧ Observes w w' (.answered q.request l') := by
  obtain ⟨pre, post, id, o, now, ht, hty, ⟨c, n, hr, rfl⟩ | ⟨e, c, hr, he⟩⟩ := ha
  · cases a with
    | logs l' => exact ⟨l', rfl, .answered w pre post id q o l' now c n ht hr⟩
    | _ => simp only [ExtTask.resume, reduceCtorEq] at hr
  · exfalso
    generalize ho : Obs.answered r l = x at h
    cases h with
    | started | latest => cases ho
    | answered pre' post' id' k' o' b' now' c' n' _ _ =>
      have := congrArg World.finished he
      simp only [World.advance, World.drop, List.append_cancel_left_eq] at this
      cases n' <;> simp [Next.finished] at this

/-- At time `k` the scraper sees `o`. -/
def Sees (ρ : Nat → World) (α : Nat → ExtAnswer) (k : Nat) (o : Obs) : Prop :=
  Observes (ρ k) (ρ (k + 1)) o ∧
    match o with
    | .latest b => α k = .block b
    | .answered _ a => α k = .logs a
    | _ => True

/-- What the scraper sees from time `i` to time `j`. -/
theorem history_between {ρ : Nat → World} (h : Endless ρ) {i j : Nat} (hij : i ≤ j) {P : Nat → Obs → Prop}
    (hP : ∀ k, i ≤ k → ∀ o, Observes (ρ k) (ρ (k + 1)) o → ∃ o', Observes (ρ k) (ρ (k + 1)) o' ∧ P k o') :
    ∃ hist, History (ρ i) (ρ j) hist ∧ ∀ o ∈ hist, ∃ k, i ≤ k ∧ k < j ∧ P k o := by
  induction hij with
  | refl => exact ⟨[], .refl, fun o ho => by cases ho⟩
  | step hij ih =>
    rename_i j
    obtain ⟨hist, h1, h2⟩ := ih
    have old : ∀ o ∈ hist, ∃ k, i ≤ k ∧ k < j + 1 ∧ P k o := fun o ho => by
      obtain ⟨k, g1, g2, g3⟩ := h2 o ho
      exact ⟨k, g1, Nat.lt_succ_of_lt g2, g3⟩
    rcases h.step j with e | s
    · rw [e]; exact ⟨hist, h1, old⟩
    · by_cases hc : ∃ o, Observes (ρ j) (ρ (j + 1)) o
      · obtain ⟨o, ho⟩ := hc
        obtain ⟨o, ho, hp⟩ := hP j hij o ho
        refine ⟨_, .scraper _ _ _ _ h1 ho, fun o' ho' => ?_⟩
        rcases List.mem_append.1 ho' with h' | h'
        · exact old o' h'
        · rw [List.mem_singleton.1 h']; exact ⟨j, hij, Nat.lt_succ_self _, hp⟩
      · exact ⟨hist, .other _ _ _ h1 s fun o ho => hc ⟨o, ho⟩, old⟩

variable {ρ : Nat → World} {α : Nat → ExtAnswer} {N M : Nat} {c : Chain} {helper : Address}

theorem Spec.Watching.sees (W : Watching ρ α N c helper) {k : Nat} (hk : N ≤ k) {o : Obs} (ho : Observes (ρ k) (ρ (k + 1)) o) :
    ∃ o', Observes (ρ k) (ρ (k + 1)) o' ∧ Sees ρ α k o' := by
  cases o with
  | started now => exact ⟨_, ho, ho, trivial⟩
  | latest b =>
    obtain ⟨n, hn⟩ := ho.reports
    obtain ⟨b', h1, h2⟩ := (W.told k hk _ _ hn).latest ho
    exact ⟨_, h2, h2, h1⟩
  | answered r a =>
    obtain ⟨q, -, hq, -⟩ := ho.answers
    obtain ⟨b', h1, h2⟩ := (W.told k hk _ _ hq).answered ho
    exact ⟨_, h2, h2, h1⟩

theorem Spec.Watching.watched_of (W : Watching ρ α N c helper) (h : Endless ρ) {i : Nat} (hi : N ≤ i) {hist : List Obs}
    (h1 : History (ρ N) (ρ i) hist) (h2 : ∀ o ∈ hist, ∃ k, N ≤ k ∧ k < i ∧ Sees ρ α k o) : Watched c helper (ρ N) (ρ i) hist := by
  refine ⟨⟨h.reachable N, W.idle, h1, W.nonce i hi, (W.kept i hi).1⟩, W.helper, (W.kept i hi).2, W.chain, fun r a hr => ?_⟩
  obtain ⟨k, g1, _, g3, g5⟩ := h2 _ hr
  obtain ⟨q, rfl, g4, _⟩ := g3.answers
  exact (W.honest k g1 q a ⟨g4, g5⟩).1

/-- The execution up to time `i` is watched. -/
theorem Spec.Watching.watched (W : Watching ρ α N c helper) (h : Endless ρ) {i : Nat} (hi : N ≤ i) :
    ∃ hist, Watched c helper (ρ N) (ρ i) hist ∧ ∀ o ∈ hist, ∃ k, N ≤ k ∧ k < i ∧ Sees ρ α k o := by
  obtain ⟨hist, h1, h2⟩ := history_between h hi fun k hk o => W.sees hk
  exact ⟨hist, W.watched_of h hi h1 h2, h2⟩

theorem Spec.Watching.inv (W : Watching ρ α N c helper) (h : Endless ρ) {i : Nat} (hi : N ≤ i) :
    ∃ hist, ScrapeInv (ρ N).scraper (ρ i).scraper hist ∧ QueryInv (ρ N).scraper (ρ i).scraper hist := by
  obtain ⟨hist, h1, _⟩ := W.watched h hi
  exact ⟨hist, scrapeInv h1.isIdle h1.scraping, queryInv h1.isIdle h1.scraping⟩

/-! ## Steps of the scraper -/

theorem scraper_task_iff {w : World} (h : Reachable w) {t : ScrapeTask} :
    w.scraper.task = some t ↔ ∃ id o, ⟨id, .ext (.scrape t), o⟩ ∈ w.tasks := by
  constructor
  · intro ht
    obtain ⟨p, hp, he⟩ := List.exists_of_findSome?_eq_some (show w.tasks.findSome? _ = some t from ht)
    obtain ⟨id, k, o⟩ := p
    simp only at he
    split at he
    · cases he; exact ⟨id, o, hp⟩
    · cases he
  · rintro ⟨id, o, hm⟩
    obtain ⟨pre, post, e⟩ := List.append_of_mem hm
    have L := lockInv h
    rw [e] at L
    obtain ⟨k1, k2⟩ := scrapeTask_split L
    show scrapeTask w.tasks = some t
    rw [e, List.append_cons, scrapeTask_append, scrapeTask_append, k1]; rfl

theorem scraper_idle_iff {w : World} (h : Reachable w) : w.scraper.task = none ↔ .scrapLogs ∉ w.mem.active := by
  rw [(lockInv h).active]
  constructor
  · intro ht hx
    obtain ⟨p, hp, hr⟩ := List.mem_flatMap.1 hx
    obtain ⟨t, e⟩ := mem_running_scrape.1 hr
    obtain ⟨id, k, o⟩ := p
    simp only at e; subst e
    rw [(scraper_task_iff h).2 ⟨id, o, hp⟩] at ht; cases ht
  · intro hx
    exact scrapeTask_none fun p hp hq => hx (List.mem_flatMap.2 ⟨p, hp, hq⟩)

/-- What becomes of the scraping task in a step. -/
theorem scrape_fate {w w' : World} (h : Reachable w) (hs : Step w w') {id : Nat} {t : ScrapeTask} {o : Option LedgerAnswer}
    (hm : ⟨id, .ext (.scrape t), o⟩ ∈ w.tasks) :
    ⟨id, .ext (.scrape t), o⟩ ∈ w'.tasks ∨ (∃ a, Receives w w' (.scrape t) a) ∨ ((id, .killed) ∈ w'.finished ∧ (id, .killed) ∉ w.finished) := by
  have I := idInv h
  have fresh : (id, Outcome.killed) ∉ w.finished := fun hf => by
    have := (List.nodup_append.1 I.nodup).2.2 id (List.mem_map.2 ⟨_, hm, rfl⟩) id (List.mem_map.2 ⟨_, hf, rfl⟩)
    exact this rfl
  have same : ∀ {pre post p}, w.tasks = pre ++ p :: post → (⟨id, .ext (.scrape t), o⟩ : Pending) = p ∨ (⟨id, .ext (.scrape t), o⟩ : Pending) ∈ pre ++ post := by
    intro pre post p ht
    rw [ht] at hm
    simp only [List.mem_append, List.mem_cons] at hm ⊢
    rcases hm with hm | hm | hm
    · exact .inr (.inl hm)
    · exact .inl hm
    · exact .inr (.inr hm)
  have other : ∀ {pre post : List Pending} (l : List Pending), (⟨id, .ext (.scrape t), o⟩ : Pending) ∈ pre ++ post →
      (⟨id, .ext (.scrape t), o⟩ : Pending) ∈ pre ++ l ++ post := by
    intro pre post l h
    simp only [List.mem_append] at h ⊢
    rcases h with h | h
    · exact .inl (.inl h)
    · exact .inr h
  have insert : ∀ {pre post : List Pending} {y : Pending}, (⟨id, .ext (.scrape t), o⟩ : Pending) ∈ pre ++ post →
      (⟨id, .ext (.scrape t), o⟩ : Pending) ∈ pre ++ y :: post := by
    intro pre post y h
    simpa only [List.append_assoc, List.singleton_append] using other [y] h
  cases hs with
  | start msg now c n _ hr => exact .inl (by simp [World.advance, World.begin, hm])
  | startTrap msg now e _ hr => exact .inl (by simp [World.drop, World.begin, hm])
  | execute pre post id' t' ht hh =>
    rcases same ht with h | h
    · cases h
    · exact .inl (insert h)
  | refuse pre post id' t' e ht hh =>
    rcases same ht with h | h
    · cases h
    · exact .inl (insert h)
  | reject pre post id' t' ht =>
    rcases same ht with h | h
    · cases h
    · exact .inl (insert h)
  | deliver pre post id' t' a now c n ht hr =>
    rcases same ht with h | h
    · cases h
    · exact .inl (other _ h)
  | deliverTrap pre post id' t' a now e c ht hr hc =>
    rcases same ht with h | h
    · cases h
    · exact .inl h
  | kill pre post id' t' a c ht hc =>
    rcases same ht with h | h
    · cases h
    · exact .inl h
  | answer pre post id' t' o' a now c n ht hty hr =>
    rcases same ht with h | h
    · cases h; exact .inr (.inl ⟨a, pre, post, id, o, now, ht, hty, .inl ⟨c, n, hr, rfl⟩⟩)
    · exact .inl (other _ h)
  | answerTrap pre post id' t' o' a now e c ht hty hr hc =>
    rcases same ht with h | h
    · cases h; exact .inr (.inl ⟨a, pre, post, id, o, now, ht, hty, .inr ⟨e, c, hr, rfl⟩⟩)
    · exact .inl h
  | killExt pre post id' t' o' c ht hc =>
    rcases same ht with h | h
    · cases h; exact .inr (.inr ⟨by simp [World.drop], fresh⟩)
    · exact .inl h
  | foreign call hf => exact .inl hm
  | upgrade arg log s ht hp => exact .inl hm

/-- A scraping task in progress is answered. -/
theorem Spec.Watching.answers (W : Watching ρ α N c helper) (h : Endless ρ) {i : Nat} (hi : N ≤ i) {t : ScrapeTask}
    (ht : (ρ i).scraper.task = some t) : ∃ j, i ≤ j ∧ (ρ j).scraper.task = some t ∧ ∃ a, Gets ρ α j t a := by
  obtain ⟨id, o, hm⟩ := (scraper_task_iff (h.reachable i)).1 ht
  obtain ⟨j, hj, hgone⟩ := W.returns i hi id t o hm
  obtain ⟨k, rfl⟩ := Nat.exists_eq_add_of_le hj
  clear hj ht
  induction k generalizing i with
  | zero => exact absurd hm (hgone o)
  | succ k ih =>
    have stay : ⟨id, .ext (.scrape t), o⟩ ∈ (ρ (i + 1)).tasks → ∃ j, i ≤ j ∧ (ρ j).scraper.task = some t ∧
        ∃ a, Gets ρ α j t a := by
      intro hm'
      obtain ⟨j, hj, hd⟩ := ih (i := i + 1) (Nat.le_succ_of_le hi) hm' (by rw [show i + 1 + k = i + (k + 1) by omega]; exact hgone)
      exact ⟨j, Nat.le_of_succ_le hj, hd⟩
    rcases h.step i with e | s
    · exact stay (by rw [e]; exact hm)
    · rcases scrape_fate (h.reachable i) s hm with hf | hd | ⟨h1, h2⟩
      · exact stay hf
      · obtain ⟨a, hd⟩ := hd
        exact ⟨i, Nat.le_refl _, (scraper_task_iff (h.reachable i)).2 ⟨id, o, hm⟩, _, W.told i hi t a hd, rfl⟩
      · exact absurd (W.calm i hi id h1) h2

theorem scraper_after {w : World} (h : Reachable w) {pre post : List Pending} {id : Nat} {t : ScrapeTask} {o : Option LedgerAnswer}
    (ht : w.tasks = pre ++ ⟨id, .ext (.scrape t), o⟩ :: post) (x : Scraper) :
    w.mem.scraper t = w.scraper ∧ (w.advance pre post id (w.mem.scraperStep x).1 (w.mem.scraperStep x).2).scraper = x := by
  have htask : scrapeTask w.tasks = some t := (scraper_task_iff h).2 ⟨id, o, by rw [ht]; simp⟩
  have L := lockInv h
  rw [ht] at L
  obtain ⟨k1, k2⟩ := scrapeTask_split L
  obtain ⟨g1, g2, g3, g4⟩ := scraperStep_eq w.mem x id
  refine ⟨by unfold Mem.scraper World.scraper; rw [htask], ?_⟩
  unfold World.scraper World.advance
  simp only [scrapeTask_append, k1, k2, g4, g1, g2, g3, Option.none_or, Option.or_none]

theorem answered_query {w w' : World} (h : Reachable w) {q : Query} {a : ExtAnswer} (ha : Receives w w' (.scrape (.querying q)) a) :
    ∃ l, a = .logs l ∧ ((w.scraper.onLogs q l = .ok w'.scraper ∧ Replies w w' (.scrape (.querying q)) a) ∨ ∃ e, w.scraper.onLogs q l = .error e) := by
  obtain ⟨pre, post, id, o, now, ht, hty, hr⟩ := ha
  cases a with
  | logs l =>
    refine ⟨l, rfl, ?_⟩
    rcases hr with ⟨c, n, hr, he⟩ | ⟨e, c, hr, he⟩
    · left
      have hr0 := hr
      simp only [ExtTask.resume, Option.some.injEq, Res.bind_ok, Res.pure_ok] at hr
      obtain ⟨x, h1, h2⟩ := hr
      obtain ⟨k1, k2⟩ := scraper_after h ht x
      rw [k1] at h1
      refine ⟨?_, pre, post, id, o, now, c, n, ht, hr0, he⟩
      rw [h2] at k2
      rw [he, k2]; exact h1
    · right
      simp only [ExtTask.resume, Option.some.injEq] at hr
      have k1 := (scraper_after h ht w.scraper).1
      rw [k1] at hr
      cases hx : w.scraper.onLogs q l with
      | error e => exact ⟨e, rfl⟩
      | ok x => rw [hx] at hr; cases hr
  | _ =>
    exfalso
    rcases hr with ⟨_, _, hr, _⟩ | ⟨_, _, hr, _⟩ <;> simp only [ExtTask.resume, reduceCtorEq] at hr

theorem answered_observe {w w' : World} (h : Reachable w) {k : Nat} {a : ExtAnswer} (ha : Receives w w' (.scrape (.observing k)) a) :
    ∃ b, a = .block b ∧ (∀ n, b = some n → n < U256) ∧
      (w.scraper.onBlock k b = .ok w'.scraper ∨ ∃ e, w.scraper.onBlock k b = .error e) := by
  obtain ⟨pre, post, id, o, now, ht, hty, hr⟩ := ha
  cases a with
  | block b =>
    refine ⟨b, rfl, fun n hn => by subst hn; exact hty, ?_⟩
    rcases hr with ⟨c, n, hr, he⟩ | ⟨e, c, hr, he⟩
    · left
      simp only [ExtTask.resume, Option.some.injEq, Res.bind_ok, Res.pure_ok] at hr
      obtain ⟨x, h1, h2⟩ := hr
      obtain ⟨k1, k2⟩ := scraper_after h ht x
      rw [k1] at h1
      rw [h2] at k2
      rw [he, k2]; exact h1
    · right
      simp only [ExtTask.resume, Option.some.injEq] at hr
      have k1 := (scraper_after h ht w.scraper).1
      rw [k1] at hr
      cases hx : w.scraper.onBlock k b with
      | error e => exact ⟨e, rfl⟩
      | ok x => rw [hx] at hr; cases hr
  | _ =>
    exfalso
    rcases hr with ⟨_, _, hr, _⟩ | ⟨_, _, hr, _⟩ <;> simp only [ExtTask.resume, reduceCtorEq] at hr

/-- What is asked for is below the largest block. -/
theorem Spec.Watching.below (W : Watching ρ α N c helper) (h : Endless ρ) {i : Nat} (hi : N ≤ i) {q : Query}
    (hq : (ρ i).scraper.task = some (.querying q)) : q.current.stop < 2 ^ 256 - 1 := by
  obtain ⟨hist, h1, h2⟩ := W.watched h hi
  obtain ⟨b, hs, hb⟩ := (queryInv h1.isIdle h1.scraping).limit q hq
  obtain ⟨wq, -, -⟩ := (scrapeInv h1.isIdle h1.scraping).task q hq
  obtain ⟨_, ⟨_, g2, _, _⟩, _⟩ := wq.adj
  have hlt : b < 2 ^ 256 - 1 := by
    rcases hs with hs | ⟨n, hn, hle⟩
    · exact W.observed b hs
    · obtain ⟨k, k1, _, k3, k5⟩ := h2 _ hn
      obtain ⟨m, k4⟩ := k3.reports
      exact Nat.lt_of_le_of_lt (Nat.le_trans (Nat.le_add_right _ _) hle) (W.latest k k1 m n ⟨k4, k5⟩)
  simp only [Query.todo, blockCount] at hb
  womega

/-- The callback of a query does not trap. -/
theorem Spec.Watching.queried (W : Watching ρ α N c helper) (h : Endless ρ) {i : Nat} (hi : N ≤ i) {q : Query} {a : ExtAnswer}
    (ha : Gets ρ α i (.querying q) a) :
    ∃ l, a = .logs l ∧ (ρ i).scraper.onLogs q l = .ok (ρ (i + 1)).scraper ∧ Replies (ρ i) (ρ (i + 1)) (.scrape (.querying q)) (.logs l) := by
  obtain ⟨l, rfl, hl⟩ := answered_query (h.reachable i) ha.1
  refine ⟨l, rfl, ?_⟩
  rcases hl with hl | ⟨e, hl⟩
  · exact hl
  · exfalso
    have ht : (ρ i).scraper.task = some (.querying q) := by
      obtain ⟨⟨pre, post, id, o, _, ht, _⟩, _⟩ := ha
      exact (scraper_task_iff (h.reachable i)).2 ⟨id, o, by rw [ht]; simp⟩
    obtain ⟨hist, h1, h2⟩ := W.watched h hi
    obtain ⟨k1, k2⟩ := W.honest i hi q l ha
    obtain ⟨w', hw⟩ := C45_honest_partial W.chain h1.isIdle W.anchored (by
      obtain ⟨t, ht⟩ := W.token
      intro h0
      have : t ∈ tokensOf (ρ N).scraper.m.log := mem_tokensOf.2 ht
      rw [h0] at this; cases this) h1.scraping h1.honest q ht l k1 k2 W.skipped (W.below h hi ht)
    rw [hw] at hl; cases hl

/-- The callback with the latest block does not trap. -/
theorem Spec.Watching.observes (W : Watching ρ α N c helper) (h : Endless ρ) {i : Nat} (hi : N ≤ i) {k : Nat} {a : ExtAnswer}
    (ha : Gets ρ α i (.observing k) a) :
    ∃ b, a = .block b ∧ (∀ n, b = some n → n < U256) ∧ (ρ i).scraper.onBlock k b = .ok (ρ (i + 1)).scraper := by
  obtain ⟨b, rfl, hb, hl⟩ := answered_observe (h.reachable i) ha.1
  refine ⟨b, rfl, hb, ?_⟩
  rcases hl with hl | ⟨e, hl⟩
  · exact hl
  · exfalso
    obtain ⟨hist, h1, h2⟩ := W.watched h hi
    have hhelp : (ρ i).mem.m.st.helperContractAddress ≠ none := by
      have hrun := run_of_reachable (h.reachable i) (W.nonce i hi)
      rw [h1.log] at hrun
      rw [run_helper h1.isIdle.run hrun (W.kept i hi).2]
      have := W.helper
      intro h0
      rw [show (ρ N).scraper.m.st = (ρ N).mem.m.st from rfl, this] at h0; cases h0
    simp only [Scraper.onBlock] at hl
    cases hs : (ρ i).scraper.observe b with
    | none =>
      rw [hs] at hl
      simp only at hl
      split at hl <;> cases hl
    | some n =>
      have hn : n < U256 := by
        unfold Scraper.observe at hs
        cases b with
        | none => exact (scrapeInv h1.isIdle h1.scraping).observed n hs
        | some m =>
          simp only at hs
          split at hs
          · cases hs; exact hb _ rfl
          · have := (csub_eq_some.1 hs)
            have hb := hb m rfl
            womega
      obtain ⟨o, ho⟩ := startQuery_total (ρ i).mem.m.st n hn maxBlockSpread (by decide) hhelp
      rw [hs] at hl
      simp only at hl
      rw [show (ρ i).scraper.m.st = (ρ i).mem.m.st from rfl, ho] at hl
      cases hl

/-! ## Scraping comes to an end -/

/-- A scraping task that queries logs comes to an end; if no query fails it has scraped all blocks it was to scrape. -/
theorem scrape_ends (W : Watching ρ α N c helper) (h : Endless ρ)
    (hlogs : ∀ i, M ≤ i → ∀ q a, Gets ρ α i (.querying q) (.logs a) → a ≠ .failed) (m : Nat) :
    ∀ {i : Nat} {q : Query}, q.measure < m → N ≤ i → M ≤ i → (ρ i).scraper.task = some (.querying q) →
      ∃ j, i < j ∧ (ρ j).scraper.task = none ∧ q.current.start + q.todo ≤ (ρ j).mem.m.st.lastScrapedBlockNumber + 1 := by
  induction m with
  | zero => intro i q hl; exact absurd hl (Nat.not_lt_zero _)
  | succ m ih =>
    intro i q hl hN hM hq
    obtain ⟨j, hj, ht, a, ha⟩ := W.answers h hN hq
    obtain ⟨l, rfl, hl', -⟩ := W.queried h (Nat.le_trans hN hj) ha
    have hf := hlogs j (Nat.le_trans hM hj) q l ha
    obtain ⟨hist, I, -⟩ := W.inv h (Nat.le_trans hN hj)
    obtain ⟨wq, -, -⟩ := I.task q ht
    simp only [Scraper.onLogs, Res.bind_ok, Res.pure_ok] at hl'
    obtain ⟨m', h1, q', h2, h3⟩ := hl'
    cases q' with
    | none =>
      obtain ⟨k1, k2⟩ := query_end wq h2 hf
      refine ⟨j + 1, by omega, by rw [← h3]; rfl, ?_⟩
      have := (onAnswer_ok h1 I.run).2.2.1 k1
      have e : (ρ (j + 1)).mem.m = m' := by
        have := congrArg Scraper.m h3
        exact this.symm
      rw [e, this]
      exact Nat.le_of_eq k2
    | some q' =>
      obtain ⟨-, k2, k3⟩ := query_decreases wq h2
      obtain ⟨j', g1, g2, g3⟩ := ih (i := j + 1) (q := q') (by omega) (by omega) (by omega) (by rw [← h3]; rfl)
      exact ⟨j', by omega, g2, by rw [k3] at g3; exact g3⟩

/-- An attempt to scrape that is answered after the block is deep enough gets there. -/
theorem observed_ends (W : Watching ρ α N c helper) (h : Endless ρ) {b : BlockNumber} (D : Deep ρ α M b) {i : Nat} {k : Nat} (hN : N ≤ i) (hM : M ≤ i)
    (ht : (ρ i).scraper.task = some (.observing k)) :
    ∃ j, i < j ∧ (ρ j).scraper.task = none ∧ b ≤ (ρ j).mem.m.st.lastScrapedBlockNumber := by
  obtain ⟨j, hj, ht', a, ha⟩ := W.answers h hN ht
  obtain ⟨a, rfl, hb, hl⟩ := W.observes h (Nat.le_trans hN hj) ha
  obtain ⟨n, rfl, hn⟩ := D.latest j (Nat.le_trans hM hj) k a ha
  have hnU := hb n rfl
  rw [← margin_eq] at hn
  have hseen : (ρ j).scraper.observe (some n) = some (n - (ρ j).mem.m.st.evmNetwork.margin) := by
    unfold Scraper.observe
    simp only [show (ρ j).scraper.m = (ρ j).mem.m from rfl]
    split
    · rename_i h0; rw [h0]; rfl
    · rw [csub_eq_some]; womega
  generalize hb0 : n - (ρ j).mem.m.st.evmNetwork.margin = b' at hseen
  have hbb : b ≤ b' := by womega
  have hbU : b' < U256 := by womega
  simp only [Scraper.onBlock, hseen, Res.bind_ok, Res.pure_ok] at hl
  obtain ⟨q, h1, h2⟩ := hl
  have hst : (ρ (j + 1)).mem.m = (ρ j).mem.m := by
    have := congrArg Scraper.m h2
    exact this.symm
  cases q with
  | none =>
    refine ⟨j + 1, by omega, by rw [← h2]; rfl, ?_⟩
    rw [hst]
    exact Nat.le_trans hbb (startQuery_none hbU h1)
  | some q =>
    obtain ⟨wq, k2, -, -, -, k6, -⟩ := startQuery_ok _ _ hbU _ _ h1 q rfl
    obtain ⟨j', g1, g2, g3⟩ := scrape_ends W h D.logs _ (Nat.lt_succ_self _) (i := j + 1) (q := q) (by omega) (by omega) (by rw [← h2]; rfl)
    refine ⟨j', by omega, g2, ?_⟩
    rw [k6, k2] at g3
    have key : ∀ s u b' l : Nat, min (s + 1) u + (b' + 1 - min (s + 1) u) ≤ l + 1 → b' ≤ l := by intro s u b' l h; omega
    exact Nat.le_trans hbb (key _ _ _ _ g3)

/-- When the timer fires and no scraping is in progress, it starts. -/
theorem Spec.Starts.scrapes {w w' : World} (h : Reachable w) (hi : w.scraper.task = none) (hs : Starts w w' .scrape) :
    ∃ k, w'.scraper.task = some (.observing k) := by
  have ha := (scraper_idle_iff h).1 hi
  obtain ⟨now, ⟨c, n, hr, rfl⟩ | ⟨e, hr, _⟩⟩ := hs
  · simp only [Message.run] at hr
    split at hr
    · rename_i hq
      unfold Mem.acquire at hq
      rw [if_neg ha] at hq
      cases hq
    · cases hr
      refine ⟨0, ?_⟩
      show scrapeTask _ = _
      have : scrapeTask w.tasks = none := hi
      simp only [World.advance, scrapeTask_append, this]
      rfl
  · simp only [Message.run] at hr
    split at hr <;> cases hr

/-- Only its timer starts scraping. -/
theorem scraper_activates {w w' : World} (h : Reachable w) (hs : Step w w') (h1 : w.scraper.task = none) (h2 : w'.scraper.task ≠ none) :
    ∃ k, w'.scraper.task = some (.observing k) := by
  have h1' := (scraper_idle_iff h).1 h1
  have h2' : .scrapLogs ∈ w'.mem.active := Classical.byContradiction fun hx => h2 ((scraper_idle_iff (.step _ _ h hs)).2 hx)
  obtain ⟨msg, now, c, n, hr, e, hx⟩ := Step.activated h hs h1' h2'
  by_cases hm : msg = .scrape
  · subst hm
    exact Starts.scrapes h h1 ⟨now, .inl ⟨c, n, hr, e⟩⟩
  · exact absurd hx (Message.run_seen hr hm).1

/-- The next attempt. -/
theorem next_attempt (h : Endless ρ) (n : Nat) : ∀ {e : Nat}, (ρ e).scraper.task = none → Starts (ρ (e + n)) (ρ (e + n + 1)) .scrape →
    ∃ s k, e < s ∧ (ρ s).scraper.task = some (.observing k) := by
  induction n with
  | zero =>
    intro e hi hs
    obtain ⟨k, hk⟩ := hs.scrapes (h.reachable e) hi
    exact ⟨e + 1, k, Nat.lt_succ_self _, hk⟩
  | succ n ih =>
    intro e hi hs
    by_cases hi' : (ρ (e + 1)).scraper.task = none
    · rw [show e + (n + 1) = e + 1 + n by omega] at hs
      obtain ⟨s, k, h1, h2⟩ := ih hi' hs
      exact ⟨s, k, by omega, h2⟩
    · rcases h.step e with he | hst
      · rw [he] at hi'; exact absurd hi hi'
      · obtain ⟨k, hk⟩ := scraper_activates (h.reachable e) hst hi hi'
        exact ⟨e + 1, k, Nat.lt_succ_self _, hk⟩

/-- A pause after the block was scraped. -/
theorem scrape_pauses (W : Watching ρ α N c helper) (h : Endless ρ) {b : BlockNumber} (D : Deep ρ α M b) (i : Nat) :
    ∃ j, i ≤ j ∧ (ρ j).scraper.task = none ∧ b ≤ (ρ j).mem.m.st.lastScrapedBlockNumber := by
  have start : ∀ {e : Nat}, N ≤ e → M ≤ e → i ≤ e → (ρ e).scraper.task = none →
      ∃ j, i ≤ j ∧ (ρ j).scraper.task = none ∧ b ≤ (ρ j).mem.m.st.lastScrapedBlockNumber := by
    intro e hN hM he ht
    obtain ⟨j, hj, hs⟩ := W.interval e
    obtain ⟨s, k, h1, h2⟩ := next_attempt h (j - e) ht (by rw [show e + (j - e) = j by omega]; exact hs)
    obtain ⟨j', g1, g2, g3⟩ := observed_ends W h D (by omega) (by omega) h2
    exact ⟨j', by omega, g2, g3⟩
  generalize he : max i (max N M) = e
  have e1 : i ≤ e := by omega
  have e2 : N ≤ e := by omega
  have e3 : M ≤ e := by omega
  cases ht : (ρ e).scraper.task with
  | none => exact start e2 e3 e1 ht
  | some t =>
    cases t with
    | observing k =>
      obtain ⟨j', g1, g2, g3⟩ := observed_ends W h D e2 e3 ht
      exact ⟨j', by omega, g2, g3⟩
    | querying q =>
      obtain ⟨j, g1, g2, -⟩ := scrape_ends W h D.logs _ (Nat.lt_succ_self _) e2 e3 ht
      exact start (by omega) (by omega) (by omega) g2

/-- **C76** (scraping): if the chain is watched from time `N` on, and if from some time on block `b` is deep enough in the chain that the
providers report and log queries do not fail, then block `b` is scraped in the end. -/
theorem C76_scraped (h : Endless ρ) (W : Watching ρ α N c helper) {b : BlockNumber} (D : Deep ρ α M b) (i : Nat) :
    ∃ j, i ≤ j ∧ b ≤ (ρ j).mem.m.st.lastScrapedBlockNumber := by
  obtain ⟨j, h1, -, h2⟩ := scrape_pauses W h D i
  exact ⟨j, h1, h2⟩

/-! ## Deposits are registered -/

/-- A block is skipped only if its logs are too large. -/
theorem Spec.Watching.not_skipped (W : Watching ρ α N c helper) (h : Endless ρ) (hman : Manageable ρ α N) {i : Nat} (hi : N ≤ i) {b : BlockNumber}
    (hb : (ρ N).mem.m.st.lastScrapedBlockNumber < b) : (ρ i).mem.m.st.skippedBlocks.contains b = false := by
  obtain ⟨hist, h1, h2⟩ := W.watched h hi
  cases hc : (ρ i).mem.m.st.skippedBlocks.contains b with
  | false => rfl
  | true =>
    exfalso
    rcases (scrapeInv h1.isIdle h1.scraping).skipped b hc with hs | ⟨r, hr, ho⟩
    · exact Nat.lt_irrefl _ (Nat.lt_of_lt_of_le hb (W.skipped b hs))
    · obtain ⟨k, k1, _, k3, k5⟩ := h2 _ ho
      obtain ⟨q, rfl, k4, _⟩ := k3.answers
      refine hman k k1 q ⟨k4, k5⟩ ?_
      rw [show q.current = ⟨b, b⟩ from hr]

/-- **C76** (registration): moreover, a deposit of a token registered at time `N` that the helper contract emitted in block `b` is accepted,
or the logs of block `b` alone are too large. -/
theorem C76_registered (h : Endless ρ) (W : Watching ρ α N c helper) {b : BlockNumber} (D : Deep ρ α M b)
    (hb : (ρ N).mem.m.st.lastScrapedBlockNumber < b) {src : EventSource} {x : DepositLog} (hx : x.Emittable) (hm : OnChain c helper b src x)
    {t : Erc20Token} (ht : Event.addedErc20Token t ∈ (ρ N).mem.m.log) (htok : t.erc20ContractAddress = x.token) {p : Principal}
    (hp : x.principal.1 = principalWord p) (hcr : Creditable p) (i : Nat) :
    ∃ j, i ≤ j ∧ ((x.deposit b src p).intoEvent ∈ (ρ j).mem.m.log ∨ Event.skippedBlock b ∈ (ρ j).mem.m.log) := by
  obtain ⟨j, hj, -, hbj⟩ := scrape_pauses W h D (max i N)
  obtain ⟨hist, h1, h2⟩ := W.watched h (i := j) (by omega)
  refine ⟨j, by omega, ?_⟩
  cases hc : (ρ j).mem.m.st.skippedBlocks.contains b with
  | false => exact .inl (C61_credited h1 b hb hbj hc src x hx hm (.inl ⟨t, mem_tokensOf.2 ht, htok⟩) p hp hcr).1
  | true => exact .inr ((run_skipped (run_of_reachable (h.reachable j) (W.nonce j (by omega))) b).1 hc)

/-! ## Deposits are credited -/

theorem log_grows (h : Endless ρ) {i j : Nat} (hij : i ≤ j) : ∃ es, (ρ j).mem.m.log = (ρ i).mem.m.log ++ es := by
  obtain ⟨hist, h1, -⟩ := history_between h hij (P := fun _ _ => True) fun k _ o ho => ⟨o, ho, trivial⟩
  exact h1.log (h.reachable i)

/-- After a pause, logs come in before a further block counts as scraped. -/
theorem logs_come (W : Watching ρ α N c helper) (h : Endless ρ) (hman : Manageable ρ α N) {e j : Nat} (he : N ≤ e) (hej : e ≤ j)
    (hidle : (ρ e).scraper.task = none) {b : BlockNumber} (hb : (ρ e).mem.m.st.lastScrapedBlockNumber < b)
    (hb' : b ≤ (ρ j).mem.m.st.lastScrapedBlockNumber) : ∃ k, e ≤ k ∧ LogsCome ρ k := by
  obtain ⟨hist, h1, h2⟩ := history_between h hej (P := fun k o => Observes (ρ k) (ρ (k + 1)) o) fun k _ o ho => ⟨o, ho, ho⟩
  have hkept : NeverReset ((ρ j).mem.m.log.drop (ρ e).mem.m.log.length) := by
    intro a ha
    refine (W.kept j (Nat.le_trans he hej)).1 a ?_
    obtain ⟨es, h3⟩ := log_grows h hej
    obtain ⟨es', h4⟩ := log_grows h he
    unfold World.since
    rw [h3, List.drop_left] at ha
    rw [h3, h4, List.append_assoc, List.drop_left]
    exact List.mem_append_right _ ha
  have I0 := idle_of_reachable (h.reachable e) (W.nonce e he) hidle
  have S := scraping_of_history (h.reachable e) h1 (W.nonce j (Nat.le_trans he hej)) hkept
  have I := scrapeInv I0 S
  obtain ⟨hist', I', -⟩ := W.inv h he
  have fwd : (ρ N).mem.m.st.lastScrapedBlockNumber ≤ (ρ e).mem.m.st.lastScrapedBlockNumber := I'.forward
  rcases I.covered b hb hb' with ⟨r, l, hr, -⟩ | hsk
  · obtain ⟨k, k1, _, k3⟩ := h2 _ hr
    obtain ⟨q, -, -, k5⟩ := k3.answers
    exact ⟨k, k1, q, l, k5⟩
  · have := W.not_skipped h hman (Nat.le_trans he hej) (Nat.lt_of_le_of_lt fwd hb)
    have hsk : (ρ j).mem.m.st.skippedBlocks.contains b = true := hsk
    rw [this] at hsk; cases hsk

/-- A deposit in a block that was not scraped at time `N` is not known then. -/
theorem Spec.Watching.fresh (W : Watching ρ α N c helper) {b : BlockNumber} (hb : (ρ N).mem.m.st.lastScrapedBlockNumber < b) {src : EventSource}
    {x : DepositLog} (hm : OnChain c helper b src x) : ∀ ev ∈ (ρ N).mem.m.log, isAcceptOf src ev = false ∧ isRejectOf src ev = false := by
  intro ev hev
  obtain ⟨e, he, hadr, hmined⟩ := hm
  have key : ¬ (isAcceptOf src ev = true ∨ isRejectOf src ev = true) := fun hc => by
    obtain ⟨b', e', h1, h2, h3⟩ := W.anchored src ev hev hc
    have hs : sourceOf e = some src := by
      unfold sourceOf
      rw [hmined.txHash, hmined.index]
    obtain ⟨rfl, -⟩ := W.chain.unique b b' e e' he h2 (hs.trans h3.symm)
    exact Nat.lt_irrefl _ (Nat.lt_of_lt_of_le hb h1)
  constructor
  · cases h : isAcceptOf src ev with
    | false => rfl
    | true => exact absurd (.inl h) key
  · cases h : isRejectOf src ev with
    | false => rfl
    | true => exact absurd (.inr h) key

/-- Nothing new is quarantined. -/
theorem not_quarantined (h : Endless ρ) (S : Steady ρ N) (hsm : NoSmall ρ N) (hn : ∀ i, N ≤ i → NonceNeverLowered (ρ i).mem.m.log) {src : EventSource}
    (h0 : Event.quarantinedDeposit src ∉ (ρ N).mem.m.log) {i : Nat} (hi : N ≤ i) : Event.quarantinedDeposit src ∉ (ρ i).mem.m.log := by
  induction hi with
  | refl => exact h0
  | step hi ih =>
    rename_i k
    rcases h.step k with e | s
    · rw [e]; exact ih
    · have hr := h.reachable k
      obtain ⟨es, hes⟩ := (Step.grows hr s).log
      intro hq
      have hnew : Event.quarantinedDeposit src ∈ news (ρ k).mem (ρ (k + 1)).mem := by
        unfold news
        rw [hes] at hq ⊢
        rw [List.drop_left]
        exact (List.mem_append.1 hq).resolve_left ih
      generalize hw' : ρ (k + 1) = w' at s hnew
      have hcalm := S.calm k hi
      rw [hw'] at hcalm
      clear hw' hes hq
      cases Step.kind s with
      | other _ o g h1 h2 h3 => exact h1 (news_of_grew g _ hnew).symm
      | deliver pre post id' t a now c n ht hr' hd =>
        have := resume_news_keeps hd hr' _ hnew
        cases this
      | drop pre post id' t a c o ht hc ho hd =>
        have hm : (⟨id', .ledger t, some a⟩ : Pending) ∈ (ρ k).tasks := by rw [ht]; simp
        rcases ho with rfl | ⟨rfl, now, msg, hr'⟩
        · have hf := hcalm id' (by simp [World.drop])
          exact (List.nodup_append.1 (idInv hr).nodup).2.2 id' (List.mem_map.2 ⟨_, hm, rfl⟩) id' (List.mem_map.2 ⟨_, hf, rfl⟩) rfl
        · rcases hd with hd | hd
          · obtain ⟨src', d, k1, k2⟩ := mint_trap hr hm hd hr'
            exact hsm k hi src' d k1 k2
          · obtain ⟨x, hx⟩ := Option.isSome_iff_exists.1 hd
            obtain ⟨r, l, rest, rfl⟩ := LedgerTask.reimb_eq hx
            obtain ⟨c', n, hk⟩ := reimburse_resume_ok hr (hn k hi) hm now
            rw [hk] at hr'; cases hr'

omit [Keccak] in
theorem credits_of_credited {w : World} {d : Deposit} (hc : w.Credited d) : ∃ k ∈ w.blocks, k.call.credits d.source = true := by
  obtain ⟨k, hk, fee, amount, -, h2, h3, -⟩ := hc
  refine ⟨k, hk, ?_⟩
  unfold LedgerCall.credits
  rw [h2, h3]
  simp [Deposit.memo]

/-- The one block that credits a deposit. -/
theorem the_block {w : World} (hr : Reachable w) {x : DepositLog} {b : BlockNumber} {src : EventSource} {p : Principal}
    (hacc : (x.deposit b src p).intoEvent ∈ w.mem.m.log) (hk : ∃ k ∈ w.blocks, k.call.credits src = true) :
    ∃ k ∈ w.blocks, (w.blocks.filter fun b => b.call.credits src) = [k] ∧ k.Credits w.mem.m.st x p := by
  obtain ⟨k, hk, hc⟩ := hk
  refine ⟨k, hk, ?_, block_credits hr hacc hk hc⟩
  have h1 := C02_minted_at_most_once hr src
  have h2 : k ∈ w.blocks.filter fun b => b.call.credits src := List.mem_filter.2 ⟨hk, hc⟩
  match hl : w.blocks.filter fun b => b.call.credits src with
  | [] => rw [hl] at h2; cases h2
  | [z] => rw [hl, List.mem_singleton] at h2; rw [hl, h2]
  | _ :: _ :: _ => rw [hl] at h1; simp at h1

/-- **C76** (credit): take an execution in which the chain is watched and which is steady from time `N` on, in which no waiting deposit is
smaller than the fee (see C04) and the logs of a single block are never too large. Take a deposit of a registered token that the helper contract
emitted in a block `b` not scraped at time `N`, and that is registered at time `e`, when no mint is running. If the ledger executes the mints
for it from then on, and if a block that is not scraped at some later time `e'`, when no scraping is in progress, gets deep enough too, then the
deposit is credited in the end: there is exactly one mint for it, to the account it names and of the emitted amount. -/
theorem C76_credited (h : Endless ρ) (W : Watching ρ α N c helper) (S : Steady ρ N)
    (hsm : ∀ i, N ≤ i → ∀ src d, (ρ i).mem.m.st.eventsToMint.get src = some d → ¬ TooSmall (ρ i).mem.m.st d) (hman : Manageable ρ α N)
    {b : BlockNumber} (hb : (ρ N).mem.m.st.lastScrapedBlockNumber < b) {src : EventSource} {x : DepositLog}
    (hm : OnChain c helper b src x) {p : Principal} {e e' : Nat} (he : N ≤ e) (hacc : (x.deposit b src p).intoEvent ∈ (ρ e).mem.m.log)
    (ha : .mint ∉ (ρ e).mem.active) (hl : MintsFrom ρ e (x.deposit b src p)) (hee : e ≤ e') (hidle : .scrapLogs ∉ (ρ e').mem.active)
    {b' : BlockNumber} (hb' : (ρ e').mem.m.st.lastScrapedBlockNumber < b') (D : Deep ρ α M b') :
    ∃ j, ∃ k ∈ (ρ j).blocks, ((ρ j).blocks.filter fun b => b.call.credits src) = [k] ∧ k.Credits (ρ j).mem.m.st x p := by
  have hacc' : ∀ {j}, e ≤ j → (x.deposit b src p).intoEvent ∈ (ρ j).mem.m.log := fun hj => by
    obtain ⟨es, he⟩ := log_grows h hj
    rw [he]; exact List.mem_append_left _ hacc
  have hq := not_quarantined h S hsm W.nonce (src := src) (fun hq => by
    have := (W.fresh hb hm _ hq).2
    simp [isRejectOf] at this) he
  have := accepted_cases (h.reachable e) hacc
  rw [DepositLog.deposit_source] at this
  rcases this with hw | hk | hk
  · obtain ⟨j, hj, -, hbj⟩ := scrape_pauses W h D e'
    obtain ⟨k, hk, hlog⟩ := logs_come W h hman (by omega) hj ((scraper_idle_iff (h.reachable e')).2 hidle) hb' hbj
    obtain ⟨j', hj', hc⟩ := C74_minted h S hsm hl he hw (e := e) (k := k) (Nat.le_refl _) (Nat.le_refl _) ha (by omega) hlog
    have := credits_of_credited hc
    rw [DepositLog.deposit_source] at this
    exact ⟨j', the_block (h.reachable j') (hacc' hj') this⟩
  · exact ⟨e, the_block (h.reachable e) hacc hk⟩
  · exact absurd hk hq

/-- **C76** (pauses): there are such times: if `b` gets deep enough then a deposit in it is registered at some time after any given time `i`
when no mint is running, and later there is a time when no scraping is in progress. -/
theorem C76_pauses (h : Endless ρ) (W : Watching ρ α N c helper) (S : Steady ρ N)
    (hsm : ∀ i, N ≤ i → ∀ src d, (ρ i).mem.m.st.eventsToMint.get src = some d → ¬ TooSmall (ρ i).mem.m.st d) (hman : Manageable ρ α N)
    {b : BlockNumber} (D : Deep ρ α M b) (hb : (ρ N).mem.m.st.lastScrapedBlockNumber < b) {src : EventSource} {x : DepositLog} (hx : x.Emittable)
    (hm : OnChain c helper b src x) {t : Erc20Token} (ht : Event.addedErc20Token t ∈ (ρ N).mem.m.log) (htok : t.erc20ContractAddress = x.token)
    {p : Principal} (hp : x.principal.1 = principalWord p) (hcr : Creditable p) (i : Nat) :
    ∃ e e', i ≤ e ∧ N ≤ e ∧ e ≤ e' ∧ (x.deposit b src p).intoEvent ∈ (ρ e).mem.m.log ∧ .mint ∉ (ρ e).mem.active ∧
      .scrapLogs ∉ (ρ e').mem.active := by
  obtain ⟨j, hj, -, hbi⟩ := scrape_pauses W h D (max i N)
  have hN : N ≤ j := by omega
  obtain ⟨hist, W1, -⟩ := W.watched h hN
  have hacc := (C61_credited W1 b hb hbi (W.not_skipped h hman hN hb) src x hx hm (.inl ⟨t, mem_tokensOf.2 ht, htok⟩) p hp hcr).1
  obtain ⟨e, he, ha⟩ := C74_pauses h S hsm (i := j) hN
  obtain ⟨e', he', hidle, -⟩ := scrape_pauses W h D e
  refine ⟨e, e', by omega, by omega, he', ?_, ha, (scraper_idle_iff (h.reachable e')).1 hidle⟩
  obtain ⟨es, hes⟩ := log_grows h he
  rw [hes]; exact List.mem_append_left _ hacc

/-- The time at which something happens. -/
theorem first_time {P : Nat → Prop} {i : Nat} (h0 : ¬ P i) (n : Nat) (h1 : P (i + n)) : ∃ k, i ≤ k ∧ k < i + n ∧ ¬ P k ∧ P (k + 1) := by
  induction n with
  | zero => exact absurd h1 h0
  | succ n ih =>
    by_cases hn : P (i + n)
    · obtain ⟨k, k1, k2, k3⟩ := ih hn
      exact ⟨k, k1, by omega, k3⟩
    · exact ⟨i + n, by omega, by omega, hn, h1⟩

/-- A deposit is registered when logs come in. -/
theorem Spec.Watching.registered (W : Watching ρ α N c helper) (h : Endless ρ) {k : Nat} (hk : N ≤ k) {d : Deposit}
    (h0 : d.intoEvent ∉ (ρ k).mem.m.log) (h1 : d.intoEvent ∈ (ρ (k + 1)).mem.m.log) : LogsCome ρ k := by
  obtain ⟨hist, g1, g2⟩ := history_between h hk fun k hk o => W.sees hk
  have W1 := W.watched_of h hk g1 g2
  obtain ⟨l, m1, m2, -⟩ := (scrapeInv W1.isIdle W1.scraping).log
  have m1 : (ρ k).mem.m.log = (ρ N).mem.m.log ++ l := m1
  have fin : ∀ {hist'}, History (ρ N) (ρ (k + 1)) hist' → (∀ o ∈ hist', o ∈ hist ∨ Sees ρ α k o) → LogsCome ρ k := by
    intro hist' g3 g4
    have W2 := W.watched_of h (Nat.le_succ_of_le hk) g3 fun o ho => by
      rcases g4 o ho with ho | ho
      · obtain ⟨j, j1, j2, j3⟩ := g2 o ho
        exact ⟨j, j1, by omega, j3⟩
      · exact ⟨k, hk, Nat.lt_succ_self _, ho⟩
    obtain ⟨l', m3, -, m4, -⟩ := (scrapeInv W2.isIdle W2.scraping).log
    have m3 : (ρ (k + 1)).mem.m.log = (ρ N).mem.m.log ++ l' := m3
    have hl' : d.intoEvent ∈ l' := by
      rw [m3] at h1
      rw [m1] at h0
      exact (List.mem_append.1 h1).resolve_left fun hx => h0 (List.mem_append_left _ hx)
    obtain ⟨r, ls, e, n1, n2, n3⟩ := m4 d hl'
    rcases g4 _ n1 with n1 | n1
    · refine absurd ?_ h0
      rw [m1]
      exact List.mem_append_right _ (m2 r ls e d n1 n2 n3)
    · obtain ⟨q, -, -, hq⟩ := n1.1.answers
      exact ⟨q, ls, hq⟩
  rcases h.step k with e | s
  · rw [e] at h1; exact absurd h1 h0
  · by_cases hc : ∃ o, Observes (ρ k) (ρ (k + 1)) o
    · obtain ⟨o, ho⟩ := hc
      obtain ⟨o, ho, hsee⟩ := W.sees hk ho
      refine fin (.scraper _ _ _ _ g1 ho) fun o' ho' => ?_
      rcases List.mem_append.1 ho' with h' | h'
      · exact .inl h'
      · rw [List.mem_singleton.1 h']; exact .inr hsee
    · exact fin (.other _ _ _ g1 s fun o ho => hc ⟨o, ho⟩) fun o ho => .inl ho

/-- **C76** (credit, undisturbed): no further block is required if no mint is running when the deposit is registered. -/
theorem C76_undisturbed (h : Endless ρ) (W : Watching ρ α N c helper) (S : Steady ρ N)
    (hsm : ∀ i, N ≤ i → ∀ src d, (ρ i).mem.m.st.eventsToMint.get src = some d → ¬ TooSmall (ρ i).mem.m.st d) (hman : Manageable ρ α N)
    {b : BlockNumber} (D : Deep ρ α M b) (hb : (ρ N).mem.m.st.lastScrapedBlockNumber < b) {src : EventSource} {x : DepositLog} (hx : x.Emittable)
    (hm : OnChain c helper b src x) {t : Erc20Token} (ht : Event.addedErc20Token t ∈ (ρ N).mem.m.log) (htok : t.erc20ContractAddress = x.token)
    {p : Principal} (hp : x.principal.1 = principalWord p) (hcr : Creditable p) {M' : Nat} (hl : MintsFrom ρ M' (x.deposit b src p))
    (hquiet : ∀ i, N ≤ i → (x.deposit b src p).intoEvent ∉ (ρ i).mem.m.log → (x.deposit b src p).intoEvent ∈ (ρ (i + 1)).mem.m.log →
      .mint ∉ (ρ i).mem.active) :
    ∃ j, ∃ k ∈ (ρ j).blocks, ((ρ j).blocks.filter fun b => b.call.credits src) = [k] ∧ k.Credits (ρ j).mem.m.st x p := by
  -- registered
  obtain ⟨i, hi, -, hbi⟩ := scrape_pauses W h D N
  obtain ⟨hist, W1, -⟩ := W.watched h hi
  have hacc := (C61_credited W1 b hb hbi (W.not_skipped h hman hi hb) src x hx hm (.inl ⟨t, mem_tokensOf.2 ht, htok⟩) p hp hcr).1
  have hnew : (x.deposit b src p).intoEvent ∉ (ρ N).mem.m.log := fun hin => by
    have := (W.fresh hb hm _ hin).1
    rw [source_intoEvent, DepositLog.deposit_source] at this
    simp at this
  obtain ⟨k, k1, k2, k3, k4⟩ := first_time (P := fun j => (x.deposit b src p).intoEvent ∈ (ρ j).mem.m.log) hnew (i - N)
    (by show _ ∈ (ρ (N + (i - N))).mem.m.log; rw [show N + (i - N) = i by omega]; exact hacc)
  have hlog := W.registered h k1 k3 k4
  have ha : .mint ∉ (ρ (k + 1)).mem.active := fun ha => by
    obtain ⟨q, l, pre, post, id, o, now, c, n, hq, hr, he⟩ := hlog
    rcases h.step k with e | s
    · rw [e] at ha; exact hquiet k k1 k3 k4 ha
    · obtain ⟨now', ⟨c', n', -, he'⟩ | ⟨e', -, he'⟩⟩ := (Step.activates (h.reachable k) s).1 (hquiet k k1 k3 k4) ha
      · have : (ρ k).nextId = (ρ k).nextId + 1 := (congrArg World.nextId he).symm.trans (congrArg World.nextId he')
        omega
      · have : (ρ k).nextId = (ρ k).nextId + 1 := (congrArg World.nextId he).symm.trans (congrArg World.nextId he')
        omega
  have hq := not_quarantined h S hsm W.nonce (src := src) (fun hq => by
    have := (W.fresh hb hm _ hq).2
    simp [isRejectOf] at this) (i := k + 1) (by omega)
  have hcase := accepted_cases (h.reachable (k + 1)) k4
  rw [DepositLog.deposit_source] at hcase
  have hacc' : ∀ {j}, k + 1 ≤ j → (x.deposit b src p).intoEvent ∈ (ρ j).mem.m.log := fun hj => by
    obtain ⟨es, he⟩ := log_grows h hj
    rw [he]; exact List.mem_append_left _ k4
  rcases hcase with hw | hk | hk
  · suffices hs : ∃ j, k + 1 ≤ j ∧ (ρ j).Credited (x.deposit b src p) by
      obtain ⟨j, hj, hc⟩ := hs
      have := credits_of_credited hc
      rw [DepositLog.deposit_source] at this
      exact ⟨j, the_block (h.reachable j) (hacc' hj) this⟩
    refine Classical.byContradiction fun hno => ?_
    have hc : ∀ j, ¬ (ρ j).Credited (x.deposit b src p) :=
      fun j hc => hno ⟨max (k + 1) j, Nat.le_max_left _ _, credited_mono h (Nat.le_max_right _ _) hc⟩
    have hw' := fun {j} => waits h S hsm (i := k + 1) (by omega) hw hc (j := j)
    obtain ⟨q, l, hq⟩ := hlog
    obtain ⟨j, hj, hst⟩ := S.registered k (by omega) _ _ hq (by
      have : x.deposit b src p ∈ (ρ (k + 1)).mem.m.st.eventsToMint.values := FMap.mem_values.2 ⟨src, hw⟩
      simp only [ExtTask.setsMintTimer, State.hasEventsToMint]
      have hne : (ρ (k + 1)).mem.m.st.eventsToMint.toList ≠ [] := fun hx => by
        rw [show (ρ (k + 1)).mem.m.st.eventsToMint.values = (ρ (k + 1)).mem.m.st.eventsToMint.toList.map (·.2) from rfl, hx] at this
        cases this
      simp [hne])
    obtain ⟨s, hs, hcov⟩ := covered h hsm (j - (k + 1)) (e := k + 1) (by omega) ha (fun j hj => hw' hj)
      (by rw [show k + 1 + (j - (k + 1)) = j by omega]; exact hst)
    obtain ⟨r, hr, hcr⟩ := C74_retried h S hsm hl (i := s) (by omega) hcov
    exact hc r hcr
  · exact ⟨k + 1, the_block (h.reachable (k + 1)) k4 hk⟩
  · exact absurd hk hq

end

namespace Example
attribute [local instance] keccak

/-- The deposit in block 103 is scraped, then it is minted; then block 106 is scraped. -/
def vigilance : List Action := [.start .scrape 9, .answer 0 (.block (some 105)) 9, .answer 0 (.logs (.logs [usdcLog])) 9,
  .start .mint 9, .execute 0, .deliver 0 9, .start .scrape 9, .answer 0 (.block (some 106)) 9, .answer 0 (.logs (.logs [])) 9]

/-- The scraping task at a time, its answer, and the state. -/
def watchedB (w : World) (x : Action) (i : Nat) : Bool :=
  noUpgrade w.mem.m.log && noSmall w.mem.m.st && decide (w.mem.m.st.evmNetwork.chainId = 11155111) &&
    decide (w.mem.m.st.nativeBalance.balance ≤ 1000) && (w.mem.m.st.erc20Balances.toList.all fun y => decide (y.2 ≤ 1000)) &&
    match w.tasks with
    | [⟨_, .ext (.scrape (.observing _)), _⟩] =>
      match x with
      | .answer 0 (.block (some n)) _ => decide (n = 106) || (decide (n = 105) && decide (i < 3))
      | _ => false
    | [⟨_, .ext (.scrape (.querying q)), _⟩] =>
      match x with
      | .answer 0 (.logs (.logs a)) _ => decide (q.request.address = 0xcafe) && decide (q.request.topics = firstRequest.topics) &&
          decide (i < 9 ∧ (i = 2 ∧ a = [usdcLog] ∧ q.request.range = ⟨101, 105⟩ ∨ i = 8 ∧ a = [] ∧ q.request.range = ⟨106, 106⟩))
      | _ => false
    | _ => true

/-- Only the initialization and a registered token. -/
def plainLog (log : List Event) : Bool := log.all fun
  | .init _ | .addedErc20Token _ => true
  | _ => false

def theEvent : Event := (usdcDeposit.deposit 103 ⟨21, 3⟩ ⟨[1, 2, 3]⟩).intoEvent

theorem watched_fits {s : State} (h1 : s.nativeBalance.balance ≤ 1000) (h2 : (s.erc20Balances.toList.all fun y => decide (y.2 ≤ 1000)) = true)
    {l : List Deposit} (h3 : nativeTotal l = 0) (h4 : ∀ c, tokenTotal c l ≤ 1000) : Fits s l := by
  refine ⟨by rw [h3]; exact Nat.lt_of_le_of_lt h1 (by decide), fun c => ?_⟩
  have hb : (s.erc20Balances.get c).getD 0 ≤ 1000 := by
    cases hg : s.erc20Balances.get c with
    | none => exact Nat.zero_le _
    | some v => exact of_decide_eq_true (List.all_eq_true.1 h2 _ (FMap.mem_toList.2 hg))
  exact Nat.lt_of_le_of_lt (Nat.add_le_add hb (h4 c)) (by decide)

theorem empty_honest {t : List (List Word32)} : Honest chain ⟨0xcafe, t, ⟨106, 106⟩⟩ (.logs []) := by
  refine ⟨fun e => ⟨fun h => by (cases h), ?_⟩, by decide⟩
  rintro ⟨b, h1, h2, h3, -⟩
  have hb : b = 106 := Nat.le_antisymm h2 h1
  subst hb
  have : chain 106 = [] := by decide
  rw [this] at h3; cases h3

/-- What is computed about the execution. -/
def vigilB (w₀ : World) : Bool :=
    ((vigil w₀ vigilance 106 vigilance.length).rests 106 &&
      (List.range vigilance.length).all (fun i => (vigil w₀ vigilance 106 i).orderly (vigilAction vigilance 106 i)) &&
      (List.range 10).all (fun i => watchedB (vigil w₀ vigilance 106 i) (vigilAction vigilance 106 i) i) &&
      (List.range 10).all (fun i => decide (i < 4 ∨ theEvent ∈ (vigil w₀ vigilance 106 i).mem.m.log)) &&
      (List.range 4).all (fun i => !(vigil w₀ vigilance 106 i).mem.active.contains .mint) &&
      !(vigil w₀ vigilance 106 9).mem.m.st.hasEventsToMint) &&
    (decide (w₀.tasks.length = 0 ∧ plainLog w₀.mem.m.log = true ∧ w₀.mem.lastObserved = none ∧
        w₀.mem.m.st.helperContractAddress = some 0xcafe ∧ w₀.mem.m.st.lastScrapedBlockNumber = 100 ∧ w₀.mem.m.st.skippedBlocks.toList = [] ∧
        (tokensOf w₀.mem.m.log).map (·.erc20ContractAddress) = [usdcDeposit.token]) &&
      decide ((vigil w₀ vigilance 106 3).blocks.length = 0 ∧ theEvent ∈ (vigil w₀ vigilance 106 3).mem.m.log ∧
        .scrapLogs ∉ (vigil w₀ vigilance 106 3).mem.active ∧ (vigil w₀ vigilance 106 3).mem.m.st.lastScrapedBlockNumber < 106))

theorem vigilB_true : after initArg beforeDeposit vigilB = true := by decide +kernel

theorem vigilance_length : vigilance.length = 9 := rfl

attribute [local irreducible] vigil

theorem orderly_ledger {w : World} {x : Action} (h : w.orderly x = true) {id : Nat} {t : LedgerTask} {a : LedgerAnswer}
    (hm : ⟨id, .ledger t, some a⟩ ∈ w.tasks) : ∃ b, a = .block b := by
  unfold World.orderly at h
  split at h
  · rename_i ht; rw [ht] at hm; cases hm
  · rename_i ht; rw [ht, List.mem_singleton] at hm; cases hm
  · rename_i ht; rw [ht, List.mem_singleton] at hm; cases hm; exact ⟨_, rfl⟩
  · rename_i ht; rw [ht, List.mem_singleton] at hm; cases hm
  · cases h

theorem vigil_watchedB {w₀ : World} (c1 : (vigil w₀ vigilance 106 vigilance.length).rests 106 = true)
    (c3 : (List.range 10).all (fun i => watchedB (vigil w₀ vigilance 106 i) (vigilAction vigilance 106 i) i) = true) (i : Nat) :
    watchedB (vigil w₀ vigilance 106 i) (vigilAction vigilance 106 i) i = true := by
  by_cases hi : i < 10
  · exact List.all_eq_true.1 c3 i (List.mem_range.2 hi)
  · have h9 := List.all_eq_true.1 c3 9 (List.mem_range.2 (by omega))
    obtain ⟨e1, -, e3⟩ := vigil_late c1 (i := i) (by rw [vigilance_length]; omega)
    rw [vigilance_length] at e1
    unfold watchedB at h9 ⊢
    rw [e1]
    simp only [Bool.and_eq_true] at h9 ⊢
    refine ⟨h9.1, ?_⟩
    rcases e3 with e3 | ⟨id, e3, e4, -⟩
    · rw [e3]
    · rw [e3, e4]; rfl

/-- The answer to a task. -/
def Expected (i : Nat) (a : ExtAnswer) : ScrapeTask → Prop
  | .observing _ => ∃ n, a = .block (some n) ∧ (n = 106 ∨ n = 105 ∧ i < 3)
  | .querying q => ∃ l, a = .logs (.logs l) ∧ i < 9 ∧ (i = 2 ∧ l = [usdcLog] ∧ q.request = firstRequest ∨
      i = 8 ∧ l = [] ∧ q.request = ⟨0xcafe, firstRequest.topics, ⟨106, 106⟩⟩)

/-- The answer is the one of the list of actions. -/
theorem vigil_gets {w₀ : World} {i : Nat} (ho : (vigil w₀ vigilance 106 i).orderly (vigilAction vigilance 106 i) = true)
    (hw : watchedB (vigil w₀ vigilance 106 i) (vigilAction vigilance 106 i) i = true) {t : ScrapeTask} {a : ExtAnswer}
    (h : Gets (vigil w₀ vigilance 106) (fun i => (vigilAction vigilance 106 i).given) i t a) :
    Expected i a t := by
  obtain ⟨⟨id, o, ht⟩, -⟩ := vigil_told ho h.1
  obtain ⟨-, rfl⟩ := h
  unfold watchedB at hw
  simp only [Bool.and_eq_true] at hw
  replace hw := hw.2
  rw [ht] at hw
  cases t with
  | observing k =>
    simp only at hw
    split at hw
    · rename_i n now hx
      show Expected i (vigilAction vigilance 106 i).given _
      rw [hx]
      simp only [Bool.or_eq_true, Bool.and_eq_true, decide_eq_true_eq] at hw
      exact ⟨n, rfl, hw⟩
    · cases hw
  | querying q =>
    simp only at hw
    split at hw
    · rename_i l now hx
      show Expected i (vigilAction vigilance 106 i).given _
      rw [hx]
      simp only [Bool.and_eq_true, decide_eq_true_eq] at hw
      obtain ⟨⟨h1, h2⟩, h3, h4⟩ := hw
      refine ⟨l, rfl, h3, ?_⟩
      rcases h4 with ⟨h5, rfl, h4⟩ | ⟨h5, rfl, h4⟩
      · left
        refine ⟨h5, rfl, ?_⟩
        generalize q.request = r at *
        cases r
        simp only at h1 h2 h4
        subst h1 h2 h4; rfl
      · right
        refine ⟨h5, rfl, ?_⟩
        generalize q.request = r at *
        cases r
        simp only at h1 h2 h4
        subst h1 h2 h4; rfl
    · cases hw

/-- An endless execution in which the chain is watched: a deposit of five tokens is emitted in block 103. It is registered at time 3, when no
mint is running and nothing is minted yet. By `C76_undisturbed` it is credited in the end; by `C76_credited` this also follows from block 106
being scraped later on. -/
theorem C76_example : ∃ ρ α, Endless ρ ∧ Watching ρ α 0 chain 0xcafe ∧ Steady ρ 0 ∧
    (∀ i, 0 ≤ i → ∀ src d, (ρ i).mem.m.st.eventsToMint.get src = some d → ¬ TooSmall (ρ i).mem.m.st d) ∧ Manageable ρ α 0 ∧
    Deep ρ α 0 103 ∧ Deep ρ α 3 106 ∧ (ρ 0).mem.m.st.lastScrapedBlockNumber = 100 ∧ OnChain chain 0xcafe 103 ⟨21, 3⟩ usdcDeposit ∧
    MintsFrom ρ 0 (usdcDeposit.deposit 103 ⟨21, 3⟩ ⟨[1, 2, 3]⟩) ∧ (ρ 3).blocks = [] ∧ theEvent ∈ (ρ 3).mem.m.log ∧
    .mint ∉ (ρ 3).mem.active ∧ .scrapLogs ∉ (ρ 3).mem.active ∧ (ρ 3).mem.m.st.lastScrapedBlockNumber < 106 ∧
    ∃ j, ∃ k ∈ (ρ j).blocks, ((ρ j).blocks.filter fun b => b.call.credits ⟨21, 3⟩) = [k] ∧
      k.Credits (ρ j).mem.m.st usdcDeposit ⟨[1, 2, 3]⟩ := by
  obtain ⟨w₀, h0, hc⟩ := after_reachable vigilB_true
  simp only [vigilB, Bool.and_eq_true, decide_eq_true_eq] at hc
  obtain ⟨⟨⟨⟨⟨⟨c1, c2⟩, c3⟩, c4⟩, c5⟩, c6⟩, ⟨d1, d2, d3, d4, d5, d6, d7⟩, d8, d9, d10, d11⟩ := hc
  have ord := vigil_orderly c1 c2
  have wat := vigil_watchedB c1 c3
  have gets := fun {i} {t} {a} => vigil_gets (t := t) (a := a) (ord i) (wat i)
  have late := fun {i} => vigil_late c1 (i := i)
  have start := fun {i} {msg} {now} => vigil_starts (w₀ := w₀) (l := vigilance) (n := 106) (i := i) (msg := msg) (now := now)
  have E := vigil_endless h0 vigilance 106
  have told := fun {i} {t} {a} => vigil_told (i := i) (t := t) (a := a) (ord i)
  have zero : vigil w₀ vigilance 106 0 = w₀ := by rw [vigil]
  have calm : ∀ i id, (id, Outcome.killed) ∈ (vigil w₀ vigilance 106 (i + 1)).finished → (id, Outcome.killed) ∈ (vigil w₀ vigilance 106 i).finished := by
    intro i id hf
    rw [vigil] at hf
    cases ha : (vigil w₀ vigilance 106 i).act (vigilAction vigilance 106 i) with
    | none => rw [ha] at hf; exact hf
    | some w' =>
      rw [ha] at hf
      refine act_calm ha ?_ hf
      unfold vigilAction
      cases hx : vigilance[i]? with
      | none => simp only [Option.getD_none]; split <;> (try split) <;> rfl
      | some x => exact (by decide : ∀ x ∈ vigilance.map (·.isKill), x = false) _ (List.mem_map.2 ⟨x, List.mem_of_getElem? hx, rfl⟩)
  have round : ∀ k, (vigil w₀ vigilance 106 (9 + 3 * k)).tasks = [] := fun k => (vigil_round c1 k).2.1
  generalize vigil w₀ vigilance 106 = ρ at *
  rw [vigilance_length] at *
  subst zero
  have nou : ∀ i a, Event.upgrade a ∉ (ρ i).mem.m.log := fun i a => by
    have := wat i
    simp only [watchedB, Bool.and_eq_true] at this
    exact noUpgrade_not this.1.1.1.1.1 a
  have sm : ∀ i, 0 ≤ i → ∀ src d, (ρ i).mem.m.st.eventsToMint.get src = some d → ¬ TooSmall (ρ i).mem.m.st d := fun i _ src d hd => by
    have := wat i
    simp only [watchedB, Bool.and_eq_true] at this
    exact noSmall_spec this.1.1.1.1.2 hd
  have act0 : ∀ i, vigilAction vigilance 106 (9 + 3 * i) = .start .scrape 9 := fun k => by
    unfold vigilAction
    rw [List.getElem?_eq_none (by rw [vigilance_length]; omega), Option.getD_none, vigilance_length, if_pos (by omega)]
  have act2 : ∀ i, vigilAction vigilance 106 (9 + 3 * i + 2) = .start .reimbursement 9 := fun k => by
    unfold vigilAction
    rw [List.getElem?_eq_none (by rw [vigilance_length]; omega), Option.getD_none, vigilance_length, if_neg (by omega), if_neg (by omega)]
  have gone : ∀ (i id : Nat) (t : Task), ∃ j, i ≤ j ∧ ∀ o, ⟨id, t, o⟩ ∉ (ρ j).tasks := fun i id t =>
    ⟨9 + 3 * i, by omega, fun o ho => by rw [round] at ho; cases ho⟩
  have ev : ∀ i, 4 ≤ i → theEvent ∈ (ρ i).mem.m.log := fun i hi => by
    have key : ∀ i, 4 ≤ i → i < 10 → theEvent ∈ (ρ i).mem.m.log := fun i h1 h2 => by
      have := List.all_eq_true.1 c4 i (List.mem_range.2 h2)
      simp only [decide_eq_true_eq] at this
      exact this.resolve_left (by omega)
    by_cases h10 : i < 10
    · exact key i hi h10
    · rw [(late (i := i) (by omega)).1]; exact key 9 (by omega) (by omega)
  have W : Watching ρ (fun i => (vigilAction vigilance 106 i).given) 0 chain 0xcafe := by
    refine ⟨chain_ok, fun i _ t a h => (told h).2, fun p hp => ?_, fun src e he hc => ?_, fun b hb => ?_, fun b hb => ?_, d4, ?_,
      fun i _ l₁ a l₂ n hl _ => ?_, fun i _ => ⟨fun a ha => ?_, fun a ha => ?_⟩, fun i => ⟨9 + 3 * i, by omega, start trivial (act0 i)⟩,
      fun i _ id t o _ => gone i id _, fun i _ => calm i, fun i _ k n h => ?_, fun i _ q a h => ?_⟩
    · rw [List.length_eq_zero_iff.1 d1] at hp; cases hp
    · have := List.all_eq_true.1 d2 e he
      split at this
      · rcases hc with hc | hc <;> cases hc
      · rcases hc with hc | hc <;> cases hc
      · cases this
    · obtain ⟨v, hv⟩ := FMap.contains_eq_true.1 hb
      have := FMap.mem_toList.2 hv
      rw [show (ρ 0).scraper.m.st.skippedBlocks.toList = [] from d6] at this; cases this
    · rw [d3] at hb; cases hb
    · cases ht : tokensOf (ρ 0).mem.m.log with
      | nil => rw [ht] at d7; cases d7
      | cons t l => exact ⟨t, mem_tokensOf.1 (by rw [ht]; exact List.mem_cons_self)⟩
    · exact absurd (by rw [hl]; simp) (nou i a)
    · exact absurd (List.mem_of_mem_drop ha) (nou i a)
    · exact absurd (List.mem_of_mem_drop ha) (nou i a)
    · obtain ⟨n', hn, h1⟩ := gets h
      cases hn
      rcases h1 with rfl | ⟨rfl, -⟩ <;> decide
    · obtain ⟨l, hl, h1, h2⟩ := gets h
      cases hl
      have wi := wat i
      simp only [watchedB, Bool.and_eq_true, decide_eq_true_eq] at wi
      rcases h2 with ⟨-, rfl, hq⟩ | ⟨-, rfl, hq⟩
      · refine ⟨by rw [hq]; exact firstRequest_honest, fun l hl => ?_⟩
        cases hl
        have hd : depositsOf [usdcLog] = [usdcDeposit.deposit 103 ⟨21, 3⟩ ⟨[1, 2, 3]⟩] := by decide +kernel
        rw [hd]
        refine watched_fits wi.1.1.2 wi.1.2 rfl fun c => ?_
        show (if usdc = c then 5 else 0) + 0 ≤ 1000
        split <;> decide
      · refine ⟨by rw [hq]; exact empty_honest, fun l hl => ?_⟩
        cases hl
        exact watched_fits wi.1.1.2 wi.1.2 rfl fun c => Nat.zero_le _
  have S : Steady ρ 0 := by
    refine ⟨fun i _ id t o _ _ => gone i id _, fun i _ => calm i, fun i _ t a h hs => ?_, fun i j _ _ id t a n t' a' r hd hc _ => ?_,
      fun i => ⟨9 + 3 * i + 2, by omega, start trivial (act2 i)⟩⟩
    · unfold ExtTask.setsMintTimer at hs
      split at hs
      · rename_i q l
        obtain ⟨pre, post, id, o, now, c, n, h1, h2, h3⟩ := h
        have A := told (t := .querying q) (a := .logs (.logs l)) ⟨pre, post, id, o, now, h1, trivial, .inl ⟨c, n, h2, h3⟩⟩
        obtain ⟨l', hl, -, hi⟩ := gets ⟨A.2, rfl⟩
        rcases hi with ⟨rfl, -⟩ | ⟨rfl, -⟩
        · exact ⟨3, by omega, start (msg := .mint) (now := 9) trivial rfl⟩
        · rw [hs] at c6; cases c6
      · cases hs
    · obtain ⟨pre, post, _, _, ht, _⟩ := hd
      obtain ⟨b, rfl⟩ := orderly_ledger (ord i) (id := id) (t := t) (a := a) (by rw [ht]; simp)
      cases t <;> cases hc
  have man : Manageable ρ (fun i => (vigilAction vigilance 106 i).given) 0 := fun i _ q h => by
    obtain ⟨l, hl, -⟩ := gets h
    cases hl
  have chain0 : ∀ i, safetyMargin (ρ i).mem.m.st.evmNetwork.chainId = 0 := fun i => by
    have wi := wat i
    simp only [watchedB, Bool.and_eq_true, decide_eq_true_eq] at wi
    rw [wi.1.1.1.2]; rfl
  have D : Deep ρ (fun i => (vigilAction vigilance 106 i).given) 0 103 := by
    refine ⟨fun i _ k a h => ?_, fun i _ q a h => ?_⟩
    · obtain ⟨n, hn, h1⟩ := gets h
      cases hn
      refine ⟨n, rfl, ?_⟩
      rw [chain0]
      rcases h1 with rfl | ⟨rfl, -⟩ <;> decide
    · obtain ⟨l, hl, -⟩ := gets h
      cases hl
      intro hx; cases hx
  have D' : Deep ρ (fun i => (vigilAction vigilance 106 i).given) 3 106 := by
    refine ⟨fun i hi k a h => ?_, fun i _ q a h => ?_⟩
    · obtain ⟨n, hn, h1⟩ := gets h
      cases hn
      refine ⟨n, rfl, ?_⟩
      rw [chain0]
      rcases h1 with rfl | ⟨rfl, h1⟩
      · decide
      · omega
    · obtain ⟨l, hl, -⟩ := gets h
      cases hl
      intro hx; cases hx
  have O : OnChain chain 0xcafe 103 ⟨21, 3⟩ usdcDeposit :=
    ⟨usdcLog, by decide +kernel, rfl, ⟨rfl, rfl, rfl, by decide, by decide, rfl, rfl, rfl⟩⟩
  have Mi : MintsFrom ρ 0 (usdcDeposit.deposit 103 ⟨21, 3⟩ ⟨[1, 2, 3]⟩) := fun i _ id env sym l amount rest a hm => orderly_ledger (ord i) hm
  have mint : ∀ i, i < 4 → .mint ∉ (ρ i).mem.active := fun i hi => by
    have := List.all_eq_true.1 c5 i (List.mem_range.2 hi)
    simpa using this
  obtain ⟨t, ht1, ht2⟩ : ∃ t, Event.addedErc20Token t ∈ (ρ 0).mem.m.log ∧ t.erc20ContractAddress = usdcDeposit.token := by
    have : usdcDeposit.token ∈ (tokensOf (ρ 0).mem.m.log).map (·.erc20ContractAddress) := by rw [d7]; exact List.mem_cons_self
    obtain ⟨t, h1, h2⟩ := List.mem_map.1 this
    exact ⟨t, mem_tokensOf.1 h1, h2⟩
  have hlast : (ρ 0).mem.m.st.lastScrapedBlockNumber < 103 := by rw [d5]; decide
  refine ⟨ρ, _, E, W, S, sm, man, D, D', d5, O, Mi, List.length_eq_zero_iff.1 d8, d9, mint 3 (by omega), d10, d11, ?_⟩
  exact C76_undisturbed E W S sm man D hlast ⟨by unfold DepositLog.Typed; decide, by decide⟩ O ht1 ht2 (p := ⟨[1, 2, 3]⟩) rfl (by decide) Mi fun i _ h1 h2 =>
    mint i (Classical.byContradiction fun hi => h1 (ev i (by omega)))

end Example
end EvmMinter
