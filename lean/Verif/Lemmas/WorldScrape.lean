import Verif.Spec.History
import Verif.Lemmas.Refine
import Verif.Props.C07
/-!
# The scraper of a world

`scraping_of_history`: an execution of the minter with its ledgers is, as far as scraping is concerned, an execution of the
scraper beside other parts of the minter (Spec/Scrape.lean).
-/

namespace EvmMinter
open Spec

section
variable [Keccak]

/-! ## Histories and reachability -/

theorem Spec.Observes.step {w w' : World} {o : Obs} (h : Observes w w' o) : Step w w' := by
  cases h with
  | started now c t hr => exact .start w .scrape now c _ trivial hr
  | latest pre post id k o b now c n ht hty hr => exact .answer w pre post id _ o _ now c n ht hty hr
  | answered pre post id q o a now c n ht hr => exact .answer w pre post id _ o (.logs a) now c n ht trivial hr

theorem Spec.History.reachable {w₀ w : World} {h : List Obs} (hh : History w₀ w h) (hr : Reachable w₀) : Reachable w := by
  induction hh with
  | refl => exact hr
  | scraper w w' h o _ ho ih => exact .step _ _ ih ho.step
  | other w w' h _ hs _ ih => exact .step _ _ ih hs

theorem Spec.History.log {w₀ w : World} {h : List Obs} (hh : History w₀ w h) (hr : Reachable w₀) :
    ∃ es, w.mem.m.log = w₀.mem.m.log ++ es := by
  induction hh with
  | refl => exact ⟨[], by simp⟩
  | scraper w w' h o hh ho ih =>
    obtain ⟨es, h1⟩ := ih
    obtain ⟨es', h2⟩ := (Step.grows (hh.reachable hr) ho.step).log
    exact ⟨es ++ es', by rw [h2, h1, List.append_assoc]⟩
  | other w w' h hh hs _ ih =>
    obtain ⟨es, h1⟩ := ih
    obtain ⟨es', h2⟩ := (Step.grows (hh.reachable hr) hs).log
    exact ⟨es ++ es', by rw [h2, h1, List.append_assoc]⟩

/-- Every execution has a history. -/
theorem history_of_step {w₀ w w' : World} {h : List Obs} (hh : History w₀ w h) (hs : Step w w') : ∃ h', History w₀ w' h' := by
  by_cases hc : ∃ o, Observes w w' o
  · obtain ⟨o, ho⟩ := hc
    exact ⟨_, .scraper _ _ _ _ hh ho⟩
  · exact ⟨h, .other _ _ _ hh hs fun o ho => hc ⟨o, ho⟩⟩

theorem history_of_reachable {w : World} (h : Reachable w) : ∃ id a s blocks hist, State.ofInit a = .ok s ∧
    Reachable (World.initial id a s blocks) ∧ History (World.initial id a s blocks) w hist := by
  induction h with
  | init id a s blocks hs hb => exact ⟨id, a, s, blocks, [], hs, .init id a s blocks hs hb, .refl⟩
  | step w w' _ hs ih =>
    obtain ⟨id, a, s, blocks, hist, h1, h2, h3⟩ := ih
    obtain ⟨h', h4⟩ := history_of_step h3 hs
    exact ⟨id, a, s, blocks, h', h1, h2, h4⟩

/-! ## The task -/

omit [Keccak] in
theorem scrapeTask_append (l l' : List Pending) : scrapeTask (l ++ l') = (scrapeTask l).or (scrapeTask l') := by
  unfold scrapeTask; rw [List.findSome?_append]

omit [Keccak] in
theorem mem_running_scrape {t : Task} : TaskType.scrapLogs ∈ t.running ↔ ∃ s, t = .ext (.scrape s) := by
  cases t with
  | ledger t => cases t <;> simp [Task.running]
  | ext t => cases t <;> simp [Task.running]

omit [Keccak] in
theorem scrapeTask_none {l : List Pending} (h : ∀ p ∈ l, TaskType.scrapLogs ∉ p.task.running) : scrapeTask l = none := by
  unfold scrapeTask
  rw [List.findSome?_eq_none_iff]
  intro p hp
  split
  · rename_i t ht
    exact absurd (mem_running_scrape.2 ⟨t, ht⟩) (h p hp)
  · rfl

omit [Keccak] in
theorem scrapeTask_next {n : Next} (id : Nat) (h : TaskType.scrapLogs ∉ n.running) : scrapeTask (n.pending id) = none := by
  cases n with
  | finish r => rfl
  | await t =>
    refine scrapeTask_none fun p hp => ?_
    rw [List.mem_singleton.1 hp]
    exact h

omit [Keccak] in
/-- A task that is no scraping is replaced by tasks that are none. -/
theorem scrapeTask_swap {pre post l : List Pending} {p : Pending} (hp : TaskType.scrapLogs ∉ p.task.running)
    (hl : scrapeTask l = none) : scrapeTask (pre ++ l ++ post) = scrapeTask (pre ++ p :: post) := by
  have : scrapeTask [p] = none := scrapeTask_none fun q hq => by rw [List.mem_singleton.1 hq]; exact hp
  rw [List.append_cons]
  simp only [scrapeTask_append, hl, this]

omit [Keccak] in
/-- There is one scraping task at most. -/
theorem scrapeTask_split {c : Mem} {pre post : List Pending} {id : Nat} {s : ScrapeTask} {o : Option LedgerAnswer}
    (h : LockInv c (pre ++ ⟨id, .ext (.scrape s), o⟩ :: post)) : scrapeTask pre = none ∧ scrapeTask post = none := by
  have k := not_running_of_split h (x := .scrapLogs) (by simp [Task.running])
  exact ⟨scrapeTask_none fun p hp => k p (List.mem_append_left _ hp), scrapeTask_none fun p hp => k p (List.mem_append_right _ hp)⟩

omit [Keccak] in
theorem scraperStep_eq (c : Mem) (x : Scraper) (id : Nat) : (c.scraperStep x).1.m = x.m ∧
    (c.scraperStep x).1.lastObserved = x.lastObserved ∧ (c.scraperStep x).1.lastObservedTime = x.lastObservedTime ∧
    scrapeTask ((c.scraperStep x).2.pending id) = x.task := by
  unfold Mem.scraperStep
  cases hx : x.task with
  | none => exact ⟨rfl, rfl, rfl, rfl⟩
  | some t => exact ⟨rfl, rfl, rfl, rfl⟩

/-! ## The projection -/

omit [Keccak] in
theorem not_scraperEvent {e : Event} (h1 : e.origin ≠ .scrape) (h2 : e.origin ≠ .lifecycle) : ¬ ScraperEvent e := by
  cases e <;> simp_all [Event.origin, ScraperEvent]

/-- What other parts of the minter do. -/
theorem Spec.Scraping.beside {w₀ w : Scraper} {h : List Obs} {o : Origin} (hs : Scraping w₀ w h) {m' : Minter} (hg : Grew o w.m m')
    (ho : o ≠ .scrape) (ho' : o ≠ .lifecycle) (hr : Run m'.log m'.st) : Scraping w₀ { w with m := m' } h := by
  obtain ⟨es, h1, h2⟩ := hg.ext
  exact .other w h es m' hs (fun e he => not_scraperEvent (by rw [h2 e he]; exact ho) (by rw [h2 e he]; exact ho')) h1 hr
    (hg.keeps ho ho')

/-- A step of the scraper. -/
theorem scraping_observes {w₀ : Scraper} {w w' : World} {h : List Obs} {o : Obs} (hr : Reachable w) (ho : Observes w w' o)
    (S : Scraping w₀ w.scraper h) : Scraping w₀ w'.scraper (h ++ [o]) := by
  have L := lockInv hr
  cases ho with
  | started now c t hres =>
    simp only [Message.run] at hres
    split at hres
    · cases hres
    · rename_i c1 hc
      cases hres
      have T := (Takes.acquire hc).fresh .scrapLogs (by simp)
      rw [L.active] at T
      have hnone : scrapeTask w.tasks = none :=
        scrapeTask_none fun p hp hq => T (List.mem_flatMap.2 ⟨p, hp, hq⟩)
      have := Scraping.start _ _ now S (by show (scrapeTask w.tasks).isNone = true; rw [hnone]; rfl)
      have e : ((w.begin .scrape).advance w.tasks [] w.nextId { c1 with lastObservedTime := some now }
          (.await (.ext (.scrape (.observing 0))))).scraper = w.scraper.start now := by
        unfold Scraper.start World.scraper
        simp only [hnone, World.advance, scrapeTask_append]
        simp only [Mem.acquire_m hc, (Mem.acquire_seen hc).1]
        rfl
      rw [e]; exact this
  | latest pre post id k o b now c n ht hty hres =>
    simp only [ExtTask.resume, Option.some.injEq, Res.bind_ok, Res.pure_ok] at hres
    obtain ⟨x, h1, h2⟩ := hres
    rw [ht] at L
    obtain ⟨k1, k2⟩ := scrapeTask_split L
    have htask : scrapeTask w.tasks = some (.observing k) := by
      rw [ht, List.append_cons, scrapeTask_append, scrapeTask_append, k1]; rfl
    have hw : w.mem.scraper (.observing k) = w.scraper := by unfold Mem.scraper World.scraper; rw [htask]
    rw [hw] at h1
    obtain ⟨g1, g2, g3, g4⟩ := scraperStep_eq w.mem x id
    rw [h2] at g1 g2 g3 g4
    dsimp only at g1 g2 g3 g4
    have e : (w.advance pre post id c n).scraper = x := by
      unfold World.scraper World.advance
      simp only [scrapeTask_append, k1, k2, g4, g1, g2, g3, Option.none_or, Option.or_none]
    rw [e]
    exact .block _ _ _ k b S (fun b' hb => by subst hb; exact hty) htask h1
  | answered pre post id q o a now c n ht hres =>
    simp only [ExtTask.resume, Option.some.injEq, Res.bind_ok, Res.pure_ok] at hres
    obtain ⟨x, h1, h2⟩ := hres
    rw [ht] at L
    obtain ⟨k1, k2⟩ := scrapeTask_split L
    have htask : scrapeTask w.tasks = some (.querying q) := by
      rw [ht, List.append_cons, scrapeTask_append, scrapeTask_append, k1]; rfl
    have hw : w.mem.scraper (.querying q) = w.scraper := by unfold Mem.scraper World.scraper; rw [htask]
    rw [hw] at h1
    obtain ⟨g1, g2, g3, g4⟩ := scraperStep_eq w.mem x id
    rw [h2] at g1 g2 g3 g4
    dsimp only at g1 g2 g3 g4
    have e : (w.advance pre post id c n).scraper = x := by
      unfold World.scraper World.advance
      simp only [scrapeTask_append, k1, k2, g4, g1, g2, g3, Option.none_or, Option.or_none]
    rw [e]
    exact .logs _ _ _ q a S htask h1

/-- Another step. Only an upgrade may set the last scraped block. -/
theorem scraping_other {w₀ : Scraper} {w w' : World} {h : List Obs} (hr : Reachable w) (hs : Step w w')
    (hrun : Run w'.mem.m.log w'.mem.m.st) (hno : ∀ o, ¬ Observes w w' o) (S : Scraping w₀ w.scraper h) :
    Scraping w₀ w'.scraper h ∨ ∃ arg log s, w.tasks = [] ∧
      postUpgrade (w.mem.m.log ++ [.syncedToBlock w.mem.m.st.lastScrapedBlockNumber]) arg = .ok (log, s) ∧
      w' = { w with mem := ⟨w.mem.id, ⟨s, log⟩, none, none, [], []⟩ } ∧ ¬ KeepsScraped arg := by
  have L := lockInv hr
  have beside : ∀ {o : Origin}, Grew o w.mem.m w'.mem.m → o ≠ .scrape → o ≠ .lifecycle →
      w'.mem.lastObserved = w.mem.lastObserved ∧ w'.mem.lastObservedTime = w.mem.lastObservedTime →
      scrapeTask w'.tasks = scrapeTask w.tasks → Scraping w₀ w'.scraper h := by
    intro o hg ho ho' hobs ht
    have := S.beside (m' := w'.mem.m) hg ho ho' hrun
    have e : w'.scraper = { w.scraper with m := w'.mem.m } := by
      unfold World.scraper; rw [hobs.1, hobs.2, ht]
    rw [e]; exact this
  have same : w'.mem = w.mem → scrapeTask w'.tasks = scrapeTask w.tasks → Scraping w₀ w'.scraper h := by
    intro h1 h2
    have e : w'.scraper = w.scraper := by unfold World.scraper; rw [h1, h2]
    rw [e]; exact S
  have ledgerRun : ∀ t : LedgerTask, TaskType.scrapLogs ∉ (Task.ledger t).running := by
    intro t ht; obtain ⟨s, hs⟩ := mem_running_scrape.1 ht; cases hs
  have ledgerOrigin : ∀ t : LedgerTask, t.origin ≠ .scrape ∧ t.origin ≠ .lifecycle := by
    intro t; cases t <;> simp [LedgerTask.origin]
  have extOrigin : ∀ t : ExtTask, (∀ s, t ≠ .scrape s) → t.origin ≠ .scrape ∧ t.origin ≠ .lifecycle := by
    intro t ht; cases t <;> simp [ExtTask.origin]
    exact ht _ rfl
  have drop : ∀ {pre post : List Pending} {id : Nat} {t : Task} {o : Option LedgerAnswer} {c : Mem},
      w.tasks = pre ++ ⟨id, t, o⟩ :: post → t.cleanup w.mem = .ok c → w'.mem = c → w'.tasks = pre ++ post →
      Scraping w₀ w'.scraper h := by
    intro pre post id t o c ht hc h1 h2
    by_cases hsc : TaskType.scrapLogs ∈ t.running
    · obtain ⟨s, rfl⟩ := mem_running_scrape.1 hsc
      simp only [Task.cleanup, Except.ok.injEq] at hc
      have htask : scrapeTask w'.tasks = none := by
        rw [ht] at L
        obtain ⟨k1, k2⟩ := scrapeTask_split L
        rw [h2, scrapeTask_append, k1, k2]; rfl
      have e : w'.scraper = { w.scraper with task := none } := by
        unfold World.scraper
        rw [htask, h1, ← hc]
        rfl
      rw [e]; exact .trap _ _ S
    · have hl := Task.cleanup_locks hc
      refine beside (o := t.origin) (by rw [h1]; exact Task.cleanup_grew hc) ?_ ?_ (by rw [h1]; exact hl.seen hsc) ?_
      · cases t with
        | ledger t => exact (ledgerOrigin t).1
        | ext t => exact (extOrigin t fun s hs => hsc (mem_running_scrape.2 ⟨s, by rw [hs]⟩)).1
      · cases t with
        | ledger t => exact (ledgerOrigin t).2
        | ext t => exact (extOrigin t fun s hs => hsc (mem_running_scrape.2 ⟨s, by rw [hs]⟩)).2
      · rw [h2, ht]
        have := scrapeTask_swap (pre := pre) (post := post) (p := ⟨id, t, o⟩) (l := []) hsc rfl
        rw [List.append_nil] at this
        exact this
  have answerOnly : ∀ {pre post : List Pending} {id : Nat} {t : LedgerTask} {o o' : Option LedgerAnswer},
      w.tasks = pre ++ ⟨id, .ledger t, o⟩ :: post → scrapeTask (pre ++ ⟨id, .ledger t, o'⟩ :: post) = scrapeTask w.tasks := by
    intro pre post id t o o' ht
    rw [ht, List.append_cons]
    exact scrapeTask_swap (ledgerRun t) (scrapeTask_none fun p hp => by rw [List.mem_singleton.1 hp]; exact ledgerRun t)
  cases hs with
  | start msg now c n hty hres =>
    left
    by_cases hm : msg = .scrape
    · subst hm
      cases n with
      | await t => exact absurd (Observes.started w now c t hres) (hno _)
      | finish r =>
        have hc : c = w.mem := by
          simp only [Message.run] at hres
          split at hres <;> cases hres
          rfl
        subst hc
        exact same rfl (by simp [World.advance, World.begin, Next.pending])
    · obtain ⟨k1, k2⟩ := Message.run_seen hres hm
      refine beside (o := msg.origin) (Message.run_grew hres) ?_ ?_ k2 ?_
      · cases msg <;> simp [Message.origin]
        exact hm rfl
      · cases msg <;> simp [Message.origin]
      · show scrapeTask (w.tasks ++ n.pending w.nextId ++ []) = _
        rw [List.append_nil, scrapeTask_append, scrapeTask_next _ k1, Option.or_none]
  | startTrap msg now e _ _ => exact .inl (same rfl (by simp [World.drop, World.begin]))
  | execute pre post id t ht _ => exact .inl (same rfl (answerOnly ht))
  | refuse pre post id t e ht _ => exact .inl (same rfl (answerOnly ht))
  | reject pre post id t ht => exact .inl (same rfl (answerOnly ht))
  | deliver pre post id t a now c n ht hres =>
    left
    have hl := LedgerTask.resume_locks hres
    refine beside (LedgerTask.resume_grew hres) (ledgerOrigin t).1 (ledgerOrigin t).2 (hl.seen (ledgerRun t)) ?_
    rw [ht]
    exact scrapeTask_swap (ledgerRun t) (scrapeTask_next _ fun hh => ledgerRun t (hl.run _ hh))
  | deliverTrap pre post id t a now e c ht _ hc => exact .inl (drop ht hc rfl rfl)
  | kill pre post id t a c ht hc => exact .inl (drop ht hc rfl rfl)
  | answer pre post id t o a now c n ht hty hres =>
    left
    by_cases hsc : TaskType.scrapLogs ∈ (Task.ext t).running
    · exfalso
      obtain ⟨s, hs⟩ := mem_running_scrape.1 hsc
      cases hs
      cases s with
      | observing k =>
        cases a <;> simp only [ExtTask.resume, reduceCtorEq] at hres
        exact hno _ (Observes.latest w pre post id k o _ now c n ht hty hres)
      | querying q =>
        cases a <;> simp only [ExtTask.resume, reduceCtorEq] at hres
        exact hno _ (Observes.answered w pre post id q o _ now c n ht hres)
    · have hl := ExtTask.resume_locks hres
      have ho := extOrigin t fun s hs => hsc (mem_running_scrape.2 ⟨s, by rw [hs]⟩)
      refine beside (ExtTask.resume_grew hres) ho.1 ho.2 (hl.seen hsc) ?_
      rw [ht]
      exact scrapeTask_swap hsc (scrapeTask_next _ fun hh => hsc (hl.run _ hh))
  | answerTrap pre post id t o a now e c ht _ _ hc => exact .inl (drop ht hc rfl rfl)
  | killExt pre post id t o c ht hc => exact .inl (drop ht hc rfl rfl)
  | foreign call _ => exact .inl (same rfl rfl)
  | upgrade arg log s ht hp =>
    by_cases hk : KeepsScraped arg
    · left
      have := Scraping.upgrade (w₀ := w₀) w.scraper h arg log s S hk hp
      have e : World.scraper { w with mem := ⟨w.mem.id, ⟨s, log⟩, none, none, [], []⟩ } = ⟨⟨s, log⟩, none, none, none⟩ := by
        unfold World.scraper
        rw [show (World.tasks { w with mem := ⟨w.mem.id, ⟨s, log⟩, none, none, [], []⟩ }) = w.tasks from rfl, ht]
        rfl
      rw [e]; exact this
    · exact .inr ⟨arg, log, s, ht, hp, rfl, hk⟩

/-- An execution of the world is one of the scraper. -/
theorem scraping_of_history {w₀ w : World} {h : List Obs} (hr : Reachable w₀) (hh : History w₀ w h)
    (hn : NonceNeverLowered w.mem.m.log) (hk : NeverReset (w.mem.m.log.drop w₀.mem.m.log.length)) :
    Scraping w₀.scraper w.scraper h := by
  have back : ∀ {w w' : World} {h}, History w₀ w h → Step w w' → NonceNeverLowered w'.mem.m.log →
      NeverReset (w'.mem.m.log.drop w₀.mem.m.log.length) →
      NonceNeverLowered w.mem.m.log ∧ NeverReset (w.mem.m.log.drop w₀.mem.m.log.length) ∧ Run w'.mem.m.log w'.mem.m.st := by
    intro w w' h hh hs hn hk
    have hrun := run_of_reachable (.step _ _ (hh.reachable hr) hs) hn
    obtain ⟨es, he⟩ := (Step.grows (hh.reachable hr) hs).log
    obtain ⟨es0, he0⟩ := hh.log hr
    rw [he] at hn hk
    refine ⟨nonceNeverLowered_prefix hn, fun a ha => hk a ?_, hrun⟩
    rw [he0] at ha ⊢
    rw [List.append_assoc, List.drop_left]
    rw [List.drop_left] at ha
    exact List.mem_append_left _ ha
  induction hh with
  | refl => exact .refl
  | scraper w w' h o hh ho ih =>
    obtain ⟨hn0, hk0, -⟩ := back hh ho.step hn hk
    exact scraping_observes (hh.reachable hr) ho (ih hn0 hk0)
  | other w w' h hh hs hno ih =>
    obtain ⟨hn0, hk0, hrun⟩ := back hh hs hn hk
    rcases scraping_other (hh.reachable hr) hs hrun hno (ih hn0 hk0) with hS | ⟨arg, log, s, ht, hp, rfl, hkeep⟩
    · exact hS
    · refine absurd ?_ hkeep
      cases arg with
      | none => trivial
      | some x =>
        cases x with
        | init a => trivial
        | upgrade a =>
          simp only [postUpgrade, Res.bind_ok, Res.pure_ok, Prod.mk.injEq] at hp
          obtain ⟨s1, h1, s2, h2, h3, h4⟩ := hp
          refine hk a ?_
          obtain ⟨es0, he0⟩ := hh.log hr
          show Event.upgrade a ∈ log.drop _
          rw [← h3, he0, List.append_assoc, List.append_assoc, List.drop_left]
          simp

/-- Where the scraper is in the middle of something it started. -/
theorem scraping_of_reachable {w : World} (h : Reachable w) (hn : NonceNeverLowered w.mem.m.log) :
    ∃ w₀ hist, Idle w₀ ∧ Scraping w₀ w.scraper hist := by
  induction h with
  | init id a s blocks hs hb =>
    refine ⟨_, [], ⟨.init a s hs, rfl, fun b hb => (by cases hb), ?_⟩, .refl⟩
    obtain ⟨-, -, -, -, -, -, -, -, -, g1, -, -, -, -, -, -, -, -, -, -, g2, -⟩ := ofInit_ok hs
    show s.lastScrapedBlockNumber < U256
    rw [g1]; exact Nat.lt_of_succ_lt g2
  | step w w' hr hs ih =>
    have hrun := run_of_reachable (.step _ _ hr hs) hn
    obtain ⟨es, he⟩ := (Step.grows hr hs).log
    obtain ⟨w₀, hist, h0, S⟩ := ih (nonceNeverLowered_prefix (by rw [he] at hn; exact hn))
    by_cases hc : ∃ o, Observes w w' o
    · obtain ⟨o, ho⟩ := hc
      exact ⟨_, _, h0, scraping_observes hr ho S⟩
    · rcases scraping_other hr hs hrun (fun o ho => hc ⟨o, ho⟩) S with hS | ⟨arg, log, s, ht, hp, rfl, hkeep⟩
      · exact ⟨_, _, h0, hS⟩
      · refine ⟨_, [], ⟨hrun, ?_, fun b hb => (by cases hb), ?_⟩, .refl⟩
        · show scrapeTask w.tasks = none
          rw [ht]; rfl
        · show s.lastScrapedBlockNumber < U256
          cases arg with
          | none => exact absurd trivial hkeep
          | some x =>
            cases x with
            | init a => exact absurd trivial hkeep
            | upgrade a =>
              simp only [postUpgrade, Res.bind_ok, Res.pure_ok, Prod.mk.injEq] at hp
              obtain ⟨s1, h1, s2, h2, h3, rfl⟩ := hp
              simp only [applyEvent] at h2
              split at h2
              · rename_i s3 h4
                cases h2
                obtain ⟨helper, -, h5, -, -, -, -, b4, -⟩ := upgrade_ok h4
                cases hl : a.lastScrapedBlockNumber with
                | none => exact absurd hl hkeep
                | some n =>
                  rw [h5]
                  simp only [hl, Option.getD_some]
                  exact b4 n hl
              · cases h2

/-- When no scraping is in progress the scraper is idle. -/
theorem idle_of_reachable {w : World} (h : Reachable w) (hn : NonceNeverLowered w.mem.m.log)
    (ht : scrapeTask w.tasks = none) : Idle w.scraper := by
  obtain ⟨w₀, hist, h0, S⟩ := scraping_of_reachable h hn
  have I := scrapeInv h0 S
  exact ⟨I.run, ht, I.observed, I.bounded⟩

/-! ## Executions that are followed -/

variable {w₀ w : World} {h : List Obs}

theorem Spec.Followed.log (W : Followed w₀ w h) : w.mem.m.log = w₀.mem.m.log ++ w.since w₀ := by
  obtain ⟨es, he⟩ := W.history.log W.reachable
  unfold World.since
  rw [he, List.drop_left]

theorem Spec.Followed.reached (W : Followed w₀ w h) : Reachable w := W.history.reachable W.reachable

theorem Spec.Followed.isIdle (W : Followed w₀ w h) : Idle w₀.scraper := by
  refine idle_of_reachable W.reachable ?_ (scrapeTask_none fun p hp hq => ?_)
  · have := W.nonce
    rw [W.log] at this
    exact nonceNeverLowered_prefix this
  · obtain ⟨s, hs⟩ := mem_running_scrape.1 hq
    exact W.idle p hp s hs

theorem Spec.Followed.scraping (W : Followed w₀ w h) : Scraping w₀.scraper w.scraper h :=
  scraping_of_history W.reachable W.history W.nonce W.kept

end
end EvmMinter
