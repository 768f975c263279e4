import Verif.Lemmas.Scrape
import Verif.Spec.ExampleRun
/-!
# C07, C09: the scraper skips no block silently, ends, and skips only blocks whose own logs are too large
-/

namespace EvmMinter
open Spec

section
variable [Keccak]

/-- What each event does to the blocks scraped and skipped. -/
theorem applyEvent_scraped {s s' : State} {e : Event} (h : applyEvent s e = .ok s') :
    (¬ ScraperEvent e → s'.lastScrapedBlockNumber = s.lastScrapedBlockNumber) ∧
    (∀ b, s'.skippedBlocks.contains b = true ↔ s.skippedBlocks.contains b = true ∨ e = .skippedBlock b) := by
  have lift : ∀ {r : Res Transactions} {s' : State}, liftTxs s r = .ok s' →
      s'.lastScrapedBlockNumber = s.lastScrapedBlockNumber ∧ s'.skippedBlocks = s.skippedBlocks := by
    intro r s' h
    obtain ⟨t, _, rfl⟩ := liftTxs_ok h
    exact ⟨rfl, rfl⟩
  have weak : s'.lastScrapedBlockNumber = s.lastScrapedBlockNumber ∧ s'.skippedBlocks = s.skippedBlocks →
      (∀ b, e ≠ .skippedBlock b) →
      (¬ ScraperEvent e → s'.lastScrapedBlockNumber = s.lastScrapedBlockNumber) ∧
      (∀ b, s'.skippedBlocks.contains b = true ↔ s.skippedBlocks.contains b = true ∨ e = .skippedBlock b) :=
    fun h h' => ⟨fun _ => h.1, fun b => by rw [h.2]; simp [h' b]⟩
  have dep : ∀ {d : Deposit}, s.recordEventToMint d = .ok s' →
      s'.lastScrapedBlockNumber = s.lastScrapedBlockNumber ∧ s'.skippedBlocks = s.skippedBlocks := by
    intro d h
    obtain ⟨_, _, _, _, h⟩ := recordEventToMint_ok h
    rcases updateBalanceUponDeposit_ok h with ⟨_, _, _, _, rfl⟩ | ⟨_, _, _, _, rfl⟩ <;> exact ⟨rfl, rfl⟩
  cases e <;> simp only [applyEvent] at h
  case init => cases h
  case upgrade a =>
    split at h
    · rename_i s1 h1
      simp only [Except.ok.injEq] at h; subst h
      obtain ⟨_, _, rfl, _⟩ := upgrade_ok h1
      exact ⟨fun h => absurd trivial h, fun b => by simp⟩
    · cases h
  case acceptedDeposit d => exact weak (dep h) (by simp)
  case acceptedErc20Deposit d => exact weak (dep h) (by simp)
  case invalidDeposit src m =>
    obtain ⟨_, _, ⟨rfl, _⟩ | ⟨_, rfl⟩⟩ := recordInvalidDeposit_ok h <;> exact weak ⟨rfl, rfl⟩ (by simp)
  case mintedNative src m =>
    obtain ⟨_, _, _, _, rfl⟩ := recordSuccessfulMint_ok h; exact weak ⟨rfl, rfl⟩ (by simp)
  case mintedErc20 src m _ _ =>
    obtain ⟨_, _, _, _, rfl⟩ := recordSuccessfulMint_ok h; exact weak ⟨rfl, rfl⟩ (by simp)
  case syncedToBlock c =>
    simp only [Except.ok.injEq] at h; subst h; exact ⟨fun h => absurd trivial h, fun b => by simp⟩
  case finalizedTransaction i r =>
    obtain ⟨t, _, h⟩ := stateRecordFinalized_ok h
    have := updateBalanceUponWithdrawal_frame h
    exact weak ⟨by rw [this], by rw [this]⟩ (by simp)
  case skippedBlock c =>
    obtain ⟨_, rfl⟩ := recordSkippedBlock_ok h
    refine ⟨fun h => absurd trivial h, fun b => ?_⟩
    simp only [FMap.contains, FMap.get_insert]
    by_cases hb : b = c
    · subst hb; simp
    · have : Event.skippedBlock c ≠ .skippedBlock b := by simpa using fun h => hb h.symm
      simp [hb, this]
  case addedErc20Token t =>
    obtain ⟨_, _, _, _, _, _, rfl⟩ := recordAddErc20Token_ok h
    exact weak ⟨rfl, rfl⟩ (by simp)
  case acceptedErc20WithdrawalRequest r =>
    obtain ⟨_, _, _, rfl⟩ := recordErc20WithdrawalRequest_ok h; exact weak ⟨rfl, rfl⟩ (by simp)
  case quarantinedDeposit src =>
    simp only [Except.ok.injEq] at h; subst h
    have := recordQuarantinedDeposit_frame s src
    exact weak ⟨by rw [this], by rw [this]⟩ (by simp)
  case quarantinedReimbursement x =>
    simp only [Except.ok.injEq] at h; subst h; exact weak ⟨rfl, rfl⟩ (by simp)
  all_goals exact weak (lift h) (by simp)

/-- Processing events that are neither upgrades nor skipped blocks. -/
theorem processEvents_scraped (l : List Event) (hl : ∀ e ∈ l, (∀ b, e ≠ .skippedBlock b)) :
    ∀ {m m' : Minter}, m.processEvents l = .ok m' →
      (∀ b, m'.st.skippedBlocks.contains b = true ↔ m.st.skippedBlocks.contains b = true) := by
  induction l with
  | nil => intro m m' h b; cases h; rfl
  | cons e t ih =>
    intro m m' h b
    simp only [Minter.processEvents, Minter.processEvent, Res.bind_ok, Res.pure_ok] at h
    obtain ⟨_, ⟨s, h1, rfl⟩, h2⟩ := h
    rw [ih (fun e he => hl e (List.mem_cons_of_mem _ he)) h2 b, (applyEvent_scraped h1).2 b]
    simp [hl e List.mem_cons_self b]

/-- The events that an answer adds to the log. -/
def answerEvents (r : BlockRange) (a : LogsAnswer) (f : LogEntry → Except LogError Deposit) : List Event :=
  match a with
  | .logs l => (l.filterMap fun e => (f e).toOption).map Deposit.intoEvent ++
      ((l.filterMap fun e => match f e with
        | .ok _ => none
        | .error x => some x).filterMap fun
          | .pending => none
          | .invalid src e => some (.invalidDeposit src e.message))
  | .tooLarge => if r.start = r.stop then [.skippedBlock r.stop] else []
  | .failed => []

theorem parsed_value {e : LogEntry} {d : Deposit} (h : parseLog e = .ok (.ok d)) : d.value < U256 := (C11_safe e d h).2.2.1

/-- What an answer does. -/
theorem onAnswer_ok {m m' : Minter} {r : BlockRange} {a : LogsAnswer} (h : m.onAnswer r a = .ok m')
    (hr : Run m.log m.st) :
    Run m'.log m'.st ∧
    (∃ f, (∀ e, parseLog e = .ok (f e)) ∧ m'.log = m.log ++ answerEvents r a f) ∧
    (Settles r a → m'.st.lastScrapedBlockNumber = r.stop) ∧ (¬ Settles r a → m' = m) ∧
    (∀ b, m'.st.skippedBlocks.contains b = true ↔
      m.st.skippedBlocks.contains b = true ∨ (a = .tooLarge ∧ r = ⟨b, b⟩)) := by
  cases a with
  | failed =>
    simp only [Minter.onAnswer, Except.ok.injEq] at h
    subst h
    obtain ⟨f, hf, -⟩ := parseAllLogs_eq []
    exact ⟨hr, ⟨f, hf, by simp [answerEvents]⟩, by simp [Settles], fun _ => rfl, by simp⟩
  | tooLarge =>
    simp only [Minter.onAnswer] at h
    obtain ⟨f, hf, -⟩ := parseAllLogs_eq []
    split at h
    · rename_i he
      simp only [Res.bind_ok, Res.pure_ok] at h
      obtain ⟨m1, h1, rfl⟩ := h
      obtain ⟨k1, k2, k3⟩ := hr.processEvent (e := .skippedBlock r.stop) trivial h1
      refine ⟨.scraped _ _ _ k1, ⟨f, hf, ?_⟩, fun _ => rfl, fun hn => absurd he hn, fun b => ?_⟩
      · simp only [Minter.setScraped, answerEvents, if_pos he, k2]
      · simp only [Minter.setScraped]
        rw [(applyEvent_scraped k3).2 b]
        have : (Event.skippedBlock r.stop = .skippedBlock b) ↔ (LogsAnswer.tooLarge = .tooLarge ∧ r = ⟨b, b⟩) := by
          cases r; simp only at he; subst he; simp
        rw [this]; simp
    · rename_i he
      simp only [Except.ok.injEq] at h
      subst h
      refine ⟨hr, ⟨f, hf, by simp [answerEvents, if_neg he]⟩, fun hn => absurd hn he, fun _ => rfl, fun b => ?_⟩
      have : ¬ r = ⟨b, b⟩ := by rintro rfl; exact he rfl
      simp [this]
  | logs l =>
    obtain ⟨f, hf, hpl⟩ := parseAllLogs_eq l
    simp only [Minter.onAnswer, hpl, Res.ok_bind, Minter.registerDeposits, Res.bind_ok, Res.pure_ok] at h
    obtain ⟨m2, ⟨m1, h1, h2⟩, rfl⟩ := h
    have e1 : ∀ e ∈ (l.filterMap fun e => (f e).toOption).map Deposit.intoEvent, (∀ b, e ≠ .skippedBlock b) ∧
        ∀ s : State, Emits s e := by
      intro e he
      obtain ⟨d, hd, rfl⟩ := List.mem_map.1 he
      obtain ⟨en, -, hen⟩ := List.mem_filterMap.1 hd
      have hfd : f en = .ok d := by
        cases hfe : f en with
        | ok d' => rw [hfe] at hen; simpa [Except.toOption] using hen
        | error x => rw [hfe] at hen; simp [Except.toOption] at hen
      have hv := parsed_value (by rw [hf en, hfd])
      cases d
      · exact ⟨by simp [Deposit.intoEvent], fun s => hv⟩
      · exact ⟨by simp [Deposit.intoEvent], fun s => hv⟩
    have e2 : ∀ e ∈ ((l.filterMap fun e => match f e with
        | .ok _ => none
        | .error x => some x).filterMap fun
          | .pending => none
          | .invalid src e => some (.invalidDeposit src e.message)), (∀ b, e ≠ Event.skippedBlock b) ∧
        ∀ s : State, Emits s e := by
      intro e he
      obtain ⟨x, -, hx⟩ := List.mem_filterMap.1 he
      cases x with
      | pending => simp at hx
      | invalid src er =>
        simp only [Option.some.injEq] at hx
        subst hx
        exact ⟨by simp, fun s => trivial⟩
    obtain ⟨r1, l1⟩ := Run.processEvents (fun e he => (e1 e he).2) hr h1
    obtain ⟨r2, l2⟩ := Run.processEvents (fun e he => (e2 e he).2) r1 h2
    refine ⟨.scraped _ _ _ r2, ⟨f, hf, ?_⟩, fun _ => rfl, fun hn => absurd trivial hn, fun b => ?_⟩
    · simp only [Minter.setScraped, answerEvents]
      rw [l2, l1, List.append_assoc]
    · simp only [Minter.setScraped]
      rw [processEvents_scraped _ (fun e he => (e2 e he).1) h2 b,
        processEvents_scraped _ (fun e he => (e1 e he).1) h1 b]
      simp

/-- The blocks recorded as skipped are those of the event log. -/
theorem run_skipped {log : List Event} {s : State} (h : Run log s) (b : BlockNumber) :
    s.skippedBlocks.contains b = true ↔ .skippedBlock b ∈ log := by
  induction h with
  | init a s h =>
    obtain ⟨_, _, _, _, _, _, h5, _⟩ := ofInit_ok h
    rw [h5]; simp [FMap.contains]
  | event log s e s' hr he ha ih =>
    rw [(applyEvent_scraped ha).2 b, ih, List.mem_append, List.mem_singleton]
    constructor <;> rintro (h | h) <;> first | exact .inl h | exact .inr h.symm
  | reschedule log s r t hr h1 h2 ih => exact ih
  | scraped log s b hr ih => exact ih
  | restart log s s' hr hs ih =>
    obtain ⟨s₀, h1, -, -, h4⟩ := run_replay hr
    rw [hs] at h1
    simp only [Except.ok.injEq] at h1
    subst h1
    rw [h4] at ih
    exact ih

/-- What an upgrade that leaves the last scraped block alone does. -/
theorem upgrade_keeps {log : List Event} {s : State} (h : Run log s) {arg : Option MinterArg} {log' : List Event}
    {s' : State} (hk : KeepsScraped arg)
    (hp : postUpgrade (log ++ [.syncedToBlock s.lastScrapedBlockNumber]) arg = .ok (log', s')) :
    Run log' s' ∧ s'.lastScrapedBlockNumber = s.lastScrapedBlockNumber ∧ s'.skippedBlocks = s.skippedBlocks ∧
    ∃ l, log' = log ++ l ∧ ∀ e ∈ l, (∃ b, e = .syncedToBlock b) ∨ ∃ a, e = .upgrade a := by
  have hr : Run (log ++ [.syncedToBlock s.lastScrapedBlockNumber]) s := .event _ _ _ _ h rfl rfl
  obtain ⟨s₀, h1, _, _, h4⟩ := run_replay hr
  have hr0 : Run (log ++ [.syncedToBlock s.lastScrapedBlockNumber]) s₀ := .restart _ _ _ hr h1
  have hsk : s₀.skippedBlocks = s.skippedBlocks := by rw [h4]; rfl
  have hls : s₀.lastScrapedBlockNumber = s.lastScrapedBlockNumber := by
    obtain ⟨s1, g1, -⟩ := run_replay h
    rw [replay_snoc (replay_ne_nil g1), g1] at h1
    have h1 : applyEvent s1 (.syncedToBlock s.lastScrapedBlockNumber) = .ok s₀ := h1
    simp only [applyEvent, Except.ok.injEq] at h1
    rw [← h1]
  cases arg with
  | none =>
    simp only [postUpgrade, h1, Res.ok_bind, pure, Except.pure, Except.ok.injEq, Prod.mk.injEq] at hp
    obtain ⟨rfl, rfl⟩ := hp
    exact ⟨hr0, hls, hsk, _, rfl, fun e he => .inl ⟨_, List.mem_singleton.1 he⟩⟩
  | some x =>
    cases x with
    | init a => simp [postUpgrade] at hp
    | upgrade a =>
      simp only [postUpgrade, h1, Res.ok_bind, Res.bind_ok, Res.pure_ok] at hp
      obtain ⟨s2, h2, h3⟩ := hp
      simp only [Prod.mk.injEq] at h3
      obtain ⟨rfl, rfl⟩ := h3
      refine ⟨.event _ _ _ _ hr0 trivial h2, ?_, ?_, [.syncedToBlock s.lastScrapedBlockNumber, .upgrade a], by simp, ?_⟩
      · simp only [applyEvent] at h2
        split at h2
        · rename_i s3 h3
          simp only [Except.ok.injEq] at h2; subst h2
          obtain ⟨_, _, rfl, _⟩ := upgrade_ok h3
          have hk : a.lastScrapedBlockNumber = none := hk
          simp [hk, hls]
        · cases h2
      · simp only [applyEvent] at h2
        split at h2
        · rename_i s3 h3
          simp only [Except.ok.injEq] at h2; subst h2
          obtain ⟨_, _, rfl, _⟩ := upgrade_ok h3
          simp [hsk]
        · cases h2
      · intro e he
        simp only [List.mem_cons, List.not_mem_nil, or_false] at he
        rcases he with rfl | rfl
        · exact .inl ⟨_, rfl⟩
        · exact .inr ⟨_, rfl⟩

/-- The invariant of the scraper. -/
structure ScrapeInv (w₀ w : Scraper) (h : List Obs) : Prop where
  run : Run w.m.log w.m.st
  task : ∀ q, w.task = some (.querying q) → q.WF ∧ q.current.start ≤ w.m.st.lastScrapedBlockNumber + 1 ∧
    (w.m.st.lastScrapedBlockNumber < q.current.start ∨ q.current.start = u256Max)
  forward : w₀.m.st.lastScrapedBlockNumber ≤ w.m.st.lastScrapedBlockNumber
  bounded : w.m.st.lastScrapedBlockNumber < U256
  observed : ∀ b, w.lastObserved = some b → b < U256
  covered : ∀ b, w₀.m.st.lastScrapedBlockNumber < b → b ≤ w.m.st.lastScrapedBlockNumber →
    (∃ r l, Obs.answered r (.logs l) ∈ h ∧ b ∈ blocks r.range) ∨ w.m.st.skippedBlocks.contains b = true
  skipped : ∀ b, w.m.st.skippedBlocks.contains b = true →
    w₀.m.st.skippedBlocks.contains b = true ∨ ∃ r, r.range = ⟨b, b⟩ ∧ Obs.answered r .tooLarge ∈ h
  log : ∃ l, w.m.log = w₀.m.log ++ l ∧
    (∀ r ls e d, Obs.answered r (.logs ls) ∈ h → e ∈ ls → parseLog e = .ok (.ok d) → d.intoEvent ∈ l) ∧
    (∀ d : Deposit, d.intoEvent ∈ l → ∃ r ls e, Obs.answered r (.logs ls) ∈ h ∧ e ∈ ls ∧ parseLog e = .ok (.ok d)) ∧
    (∀ b, Event.skippedBlock b ∈ l → ∃ r, r.range = ⟨b, b⟩ ∧ Obs.answered r .tooLarge ∈ h) ∧
    (∀ src m, Event.invalidDeposit src m ∈ l → ∃ r ls e x, Obs.answered r (.logs ls) ∈ h ∧ e ∈ ls ∧
      parseLog e = .ok (.error (.invalid src x)))

theorem ScrapeInv.mono {w₀ w w' : Scraper} {h h' : List Obs} (i : ScrapeInv w₀ w h)
    (hh : ∀ r a, Obs.answered r a ∈ h' ↔ Obs.answered r a ∈ h) (hrun : Run w'.m.log w'.m.st)
    (ht : ∀ q, w'.task = some (.querying q) → w.task = some (.querying q))
    (ho : ∀ b, w'.lastObserved = some b → b < U256)
    (hl : w'.m.st.lastScrapedBlockNumber = w.m.st.lastScrapedBlockNumber)
    (hs : ∀ b, w'.m.st.skippedBlocks.contains b = true ↔ w.m.st.skippedBlocks.contains b = true)
    (hlog : ∃ l, w'.m.log = w.m.log ++ l ∧ ∀ e ∈ l, (∀ d : Deposit, e ≠ d.intoEvent) ∧ (∀ b, e ≠ .skippedBlock b) ∧
      ∀ src m, e ≠ .invalidDeposit src m) :
    ScrapeInv w₀ w' h' where
  run := hrun
  task q hq := by rw [hl]; exact i.task q (ht q hq)
  forward := by rw [hl]; exact i.forward
  bounded := by rw [hl]; exact i.bounded
  observed := ho
  covered b h1 h2 := by
    rw [hl] at h2
    rcases i.covered b h1 h2 with ⟨r, l, h, h''⟩ | h
    · exact .inl ⟨r, l, (hh _ _).2 h, h''⟩
    · exact .inr ((hs b).2 h)
  skipped b hb := (i.skipped b ((hs b).1 hb)).imp_right fun ⟨r, h1, h2⟩ => ⟨r, h1, (hh _ _).2 h2⟩
  log := by
    obtain ⟨l, h1, h2, h3, h4, h5⟩ := i.log
    obtain ⟨l', g1, g2⟩ := hlog
    refine ⟨l ++ l', by rw [g1, h1, List.append_assoc], ?_, ?_, ?_, ?_⟩
    · intro r ls e d a b c
      exact List.mem_append_left _ (h2 r ls e d ((hh _ _).1 a) b c)
    · intro d hd
      rcases List.mem_append.1 hd with hd | hd
      · obtain ⟨r, ls, e, k1, k2, k3⟩ := h3 d hd
        exact ⟨r, ls, e, (hh _ _).2 k1, k2, k3⟩
      · exact absurd rfl ((g2 _ hd).1 d)
    · intro b hd
      rcases List.mem_append.1 hd with hd | hd
      · obtain ⟨r, k1, k2⟩ := h4 b hd
        exact ⟨r, k1, (hh _ _).2 k2⟩
      · exact absurd rfl ((g2 _ hd).2.1 b)
    · intro src m hd
      rcases List.mem_append.1 hd with hd | hd
      · obtain ⟨r, ls, e, x, k1, k2, k3⟩ := h5 src m hd
        exact ⟨r, ls, e, x, (hh _ _).2 k1, k2, k3⟩
      · exact absurd rfl ((g2 _ hd).2.2 src m)

theorem scrapeInv {w₀ : Scraper} (h0 : Idle w₀) {w : Scraper} {h} (hw : Scraping w₀ w h) : ScrapeInv w₀ w h := by
  induction hw with
  | refl =>
    exact ⟨h0.run, fun q hq => (by rw [h0.task] at hq; cases hq), Nat.le_refl _, h0.scraped, h0.observed, fun b h1 h2 => absurd h2 (by womega), fun b hb => .inl hb,
      ⟨[], by simp, by simp, by simp [Deposit.intoEvent], by simp, by simp⟩⟩
  | busy w h now _ _ ih =>
    refine ih.mono (fun _ _ => Iff.rfl) ?_ ?_ ?_ ?_ ?_ ⟨[], ?_, by simp⟩
    all_goals unfold Scraper.start
    · split <;> exact ih.run
    · intro q hq
      split at hq
      · exact hq
      · simp at hq
    · intro b hb
      split at hb <;> exact ih.observed b hb
    · split <;> rfl
    · intro b; split <;> rfl
    · split <;> simp
  | start w h now _ _ ih =>
    refine ih.mono (by simp) ?_ ?_ ?_ ?_ ?_ ⟨[], ?_, by simp⟩
    all_goals unfold Scraper.start
    · split <;> exact ih.run
    · intro q hq
      split at hq
      · exact hq
      · simp at hq
    · intro b hb
      split at hb <;> exact ih.observed b hb
    · split <;> rfl
    · intro b; split <;> rfl
    · split <;> simp
  | block w w' h n latest _ hlat htask hb ih =>
    unfold Scraper.onBlock at hb
    have hobs : ∀ b, w.observe latest = some b → b < U256 := by
      intro b hh
      unfold Scraper.observe at hh
      cases latest with
      | none => exact ih.observed b hh
      | some x =>
        have := hlat x rfl
        simp only at hh
        split at hh
        · simp only [Option.some.injEq] at hh; womega
        · rw [csub_eq_some] at hh; womega
    simp only at hb
    split at hb
    · rename_i b hobsb
      simp only [Res.bind_ok, Res.pure_ok] at hb
      obtain ⟨o, h1, rfl⟩ := hb
      have ih := ih.mono (w' := { w with lastObserved := w.observe latest, task := none }) (h' := h ++ [.latest latest])
        (by simp) ih.run (by simp) hobs rfl (fun _ => Iff.rfl) ⟨[], by simp, by simp⟩
      refine ⟨ih.run, ?_, ih.forward, ih.bounded, hobs, ih.covered, ih.skipped, ih.log⟩
      intro q hq
      cases o with
      | none => simp at hq
      | some q' =>
        simp only [Option.map_some, Option.some.injEq, ScrapeTask.querying.injEq] at hq
        subst hq
        obtain ⟨k1, k2, _⟩ := startQuery_ok _ b (hobs b hobsb) _ _ h1 q' rfl
        obtain ⟨b', ⟨-, g2, -⟩, -⟩ := k1.adj
        refine ⟨k1, ?_, ?_⟩
        · rw [k2]; exact Nat.min_le_left _ _
        · rw [k2]
          have := ih.bounded
          have := u256_eq
          womega
    · split at hb
      · simp only [Res.pure_ok] at hb
        subst hb
        exact ih.mono (by simp) ih.run (by simp) hobs rfl (fun _ => Iff.rfl) ⟨[], by simp, by simp⟩
      · simp only [Res.pure_ok] at hb
        subst hb
        exact ih.mono (by simp) ih.run (by simp) hobs rfl (fun _ => Iff.rfl) ⟨[], by simp, by simp⟩
  | logs w w' h q a _ htask hl ih =>
    simp only [Scraper.onLogs, Res.bind_ok, Res.pure_ok] at hl
    obtain ⟨m', hm, o, hq, rfl⟩ := hl
    obtain ⟨wq, hstart, hstart'⟩ := ih.task q htask
    have hbd := ih.bounded
    have hue := u256_eq
    obtain ⟨b', ⟨-, hcur, hstop, -⟩, -⟩ := wq.adj
    obtain ⟨hrun, ⟨f, hf, hlog⟩, hset, hnset, hskip⟩ := onAnswer_ok hm ih.run
    obtain ⟨o', ho', hnext⟩ := query_next q wq a
    rw [hq] at ho'
    simp only [Except.ok.injEq] at ho'
    subst ho'
    refine ⟨hrun, ?_, ?_, ?_, ih.observed, ?_, ?_, ?_⟩
    · intro q' hq'
      cases o with
      | none => simp at hq'
      | some q'' =>
        simp only [Option.map_some, Option.some.injEq, ScrapeTask.querying.injEq] at hq'
        subst hq'
        obtain ⟨k1, -, -, -, k2, k3⟩ := hnext q'' rfl
        refine ⟨k1, ?_⟩
        by_cases hs : Settles q.current a
        · rw [(k2 hs).1, hset hs]; womega
        · rw [(k3 hs).2.1, hnset hs]; exact ⟨hstart, hstart'⟩
    · by_cases hs : Settles q.current a
      · have := ih.forward
        rw [hset hs]; womega
      · rw [hnset hs]; exact ih.forward
    · by_cases hs : Settles q.current a
      · rw [hset hs]; exact hstop
      · rw [hnset hs]; exact ih.bounded
    · intro b h1 h2
      by_cases hs : Settles q.current a
      · rw [hset hs] at h2
        by_cases hb : b ≤ w.m.st.lastScrapedBlockNumber
        · rcases ih.covered b h1 hb with ⟨r, l, hr, hbr⟩ | hb
          · exact .inl ⟨r, l, List.mem_append_left _ hr, hbr⟩
          · exact .inr ((hskip b).2 (.inl hb))
        · cases a with
          | logs l =>
            refine .inl ⟨q.request, l, List.mem_append_right _ List.mem_cons_self, ?_⟩
            rw [mem_blocks]; simp only [Query.request]; womega
          | tooLarge =>
            have hs : q.current.start = q.current.stop := hs
            refine .inr ((hskip b).2 (.inr ⟨rfl, ?_⟩))
            have hb' : b = q.current.stop := by womega
            cases hcur : q.current with
            | mk x y => rw [hcur] at hs hb'; simp only at hs hb'; rw [hs, hb']
          | failed => exact absurd hs (by simp [Settles])
      · have := hnset hs
        subst this
        rcases ih.covered b h1 h2 with ⟨r, l, hr, hbr⟩ | hb
        · exact .inl ⟨r, l, List.mem_append_left _ hr, hbr⟩
        · exact .inr hb
    · intro b hb
      rcases (hskip b).1 hb with hb | ⟨rfl, hr⟩
      · rcases ih.skipped b hb with hb | ⟨r, hb1, hb2⟩
        · exact .inl hb
        · exact .inr ⟨r, hb1, List.mem_append_left _ hb2⟩
      · exact .inr ⟨q.request, hr, List.mem_append_right _ List.mem_cons_self⟩
    · obtain ⟨l, g1, g2, g3, g4, g5⟩ := ih.log
      refine ⟨l ++ answerEvents q.current a f, by simp only; rw [hlog, g1, List.append_assoc], ?_, ?_, ?_, ?_⟩
      · intro r ls e d hr he hd
        rcases List.mem_append.1 hr with hr | hr
        · exact List.mem_append_left _ (g2 r ls e d hr he hd)
        · simp only [List.mem_singleton, Obs.answered.injEq] at hr
          obtain ⟨rfl, rfl⟩ := hr
          refine List.mem_append_right _ ?_
          rw [hf e] at hd
          simp only [Except.ok.injEq] at hd
          simp only [answerEvents]
          refine List.mem_append_left _ (List.mem_map.2 ⟨d, List.mem_filterMap.2 ⟨e, he, by rw [hd]; rfl⟩, rfl⟩)
      · intro d hd
        rcases List.mem_append.1 hd with hd | hd
        · obtain ⟨r, ls, e, k1, k2, k3⟩ := g3 d hd
          exact ⟨r, ls, e, List.mem_append_left _ k1, k2, k3⟩
        · cases a with
          | failed => simp [answerEvents] at hd
          | tooLarge =>
            simp only [answerEvents] at hd
            split at hd
            · simp only [List.mem_singleton] at hd; cases d <;> simp [Deposit.intoEvent] at hd
            · simp at hd
          | logs ls =>
            simp only [answerEvents] at hd
            rcases List.mem_append.1 hd with hd | hd
            · obtain ⟨d', hd', heq⟩ := List.mem_map.1 hd
              have : d' = d := by cases d' <;> cases d <;> simp_all [Deposit.intoEvent]
              subst this
              obtain ⟨e, he, hfe⟩ := List.mem_filterMap.1 hd'
              refine ⟨q.request, ls, e, List.mem_append_right _ List.mem_cons_self, he, ?_⟩
              rw [hf e]
              cases hx : f e with
              | ok d'' => rw [hx] at hfe; simp only [Except.toOption, Option.some.injEq] at hfe; rw [hfe]
              | error _ => rw [hx] at hfe; simp [Except.toOption] at hfe
            · obtain ⟨x, -, hx⟩ := List.mem_filterMap.1 hd
              cases x <;> cases d <;> simp [Deposit.intoEvent] at hx
      · intro b hd
        rcases List.mem_append.1 hd with hd | hd
        · obtain ⟨r, k1, k2⟩ := g4 b hd
          exact ⟨r, k1, List.mem_append_left _ k2⟩
        · cases a with
          | failed => simp [answerEvents] at hd
          | tooLarge =>
            simp only [answerEvents] at hd
            split at hd
            · rename_i heq
              simp only [List.mem_singleton, Event.skippedBlock.injEq] at hd
              refine ⟨q.request, ?_, List.mem_append_right _ (List.mem_singleton.2 rfl)⟩
              simp only [Query.request]
              cases hcur : q.current with
              | mk x y => rw [hcur] at hd heq; simp only at hd heq; rw [heq, hd]
            · simp at hd
          | logs ls =>
            simp only [answerEvents] at hd
            rcases List.mem_append.1 hd with hd | hd
            · obtain ⟨d', -, heq⟩ := List.mem_map.1 hd
              cases d' <;> simp [Deposit.intoEvent] at heq
            · obtain ⟨x, -, hx⟩ := List.mem_filterMap.1 hd
              cases x <;> simp at hx
      · intro src m hd
        rcases List.mem_append.1 hd with hd | hd
        · obtain ⟨r, ls, e, x, k1, k2, k3⟩ := g5 src m hd
          exact ⟨r, ls, e, x, List.mem_append_left _ k1, k2, k3⟩
        · cases a with
          | failed => simp [answerEvents] at hd
          | tooLarge =>
            simp only [answerEvents] at hd
            split at hd <;> simp at hd
          | logs ls =>
            simp only [answerEvents] at hd
            rcases List.mem_append.1 hd with hd | hd
            · obtain ⟨d', -, heq⟩ := List.mem_map.1 hd
              cases d' <;> simp [Deposit.intoEvent] at heq
            · obtain ⟨x, hx0, hx⟩ := List.mem_filterMap.1 hd
              obtain ⟨e, he, hfe⟩ := List.mem_filterMap.1 hx0
              cases x with
              | pending => simp at hx
              | invalid src' er =>
                simp only [Option.some.injEq, Event.invalidDeposit.injEq] at hx
                obtain ⟨rfl, -⟩ := hx
                refine ⟨q.request, ls, e, er, List.mem_append_right _ List.mem_cons_self, he, ?_⟩
                rw [hf e]
                cases hx : f e with
                | ok d'' => rw [hx] at hfe; simp at hfe
                | error y => rw [hx] at hfe; simp only [Option.some.injEq] at hfe; rw [hfe]
  | trap w h _ ih => exact ih.mono (fun _ _ => Iff.rfl) ih.run (by simp) ih.observed rfl (fun _ => Iff.rfl) ⟨[], by simp, by simp⟩
  | other w h es m' _ hne hl hr hb ih =>
    refine ih.mono (fun _ _ => Iff.rfl) hr (fun q hq => hq) ih.observed hb ?_ ⟨es, hl, ?_⟩
    · intro b
      rw [run_skipped hr b, run_skipped ih.run b, hl, List.mem_append]
      constructor
      · rintro (hb | hb)
        · exact hb
        · exact absurd trivial (hne _ hb)
      · exact .inl
    · intro e he
      refine ⟨fun d => ?_, fun b => ?_, fun src m => ?_⟩
      · rintro rfl; cases d <;> exact hne _ he trivial
      · rintro rfl; exact hne _ he trivial
      · rintro rfl; exact hne _ he trivial
  | upgrade w h arg log s _ hk hp ih =>
    obtain ⟨k1, k2, k3, l, k4, k5⟩ := upgrade_keeps ih.run hk hp
    refine ih.mono (fun _ _ => Iff.rfl) k1 (by simp) (by simp) k2 (fun b => by simp only [k3]) ⟨l, k4, ?_⟩
    intro e he
    rcases k5 e he with ⟨b, rfl⟩ | ⟨a, rfl⟩
    · exact ⟨fun d => by cases d <;> simp [Deposit.intoEvent], by simp, by simp⟩
    · exact ⟨fun d => by cases d <;> simp [Deposit.intoEvent], by simp, by simp⟩

/-- **C07.** Whatever the providers answer, over any number of runs of the scraper, with traps, upgrades and the rest of
the minter in between: every block above the initial last scraped block and at or below the current one was part of a range
whose logs were received, or is recorded as skipped. -/
theorem C07_no_silent_skip {w₀ w : Scraper} {h : List Obs} (h0 : Idle w₀) (hw : Scraping w₀ w h) :
    ∀ b, w₀.m.st.lastScrapedBlockNumber < b → b ≤ w.m.st.lastScrapedBlockNumber →
      (∃ r l, Obs.answered r (.logs l) ∈ h ∧ b ∈ blocks r.range) ∨ w.m.st.skippedBlocks.contains b = true :=
  (scrapeInv h0 hw).covered

/-- **C07.** The last scraped block never goes back. -/
theorem C07_forward {w₀ w : Scraper} {h : List Obs} (h0 : Idle w₀) (hw : Scraping w₀ w h) :
    w₀.m.st.lastScrapedBlockNumber ≤ w.m.st.lastScrapedBlockNumber := (scrapeInv h0 hw).forward

/-- **C07.** Every deposit among the logs received is accepted, and every deposit accepted was among them. -/
theorem C07_deposits_accepted {w₀ w : Scraper} {h : List Obs} (h0 : Idle w₀) (hw : Scraping w₀ w h) :
    ∃ l, w.m.log = w₀.m.log ++ l ∧
      ∀ d : Deposit, d.intoEvent ∈ l ↔
        ∃ r ls e, Obs.answered r (.logs ls) ∈ h ∧ e ∈ ls ∧ parseLog e = .ok (.ok d) := by
  obtain ⟨l, h1, h2, h3, -⟩ := (scrapeInv h0 hw).log
  exact ⟨l, h1, fun d => ⟨h3 d, fun ⟨r, ls, e, a, b, c⟩ => h2 r ls e d a b c⟩⟩

/-- **C09.** A block is skipped only if the query for exactly that block was answered with the error for a response that
is too large. -/
theorem C09_skipped_only_if_too_large {w₀ w : Scraper} {h : List Obs} (h0 : Idle w₀) (hw : Scraping w₀ w h) :
    (∀ b, w.m.st.skippedBlocks.contains b = true →
      w₀.m.st.skippedBlocks.contains b = true ∨ ∃ r, r.range = ⟨b, b⟩ ∧ Obs.answered r .tooLarge ∈ h) ∧
    ∃ l, w.m.log = w₀.m.log ++ l ∧
      ∀ b, Event.skippedBlock b ∈ l → ∃ r, r.range = ⟨b, b⟩ ∧ Obs.answered r .tooLarge ∈ h := by
  have i := scrapeInv h0 hw
  obtain ⟨l, h1, -, -, h4, -⟩ := i.log
  exact ⟨i.skipped, l, h1, h4⟩

/-- The executions considered are executions of the minter, so all that is proved about those applies. -/
theorem scraping_run {w₀ w : Scraper} {h : List Obs} (h0 : Idle w₀) (hw : Scraping w₀ w h) :
    Run w.m.log w.m.st := (scrapeInv h0 hw).run

end

theorem answers_bound (k : Nat) (l : List LogsAnswer) : ∀ (q : Query) (j : Nat), q.WF → j ≤ k → q.chunks.size ≤ 2 ^ k →
    blockCount (q.current :: q.rest) ≤ 2 ^ k → q.current.stop + 1 - q.current.start ≤ 2 ^ j → Answers q l →
    l.length ≤ (q.todo - 1) * (k + 1) + j + 1 := by
  induction l with
  | nil => intros; simp
  | cons a t ih =>
    intro q j w hj hs hc hcur ha
    cases ha with
    | last _ _ h => simp only [List.length_cons, List.length_nil]; womega
    | cons _ q' _ _ hn ht =>
      obtain ⟨o, ho, hq⟩ := query_next q w a
      rw [hn] at ho
      simp only [Except.ok.injEq] at ho
      obtain ⟨k1, -, -, k4, k5, k6⟩ := hq q' ho.symm
      have hpos : 0 < q.current.stop + 1 - q.current.start := by
        obtain ⟨b, ⟨-, g2, -⟩, -⟩ := w.adj; womega
      have htodo : q.current.stop + 1 - q.current.start ≤ q.todo := by simp only [Query.todo, blockCount]; womega
      by_cases hset : Settles q.current a
      · obtain ⟨-, m2, m3, m4⟩ := k5 hset
        have hc' : blockCount (q'.current :: q'.rest) ≤ 2 ^ k ∧ q'.current.stop + 1 - q'.current.start ≤ 2 ^ k := by
          by_cases hr : q.rest = []
          · obtain ⟨n1, n2⟩ := m4 hr
            simp only [n1, blockCount]; womega
          · have := m3 hr
            rw [this]
            have e : blockCount q.rest = blockCount (q'.current :: q'.rest) := by rw [this]
            simp only [blockCount] at hc e ⊢
            womega
        have := ih q' k k1 (Nat.le_refl _) (by rw [k4]; exact hs) hc'.1 hc'.2 ht
        have hpos' : 0 < q'.todo := by
          have h1 : 0 < q'.current.stop + 1 - q'.current.start := by
            obtain ⟨b, ⟨-, g2, -⟩, -⟩ := k1.adj; womega
          simp only [Query.todo, blockCount]; womega
        simp only [List.length_cons]
        have e1 : (q'.todo - 1) * (k + 1) + k + 1 = q'.todo * (k + 1) := by
          obtain ⟨n, hn⟩ : ∃ n, q'.todo = n + 1 := ⟨q'.todo - 1, by womega⟩
          rw [hn, Nat.add_sub_cancel, Nat.succ_mul]; womega
        have e2 : q'.todo * (k + 1) ≤ (q.todo - 1) * (k + 1) := Nat.mul_le_mul_right _ (by womega)
        womega
      · obtain ⟨-, m2, m3, m4, m5⟩ := k6 hset
        have hne : q.current.start ≠ q.current.stop := by
          rintro he
          obtain rfl := (k6 hset).1
          exact hset he
        have hj1 : 1 ≤ j := by
          rcases Nat.eq_zero_or_pos j with h0 | h0
          · subst h0; simp only [Nat.pow_zero] at hcur; womega
          · exact h0
        have hp : 2 ^ j = 2 * 2 ^ (j - 1) := by
          rw [← Nat.pow_succ']; congr 1; womega
        have := ih q' (j - 1) k1 (by womega) (by rw [k4]; exact hs) (by rw [m5]; exact hc) (by womega) ht
        simp only [List.length_cons]
        rw [m3] at this
        womega

/-- **C09.** A run of the scraper ends whatever the answers are: if chunks have at most `2^k` blocks it asks at most `k + 1`
questions per block. -/
theorem C09_terminates (s : State) (lastBlock : BlockNumber) (hb : lastBlock < U256) (size k : Nat) (hk : size ≤ 2 ^ k)
    (q : Query) (h : s.startQuery lastBlock size = .ok (some q)) (l : List LogsAnswer) (ha : Answers q l) :
    l.length ≤ (lastBlock + 1 - min (s.lastScrapedBlockNumber + 1) u256Max) * (k + 1) := by
  obtain ⟨w, h1, h2, h3, h4, h5, -⟩ := startQuery_ok s lastBlock hb size _ h q rfl
  have hc : blockCount (q.current :: q.rest) ≤ 2 ^ k := by rw [h2]; simp only [blockCount]; womega
  have := answers_bound k l q k w (Nat.le_refl _) (by womega) hc (by womega) ha
  have hpos : 0 < q.todo := by
    have h1 : 0 < q.current.stop + 1 - q.current.start := by
      obtain ⟨b, ⟨-, g2, -⟩, -⟩ := w.adj; womega
    simp only [Query.todo, blockCount]; womega
  rw [← h5]
  have e1 : (q.todo - 1) * (k + 1) + k + 1 = q.todo * (k + 1) := by
    obtain ⟨n, hn⟩ : ∃ n, q.todo = n + 1 := ⟨q.todo - 1, by womega⟩
    rw [hn, Nat.add_sub_cancel, Nat.succ_mul]; womega
  womega

/-- With the chunk size of the code: at most eleven questions per block. -/
theorem C09_terminates_code (s : State) (lastBlock : BlockNumber) (hb : lastBlock < U256)
    (q : Query) (h : s.startQuery lastBlock maxBlockSpread = .ok (some q)) (l : List LogsAnswer) (ha : Answers q l) :
    l.length ≤ (lastBlock + 1 - min (s.lastScrapedBlockNumber + 1) u256Max) * 11 :=
  C09_terminates s lastBlock hb maxBlockSpread 10 (by decide) q h l ha

/-- The query a run of the scraper is waiting for after some answers. -/
inductive After (q : Query) : List LogsAnswer → Query → Prop
  | refl : After q [] q
  | step (l : List LogsAnswer) (a : LogsAnswer) (q₁ q₂ : Query) : After q l q₁ → q₁.next a = .ok (some q₂) →
      After q (l ++ [a]) q₂

/-- **C09.** No answer, after any answers, makes the control flow of the scraper panic. -/
theorem C09_no_panic (s : State) (lastBlock : BlockNumber) (hb : lastBlock < U256) (size : Nat)
    (q : Query) (h : s.startQuery lastBlock size = .ok (some q)) (l : List LogsAnswer) (q' : Query) (ha : After q l q')
    (a : LogsAnswer) : ∃ o, q'.next a = .ok o := by
  obtain ⟨w, -⟩ := startQuery_ok s lastBlock hb size _ h q rfl
  have w' : q'.WF := by
    clear a
    induction ha with
    | refl => exact w
    | step l a q₁ q₂ _ hn ih =>
      obtain ⟨o, ho, hq⟩ := query_next q₁ ih a
      rw [hn] at ho
      simp only [Except.ok.injEq] at ho
      exact (hq q₂ ho.symm).1
  obtain ⟨o, ho, -⟩ := query_next q' w' a
  exact ⟨o, ho⟩

/-! ## A concrete run -/

namespace Example

/-- What happens to the scraper, for the example. -/
inductive Happens where
  | start (now : Nat)
  | block (latest : Option BlockNumber)
  | logs (a : LogsAnswer)

/-- Plays what happens. -/
def play : Scraper → List Obs → List Happens → Option (Scraper × List Obs)
  | w, h, [] => some (w, h)
  | w, h, .start now :: t => if w.task.isNone then play (w.start now) (h ++ [.started now]) t else none
  | w, h, .block latest :: t =>
    match w.task, latest with
    | some (.observing n), some b =>
      if b < U256 then
        match w.onBlock n (some b) with
        | .ok w' => play w' (h ++ [.latest (some b)]) t
        | .error _ => none
      else none
    | some (.observing n), none =>
        match w.onBlock n none with
        | .ok w' => play w' (h ++ [.latest none]) t
        | .error _ => none
    | _, _ => none
  | w, h, .logs a :: t =>
    match w.task with
    | some (.querying q) =>
      match w.onLogs q a with
      | .ok w' => play w' (h ++ [.answered q.request a]) t
      | .error _ => none
    | _ => none

theorem play_sound {w₀ : Scraper} (l : List Happens) : ∀ {w h w' h'}, Scraping w₀ w h → play w h l = some (w', h') →
    Scraping w₀ w' h' := by
  induction l with
  | nil =>
    intro w h w' h' hs hp
    simp only [play, Option.some.injEq, Prod.mk.injEq] at hp
    obtain ⟨rfl, rfl⟩ := hp
    exact hs
  | cons x t ih =>
    intro w h w' h' hs hp
    cases x with
    | start now =>
      simp only [play] at hp
      split at hp
      · rename_i ht
        exact ih (.start _ _ _ hs ht) hp
      · cases hp
    | block latest =>
      simp only [play] at hp
      split at hp
      · rename_i n b ht
        split at hp
        · rename_i hb
          split at hp
          · rename_i w1 hw1
            exact ih (.block _ _ _ _ (some b) hs (by simp [hb]) ht hw1) hp
          · cases hp
        · cases hp
      · rename_i n ht
        split at hp
        · rename_i w1 hw1
          exact ih (.block _ _ _ _ none hs (by simp) ht hw1) hp
        · cases hp
      · cases hp
    | logs a =>
      simp only [play] at hp
      split at hp
      · rename_i q ht
        split at hp
        · rename_i w1 hw1
          exact ih (.logs _ _ _ _ _ hs ht hw1) hp
        · cases hp
      · cases hp

/-- The ranges asked for. -/
def asked (h : List Obs) : List BlockRange := h.filterMap fun
  | .answered r _ => some r.range
  | _ => none

/-- The minter starts at block 100, the chain is at block 105. Blocks 101 to 105 are too many, 101 to 103 too, 101 to 102
too, 101 is too large by itself; 102 to 105 are then scraped at once and contain one deposit; another block follows and
the query fails. -/
def happens : List Happens :=
  [.start 7, .block none, .block (some 105), .logs .tooLarge, .logs .tooLarge, .logs .tooLarge, .logs .tooLarge,
    .logs (.logs [exampleDepositLog [1, 2, 3] (by decide)]), .start 8, .block (some 106), .logs .failed]

example : ∃ s w h, Run (log.take 1) s ∧ Scraping ⟨⟨s, log.take 1⟩, none, none, none⟩ w h ∧
    s.lastScrapedBlockNumber = 100 ∧ w.m.st.lastScrapedBlockNumber = 105 ∧ w.task.isNone = true ∧
    asked h = [⟨101, 105⟩, ⟨101, 103⟩, ⟨101, 102⟩, ⟨101, 101⟩, ⟨102, 105⟩, ⟨106, 106⟩] ∧
    w.m.log = log.take 1 ++ [.skippedBlock 101, .acceptedDeposit ⟨11, 100, 3, 7, 5, ⟨[1, 2, 3]⟩, some 9⟩] := by
  obtain ⟨s, hr, hp⟩ := start_run (k := 0) (p := fun s => match play ⟨⟨s, log.take 1⟩, none, none, none⟩ [] happens with
    | some (w, h) => decide (s.lastScrapedBlockNumber = 100 ∧ w.m.st.lastScrapedBlockNumber = 105 ∧
        w.task.isNone = true ∧
        asked h = [⟨101, 105⟩, ⟨101, 103⟩, ⟨101, 102⟩, ⟨101, 101⟩, ⟨102, 105⟩, ⟨106, 106⟩] ∧
        w.m.log = log.take 1 ++ [.skippedBlock 101, .acceptedDeposit ⟨11, 100, 3, 7, 5, ⟨[1, 2, 3]⟩, some 9⟩])
    | none => false) (by decide +kernel)
  split at hp
  · rename_i w h hw
    exact ⟨s, w, h, hr, play_sound _ .refl hw, by simpa using hp⟩
  · cases hp

end Example

end EvmMinter
