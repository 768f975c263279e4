import Verif.Props.C07
import Verif.Props.C06
import Verif.Spec.Filter
/-!
# C10, C45: which deposits the log filter matches, and which deposits stop the scraper
-/

namespace EvmMinter
open Spec

section
variable [Keccak]

/-- Registered contract addresses have 20 bytes. -/
theorem run_token_lt {log : List Event} {s : State} (h : Run log s) {t : Erc20Token} (ht : t ∈ tokensOf log) :
    t.erc20ContractAddress < 2 ^ 160 := by
  have hm : Event.addedErc20Token t ∈ log := by
    clear h
    induction log with
    | nil => cases ht
    | cons e l ih =>
      cases e <;> simp only [tokensOf, List.mem_cons] at ht ⊢
      case addedErc20Token u =>
        rcases ht with rfl | ht
        · exact .inl rfl
        · exact .inr (ih ht)
      all_goals exact .inr (ih ht)
  obtain ⟨_, _, _, _, _, _, he, _⟩ := run_mem h hm (by simp)
  exact he

/-- The contracts in the filter are the registered ones. -/
theorem mem_altKeys {log : List Event} {s : State} (h : Run log s) (c : Address) :
    c ∈ s.erc20Tokens.altKeys ↔ ∃ t ∈ tokensOf log, t.erc20ContractAddress = c := by
  have R := registry_of_run h
  have e1 : c ∈ s.erc20Tokens.altKeys ↔ s.erc20Tokens.containsAlt c = true := by
    unfold DMKM.altKeys MKM.altKeys DMKM.containsAlt MKM.containsAlt
    rw [FMap.mem_keys, FMap.contains_eq_true]
  rw [e1, DMKM.containsAlt_eq R.wf]
  constructor
  · rintro ⟨k, v, hh⟩
    exact ⟨_, (R.has k c v).1 hh, rfl⟩
  · rintro ⟨t, ht, rfl⟩
    refine ⟨t.erc20LedgerId, t.symbol, (R.has _ _ _).2 ?_⟩
    rw [← R.chain t ht]
    exact ht

/-- **C10**, exactly: a deposit emitted by the helper contract is matched by the filter the scraper sends if and only if no
token is registered or the deposited token is a registered one. The zero address stands for the native token. -/
theorem C10_matched_exactly {log : List Event} {s : State} (h : Run log s) (sc : Scrape) (hs : s.nextScrape = .ok sc)
    (x : DepositLog) (hx : x.Typed) :
    FilterMatches (evmTopics sc.topics) x.topics ↔
      tokensOf log = [] ∨ ∃ t ∈ tokensOf log, t.erc20ContractAddress = x.token := by
  unfold State.nextScrape at hs
  simp only [Res.bind_ok, Res.expect_ok, Res.pure_ok] at hs
  obtain ⟨c, -, rfl⟩ := hs
  have hempty : s.erc20Tokens.altKeys = [] ↔ tokensOf log = [] := by
    constructor
    · intro he
      cases hl : tokensOf log with
      | nil => rfl
      | cons t l =>
        have : t.erc20ContractAddress ∈ s.erc20Tokens.altKeys :=
          (mem_altKeys h _).2 ⟨t, by rw [hl]; exact List.mem_cons_self, rfl⟩
        rw [he] at this; cases this
    · intro he
      cases hl : s.erc20Tokens.altKeys with
      | nil => rfl
      | cons a l =>
        obtain ⟨t, ht, -⟩ := (mem_altKeys h a).1 (by rw [hl]; exact List.mem_cons_self)
        rw [he] at ht; cases ht
  have key : FilterMatches (evmTopics [.single depositTopic, .multiple (s.erc20Tokens.altKeys.map wordOfAddress)]) x.topics ↔
      (s.erc20Tokens.altKeys = [] ∨ word x.token ∈ s.erc20Tokens.altKeys.map wordOfAddress) := by
    constructor
    · rintro ⟨-, hm⟩
      have := hm 1 (s.erc20Tokens.altKeys.map wordOfAddress) (word x.token) rfl rfl
      rwa [List.map_eq_nil_iff] at this
    · intro hm
      refine ⟨by simp [evmTopics, DepositLog.topics], ?_⟩
      intro i l t hl ht
      match i with
      | 0 =>
        simp only [evmTopics, DepositLog.topics, List.map_cons, List.getElem?_cons_zero, Option.some.injEq] at hl ht
        subst hl; subst ht
        exact .inr (List.mem_singleton.2 rfl)
      | 1 =>
        simp only [evmTopics, DepositLog.topics, List.map_cons, List.getElem?_cons_succ, List.getElem?_cons_zero,
          Option.some.injEq] at hl ht
        subst hl; subst ht
        rwa [List.map_eq_nil_iff]
      | (n + 2) =>
        simp [evmTopics] at hl
  rw [key, hempty]
  refine or_congr Iff.rfl ?_
  rw [List.mem_map]
  constructor
  · rintro ⟨a, ha, hw⟩
    obtain ⟨t, ht, rfl⟩ := (mem_altKeys h a).1 ha
    have hlt := run_token_lt h ht
    rw [wordOfAddress_eq hlt] at hw
    exact ⟨t, ht, word_inj (Nat.lt_of_lt_of_le hlt (by decide)) (Nat.lt_of_lt_of_le hx.2.1 (by decide)) hw⟩
  · rintro ⟨t, ht, htk⟩
    exact ⟨t.erc20ContractAddress, (mem_altKeys h _).2 ⟨t, ht, rfl⟩, by rw [wordOfAddress_eq (run_token_lt h ht), htk]⟩

/-- **C10** as one would want it: every deposit of the native token or of a registered token is matched. -/
def Spec.FilterComplete : Prop :=
  ∀ (log : List Event) (s : State), Run log s → ∀ sc, s.nextScrape = .ok sc → ∀ x : DepositLog, x.Emittable →
    (x.token = 0 ∨ ∃ t ∈ tokensOf log, t.erc20ContractAddress = x.token) → FilterMatches (evmTopics sc.topics) x.topics

/-- **C10**, partially: deposits of registered tokens are always matched, and native deposits as long as no token is
registered. Missing: native deposits once a token is registered; see `C10_violated`. -/
theorem C10_partial {log : List Event} {s : State} (h : Run log s) (sc : Scrape) (hs : s.nextScrape = .ok sc)
    (x : DepositLog) (hx : x.Emittable)
    (ht : (∃ t ∈ tokensOf log, t.erc20ContractAddress = x.token) ∨ x.token = 0 ∧ tokensOf log = []) :
    FilterMatches (evmTopics sc.topics) x.topics :=
  (C10_matched_exactly h sc hs x hx.1).2 (ht.elim .inr fun h => .inl h.2)

end

/-- **C10** is violated: after a token is registered, native deposits are not matched. -/
theorem C10_violated : ¬ @Spec.FilterComplete Example.keccak := by
  intro hall
  obtain ⟨s, hr, hp⟩ := Example.start_run (k := 5) (p := fun s => match s.nextScrape with
    | .ok _ => true
    | .error _ => false) (by decide +kernel)
  split at hp
  · rename_i sc hsc
    let x : DepositLog := ⟨7, 0, 5, ⟨principalWord ⟨[1, 2, 3]⟩, by decide⟩, 0⟩
    have hx : x.Emittable := ⟨by unfold DepositLog.Typed; decide, by decide⟩
    have := hall _ s hr sc hsc x hx (.inl rfl)
    rw [C10_matched_exactly hr sc hsc x hx.1] at this
    revert this
    decide +kernel
  · cases hp

section
variable [Keccak]

theorem processEvent_eq {m : Minter} {e : Event} {s' : State} (h : applyEvent m.st e = .ok s') :
    m.processEvent e = .ok ⟨s', m.log ++ [e]⟩ := by
  simp only [Minter.processEvent, h, Res.ok_bind]; rfl

/-- Applying the event of a deposit is recording it. -/
theorem applyEvent_deposit (s : State) (d : Deposit) : applyEvent s d.intoEvent = s.recordEventToMint d := by
  cases d <;> rfl

/-- New, supported deposits that fit are recorded. -/
theorem acceptAll (ds : List Deposit) : ∀ m : Minter, (ds.map Deposit.source).Nodup →
    (∀ d ∈ ds, Unknown m.st d.source) → (∀ d ∈ ds, m.st.depositSupported d = true) → Fits m.st ds →
    ∃ m', m.processEvents (ds.map Deposit.intoEvent) = .ok m' ∧
      (∀ src, src ∉ ds.map Deposit.source → Unknown m.st src → Unknown m'.st src) := by
  induction ds with
  | nil => intro m _ _ _ _; exact ⟨m, rfl, fun _ _ h => h⟩
  | cons d t ih =>
    intro m hn hu hs hf
    rw [List.map_cons, List.nodup_cons] at hn
    obtain ⟨u1, u2, u3⟩ := hu d List.mem_cons_self
    have hsup := hs d List.mem_cons_self
    have step : ∃ s', m.st.recordEventToMint d = .ok s' ∧ s'.eventsToMint = m.st.eventsToMint.insert d.source d ∧
        s'.mintedEvents = m.st.mintedEvents ∧ s'.invalidEvents = m.st.invalidEvents ∧ s'.erc20Tokens = m.st.erc20Tokens ∧
        Fits s' t := by
      have c1 : m.st.eventsToMint.contains d.source = false := FMap.contains_eq_false.2 u1
      have c2 : m.st.mintedEvents.contains d.source = false := FMap.contains_eq_false.2 u2
      have c3 : m.st.invalidEvents.contains d.source = false := FMap.contains_eq_false.2 u3
      simp only [State.recordEventToMint, c1, c2, c3, hsup, ensure, Bool.not_false, if_true, Res.ok_bind]
      obtain ⟨f1, f2⟩ := hf
      cases d with
      | native e =>
        simp only [nativeTotal, tokenTotal] at f1 f2
        have : cadd m.st.nativeBalance.balance e.value = some (m.st.nativeBalance.balance + e.value) := by
          rw [cadd_eq_some]; unfold U256; exact ⟨rfl, by womega⟩
        simp only [State.updateBalanceUponDeposit, this, expect, Res.ok_bind]
        exact ⟨_, rfl, rfl, rfl, rfl, rfl, by simp only; womega, f2⟩
      | erc20 e =>
        simp only [nativeTotal, tokenTotal] at f1 f2
        have hadd : ∃ b, State.erc20Add m.st.erc20Balances e.erc20ContractAddress e.value = .ok b ∧
            ∀ c, (b.get c).getD 0 + tokenTotal c t < 2 ^ 256 := by
          have hc := f2 e.erc20ContractAddress
          rw [if_pos rfl] at hc
          unfold State.erc20Add
          cases hg : m.st.erc20Balances.get e.erc20ContractAddress with
          | none =>
            refine ⟨_, rfl, fun c => ?_⟩
            rw [FMap.get_insert]
            split
            · rename_i he; subst he
              rw [hg] at hc; simpa using hc
            · rename_i he
              have := f2 c
              rw [if_neg (fun h => he h.symm)] at this
              simpa using this
          | some prev =>
            rw [hg] at hc
            simp only [Option.getD_some] at hc
            have : cadd prev e.value = some (prev + e.value) := by
              rw [cadd_eq_some]; unfold U256; exact ⟨rfl, by womega⟩
            simp only [this, expect, Res.ok_bind]
            refine ⟨_, rfl, fun c => ?_⟩
            rw [FMap.get_insert]
            split
            · rename_i he; subst he
              simp only [Option.getD_some]; womega
            · rename_i he
              have := f2 c
              rw [if_neg (fun h => he h.symm)] at this
              simpa using this
        obtain ⟨b, hb, hb'⟩ := hadd
        simp only [State.updateBalanceUponDeposit, hb, Res.ok_bind]
        exact ⟨_, rfl, rfl, rfl, rfl, rfl, f1, hb'⟩
    obtain ⟨s', h1, h2, h3, h4, h5, h6⟩ := step
    have ha : applyEvent m.st d.intoEvent = .ok s' := by rw [applyEvent_deposit]; exact h1
    have keep : ∀ src, src ≠ d.source → Unknown m.st src → Unknown s' src := by
      intro src hne ⟨a, b, c⟩
      refine ⟨?_, by rw [h3]; exact b, by rw [h4]; exact c⟩
      rw [h2, FMap.get_insert, if_neg hne]; exact a
    obtain ⟨m', g1, g2⟩ := ih ⟨s', m.log ++ [d.intoEvent]⟩ hn.2
      (fun d' hd' => keep _ (fun he => hn.1 (he ▸ List.mem_map_of_mem hd')) (hu d' (List.mem_cons_of_mem _ hd')))
      (fun d' hd' => by
        have := hs d' (List.mem_cons_of_mem _ hd')
        cases d' with
        | native _ => rfl
        | erc20 e => simp only [State.depositSupported] at this ⊢; rw [h5]; exact this) h6
    refine ⟨m', ?_, ?_⟩
    · simp only [List.map_cons, Minter.processEvents, processEvent_eq ha, Res.ok_bind]
      exact g1
    · intro src hsrc hun
      simp only [List.map_cons, List.mem_cons, not_or] at hsrc
      exact g2 src hsrc.2 (keep src hsrc.1 hun)

/-- Rejected logs whose sources are not known are recorded. -/
theorem rejectAll (es : List (EventSource × String)) : ∀ m : Minter,
    (∀ x ∈ es, m.st.eventsToMint.get x.1 = none ∧ m.st.mintedEvents.get x.1 = none) →
    ∃ m', m.processEvents (es.map fun x => .invalidDeposit x.1 x.2) = .ok m' := by
  induction es with
  | nil => intro m _; exact ⟨m, rfl⟩
  | cons x t ih =>
    intro m hu
    obtain ⟨u1, u2⟩ := hu x List.mem_cons_self
    have c1 : m.st.eventsToMint.contains x.1 = false := FMap.contains_eq_false.2 u1
    have c2 : m.st.mintedEvents.contains x.1 = false := FMap.contains_eq_false.2 u2
    have step : ∃ s', applyEvent m.st (.invalidDeposit x.1 x.2) = .ok s' ∧ s'.eventsToMint = m.st.eventsToMint ∧
        s'.mintedEvents = m.st.mintedEvents := by
      simp only [applyEvent, State.recordInvalidDeposit, c1, c2, ensure, Bool.not_false, if_true, Res.ok_bind]
      split
      · exact ⟨_, rfl, rfl, rfl⟩
      · exact ⟨_, rfl, rfl, rfl⟩
    obtain ⟨s', h1, h2, h3⟩ := step
    obtain ⟨m', g⟩ := ih ⟨s', m.log ++ [.invalidDeposit x.1 x.2]⟩ (fun y hy => by
      rw [h2, h3]; exact hu y (List.mem_cons_of_mem _ hy))
    refine ⟨m', ?_⟩
    simp only [List.map_cons, Minter.processEvents, processEvent_eq h1, Res.ok_bind]
    exact g

omit [Keccak] in
theorem parsed_source {e : LogEntry} {d : Deposit} (h : parseLog e = .ok (.ok d)) : sourceOf e = some d.source := by
  obtain ⟨-, -, -, h1, h2, -⟩ := C11_safe e d h
  simp only [sourceOf, h1, h2]

omit [Keccak] in
theorem rejected_source {e : LogEntry} {src : EventSource} {x : SourceError}
    (h : parseLog e = .ok (.error (.invalid src x))) : sourceOf e = some src := by
  rcases C11_rejected e _ h with ⟨h, -⟩ | ⟨src', m, h, h1, h2⟩
  · cases h
  · simp only [LogError.invalid.injEq] at h
    simp only [sourceOf, h1, h2, h.1]

/-- Logs that are new, fit and are of supported tokens are registered without a panic. -/
theorem onAnswer_total (m : Minter) (r : BlockRange) (l : List LogEntry) (hn : NewLogs m.st l)
    (hs : ∀ d ∈ depositsOf l, m.st.depositSupported d = true) (hf : Fits m.st (depositsOf l)) :
    ∃ m', m.onAnswer r (.logs l) = .ok m' := by
  obtain ⟨f, hpf, hpl⟩ := parseAllLogs_eq l
  have hdep : (l.filterMap fun e => (f e).toOption) = depositsOf l := by
    unfold depositsOf
    congr 1
    funext e
    rw [hpf e]
    cases f e <;> rfl
  have hmem : ∀ d ∈ depositsOf l, ∃ e ∈ l, parseLog e = .ok (.ok d) := by
    intro d hd
    obtain ⟨e, he, hd⟩ := List.mem_filterMap.1 hd
    refine ⟨e, he, ?_⟩
    split at hd
    · rename_i d' hd'
      simp only [Option.some.injEq] at hd
      rw [hd', hd]
    · cases hd
  obtain ⟨rj, hpl', hrej⟩ : ∃ rj, parseAllLogs l = .ok (depositsOf l, rj) ∧
      ∀ x ∈ rj, ∃ e ∈ l, parseLog e = .ok (.error x) := by
    refine ⟨_, by rw [hpl, hdep], fun x hx => ?_⟩
    obtain ⟨e, he, hx⟩ := List.mem_filterMap.1 hx
    refine ⟨e, he, ?_⟩
    rw [hpf e]
    split at hx
    · cases hx
    · rename_i y hy
      simp only [Option.some.injEq] at hx
      rw [hy, hx]
  have hsub : ((depositsOf l).map Deposit.source).Sublist (l.filterMap sourceOf) := by
    clear hmem hrej hdep hs hf hn hpl hpl'
    unfold depositsOf
    induction l with
    | nil => exact List.Sublist.refl _
    | cons e t ih =>
      rw [List.filterMap_cons, List.filterMap_cons]
      split
      · rename_i h1
        split
        · exact ih
        · exact ih.cons _
      · rename_i d h1
        split at h1
        · rename_i d' hd'
          simp only [Option.some.injEq] at h1
          subst h1
          rw [parsed_source hd', List.map_cons]
          exact ih.cons_cons _
        · cases h1
  -- the sources of rejected logs are not those of deposits
  have hapart : ∀ e ∈ l, ∀ src x, parseLog e = .ok (.error (.invalid src x)) → src ∉ (depositsOf l).map Deposit.source := by
    intro e he src x hx hm
    obtain ⟨d, hd, hds⟩ := List.mem_map.1 hm
    obtain ⟨e', he', hd'⟩ := hmem d hd
    have s1 := rejected_source hx
    have s2 := parsed_source hd'
    rw [hds] at s2
    have hdist := hn.distinct
    have : e = e' := by
      clear hmem hrej hdep hs hf hn hpl hpl' hsub hm hd hds
      induction l with
      | nil => cases he
      | cons y t ih =>
        rw [List.filterMap_cons] at hdist
        rcases List.mem_cons.1 he with rfl | he
        · rcases List.mem_cons.1 he' with rfl | he'
          · rfl
          · rw [s1] at hdist
            simp only [List.nodup_cons] at hdist
            exact absurd (List.mem_filterMap.2 ⟨e', he', s2⟩) hdist.1
        · rcases List.mem_cons.1 he' with heq | he'
          · rw [← heq, s2] at hdist
            exact absurd (List.mem_filterMap.2 ⟨e, by assumption, s1⟩) (List.nodup_cons.1 hdist).1
          · refine ih he he' ?_
            split at hdist
            · exact hdist
            · exact (List.nodup_cons.1 hdist).2
    subst this
    rw [hd'] at hx
    cases hx
  obtain ⟨m1, h1, h2⟩ := acceptAll (depositsOf l) m (hsub.nodup hn.distinct)
    (fun d hd => by
      obtain ⟨e, he, hd'⟩ := hmem d hd
      exact hn.unknown e he _ (parsed_source hd')) hs hf
  have hmap : ∀ g : LogError → Option Event, g .pending = none →
      (∀ src er, g (.invalid src er) = some (.invalidDeposit src er.message)) → ∀ es : List LogError,
      ∃ ps : List (EventSource × String), es.filterMap g = ps.map (fun x => Event.invalidDeposit x.1 x.2) ∧
      ∀ x ∈ ps, ∃ er, LogError.invalid x.1 er ∈ es := by
    intro g hg1 hg2 es
    induction es with
    | nil => exact ⟨[], rfl, by simp⟩
    | cons y t ih =>
      obtain ⟨ps, g1, g2⟩ := ih
      cases y with
      | pending =>
        refine ⟨ps, ?_, fun x hx => ?_⟩
        · rw [List.filterMap_cons, hg1]; exact g1
        · obtain ⟨er, h⟩ := g2 x hx; exact ⟨er, List.mem_cons_of_mem _ h⟩
      | invalid src er =>
        refine ⟨(src, er.message) :: ps, ?_, fun x hx => ?_⟩
        · rw [List.filterMap_cons, List.map_cons, hg2]; simp only; rw [g1]
        · rcases List.mem_cons.1 hx with rfl | hx
          · exact ⟨er, List.mem_cons_self⟩
          · obtain ⟨er, h⟩ := g2 x hx; exact ⟨er, List.mem_cons_of_mem _ h⟩
  simp only [Minter.onAnswer, hpl', Res.ok_bind, Minter.registerDeposits, h1]
  obtain ⟨ps, hps, hps'⟩ := hmap (fun
    | .pending => none
    | .invalid src e => some (.invalidDeposit src e.message)) rfl (fun _ _ => rfl) rj
  obtain ⟨m2, h3⟩ := rejectAll ps m1 (fun x hx => by
    obtain ⟨er, hx'⟩ := hps' x hx
    obtain ⟨e, he, hpe⟩ := hrej _ hx'
    have := h2 x.1 (hapart e he _ _ hpe) (hn.unknown e he _ (rejected_source hpe))
    exact ⟨this.1, this.2.1⟩)
  rw [← hps] at h3
  refine ⟨m2.setScraped r.stop, ?_⟩
  have : ∀ (x : Res Minter), x = .ok m2 → (do let m ← x; pure (m.setScraped r.stop) : Res Minter) =
      .ok (m2.setScraped r.stop) := by
    rintro x rfl; rfl
  exact this _ h3

/-- **C45**, partially: if a token is registered when the run of the scraper starts, then no logs matched by its filter make
it panic, as long as the logs are new and the balances do not overflow. Missing: the case that no token is registered; see
`C45_violated`. -/
theorem C45_partial {log : List Event} {s : State} (h : Run log s) (sc : Scrape) (hs : s.nextScrape = .ok sc)
    (hreg : tokensOf log ≠ []) (m : Minter) (hm : Run m.log m.st) (hp : log <+: m.log) (r : BlockRange) (l : List LogEntry)
    (hl : ∀ e ∈ l, FilterMatches (evmTopics sc.topics) e.topics) (hn : NewLogs m.st l) (hf : Fits m.st (depositsOf l)) :
    ∃ m', m.onAnswer r (.logs l) = .ok m' := by
  refine onAnswer_total m r l hn (fun d hd => ?_) hf
  obtain ⟨e, he, hd⟩ := List.mem_filterMap.1 hd
  split at hd
  · rename_i d' hd'
    simp only [Option.some.injEq] at hd
    subst hd
    obtain ⟨x, b, src, p, hmined, hty, -, -, rfl⟩ := (C11_exact e _).1 hd'
    have hmatch := hl e he
    rw [hmined.topics, C10_matched_exactly h sc hs x hty] at hmatch
    rcases hmatch with hmatch | ⟨t, ht, htk⟩
    · exact absurd hmatch hreg
    · unfold DepositLog.deposit
      split
      · rfl
      · have R := registry_of_run hm
        obtain ⟨rest, hrest⟩ := hp
        have ht' : t ∈ tokensOf m.log := by rw [← hrest, tokensOf_append]; exact List.mem_append_left _ ht
        simp only [State.depositSupported]
        refine (DMKM.containsAlt_eq R.wf).2 ⟨t.erc20LedgerId, t.symbol, (R.has _ _ _).2 ?_⟩
        rw [← R.chain t ht', ← htk]
        exact ht'
  · cases hd

/-- A deposit of a token that is not registered makes every answer that contains it panic. -/
theorem C45_unregistered_panics {m : Minter} (hm : Run m.log m.st) (x : DepositLog) (p : Principal) (hx : x.Emittable)
    (hp : x.principal.1 = principalWord p) (hc : Creditable p) (h0 : x.token ≠ 0)
    (ht : ∀ t ∈ tokensOf m.log, t.erc20ContractAddress ≠ x.token) (e : LogEntry) (b : BlockNumber) (src : EventSource)
    (he : MinedLog e b src x) (r : BlockRange) (l : List LogEntry) (hl : e ∈ l) :
    ∃ err, m.onAnswer r (.logs l) = .error err := by
  cases hres : m.onAnswer r (.logs l) with
  | error err => exact ⟨err, rfl⟩
  | ok m' =>
    exfalso
    obtain ⟨hrun, ⟨f, hf, hlog⟩, -⟩ := onAnswer_ok hres hm
    have hpar := C11_faithful e x b src p he hx hp hc
    have hd : x.deposit b src p = .erc20 ⟨src.transactionHash, b, src.logIndex, x.fromAddress, x.amount, p, x.token,
        if x.subaccount = 0 then none else some x.subaccount⟩ := by
      unfold DepositLog.deposit; rw [if_neg h0]
    have hin : (x.deposit b src p).intoEvent ∈ m'.log := by
      rw [hlog]
      refine List.mem_append_right _ ?_
      simp only [answerEvents]
      refine List.mem_append_left _ (List.mem_map.2 ⟨_, List.mem_filterMap.2 ⟨e, hl, ?_⟩, rfl⟩)
      rw [hf e] at hpar
      simp only [Except.ok.injEq] at hpar
      rw [hpar]; rfl
    rw [hd] at hin
    have R := registry_of_run hrun
    have := R.accepted _ hin
    obtain ⟨k, v, hh⟩ := (DMKM.containsAlt_eq R.wf).1 this
    have htok := (R.has _ _ _).1 hh
    rw [hlog, tokensOf_append, List.mem_append] at htok
    rcases htok with htok | htok
    · exact ht _ htok rfl
    · have : ∀ ev ∈ answerEvents r (.logs l) f, ∀ t, ev ≠ .addedErc20Token t := by
        intro ev hev t
        simp only [answerEvents] at hev
        rcases List.mem_append.1 hev with hev | hev
        · obtain ⟨d', -, rfl⟩ := List.mem_map.1 hev
          cases d' <;> simp [Deposit.intoEvent]
        · obtain ⟨y, -, hy⟩ := List.mem_filterMap.1 hev
          cases y <;> simp at hy
          rw [← hy]; simp
      have hnil : tokensOf (answerEvents r (.logs l) f) = [] := by
        generalize answerEvents r (.logs l) f = evs at this
        induction evs with
        | nil => rfl
        | cons ev t ih =>
          rw [show ev :: t = [ev] ++ t from rfl, tokensOf_append, tokensOf_single (this ev List.mem_cons_self),
            ih (fun e he => this e (List.mem_cons_of_mem _ he)), List.nil_append]
      rw [hnil] at htok
      cases htok

/-- **C45** as one would want it: whatever new logs match the filter of the scraper, and as long as balances do not
overflow, receiving them does not make it panic. -/
def Spec.ForeignDepositsHarmless : Prop :=
  ∀ (m : Minter), Run m.log m.st → ∀ sc, m.st.nextScrape = .ok sc → ∀ (r : BlockRange) (l : List LogEntry),
    (∀ e ∈ l, FilterMatches (evmTopics sc.topics) e.topics) → NewLogs m.st l → Fits m.st (depositsOf l) →
    ∃ m', m.onAnswer r (.logs l) = .ok m'

end

/-- The log of a deposit of five units of a token at address 0xbad. -/
def foreignDeposit : DepositLog := ⟨7, 0xbad, 5, ⟨principalWord ⟨[1, 2, 3]⟩, by decide⟩, 0⟩

/-- Its log on the chain. -/
def foreignLog : LogEntry :=
  { address := 1, topics := foreignDeposit.topics, data := foreignDeposit.data, blockNumber := some 101
    transactionHash := some 11, transactionIndex := some 0, blockHash := some 12, logIndex := some 3, removed := false }

/-- **C45** is violated: right after init, before any token is registered, the deposit of a token of the depositor's making
is matched by the filter, and every answer that contains it makes the scraper panic. -/
theorem C45_violated : (∃ s, @Run Example.keccak (Example.log.take 1) s ∧ ∃ sc, s.nextScrape = .ok sc ∧
      FilterMatches (evmTopics sc.topics) foreignLog.topics ∧
      ∀ r l, foreignLog ∈ l → ∃ err, @Minter.onAnswer Example.keccak ⟨s, Example.log.take 1⟩ r (.logs l) = .error err) ∧
    ¬ @Spec.ForeignDepositsHarmless Example.keccak := by
  have hty : foreignDeposit.Typed := by unfold DepositLog.Typed; decide
  have hem : foreignDeposit.Emittable := ⟨hty, by decide⟩
  obtain ⟨s, hr, hp⟩ := Example.start_run (k := 0) (p := fun s => match s.nextScrape with
    | .ok _ => decide (s.eventsToMint.isEmpty ∧ s.mintedEvents.isEmpty ∧ s.invalidEvents.isEmpty ∧
        s.nativeBalance.balance = 0 ∧ s.erc20Balances.isEmpty)
    | .error _ => false) (by decide +kernel)
  split at hp
  · rename_i sc hsc
    have hp := of_decide_eq_true hp
    have hmatch : FilterMatches (evmTopics sc.topics) foreignLog.topics :=
      (@C10_matched_exactly Example.keccak _ _ hr sc hsc foreignDeposit hty).2 (.inl rfl)
    have hbad : ∀ r l, foreignLog ∈ l →
        ∃ err, @Minter.onAnswer Example.keccak ⟨s, Example.log.take 1⟩ r (.logs l) = .error err := fun r l hl =>
      @C45_unregistered_panics Example.keccak ⟨s, _⟩ hr foreignDeposit ⟨[1, 2, 3]⟩ hem rfl (by decide) (by decide)
        (fun t ht => by cases ht) foreignLog 101 ⟨11, 3⟩ ⟨rfl, rfl, rfl, by simp [foreignLog], by simp [foreignLog], rfl, rfl, rfl⟩
        r l hl
    refine ⟨⟨s, hr, sc, hsc, hmatch, hbad⟩, fun hall => ?_⟩
    obtain ⟨m', hm'⟩ := hall ⟨s, Example.log.take 1⟩ hr sc hsc ⟨100, 102⟩ [foreignLog]
      (fun e he => by rw [List.mem_singleton.1 he]; exact hmatch)
      ⟨by decide, fun e _ src _ => ⟨FMap.isEmpty_iff.1 hp.1 src, FMap.isEmpty_iff.1 hp.2.1 src,
        FMap.isEmpty_iff.1 hp.2.2.1 src⟩⟩
      (by
        have hd : depositsOf [foreignLog] = [.erc20 ⟨11, 101, 3, 7, 5, ⟨[1, 2, 3]⟩, 0xbad, none⟩] := by decide +kernel
        rw [hd]
        refine ⟨?_, fun c => ?_⟩
        · simp only [nativeTotal]; rw [hp.2.2.2.1]; decide
        · simp only [tokenTotal]
          rw [FMap.isEmpty_iff.1 hp.2.2.2.2 c]
          split <;> decide)
    obtain ⟨err, he⟩ := hbad ⟨100, 102⟩ [foreignLog] (List.mem_singleton.2 rfl)
    rw [hm'] at he
    cases he
  · cases hp

end EvmMinter
