import Verif.Props.C10
import Verif.Props.C29
import Verif.Spec.Chain
/-!
# C48: deposits on the chain are credited; C45: an honest provider does not stop the scraper
-/

namespace EvmMinter
open Spec

section
variable [Keccak]

/-- The event accepts the deposit `src` or finds it invalid. -/
def Names (src : EventSource) (ev : Event) : Prop := isAcceptOf src ev = true ∨ ∃ m, ev = .invalidDeposit src m

omit [Keccak] in
theorem isAcceptOf_deposit {src : EventSource} {ev : Event} : isAcceptOf src ev = true ↔
    ∃ d : Deposit, ev = d.intoEvent ∧ d.source = src := by
  constructor
  · intro h
    cases ev <;> simp only [isAcceptOf, beq_iff_eq, reduceCtorEq] at h
    case acceptedDeposit d => exact ⟨.native d, rfl, h⟩
    case acceptedErc20Deposit d => exact ⟨.erc20 d, rfl, h⟩
  · rintro ⟨d, rfl, rfl⟩
    cases d <;> simp [isAcceptOf, Deposit.intoEvent, Deposit.source]

omit [Keccak] in
/-- A step adds only sources that its event names. -/
theorem dep_known {D D' : DepState} {e : Event} (h : DepStep D e D') (src : EventSource)
    (hq : ∀ src, e = .quarantinedDeposit src → D.toMint.get src ≠ none)
    (hn : D'.toMint.get src ≠ none ∨ D'.minted.get src ≠ none ∨ D'.invalid.get src ≠ none) :
    (D.toMint.get src ≠ none ∨ D.minted.get src ≠ none ∨ D.invalid.get src ≠ none) ∨ Names src e := by
  cases h with
  | accept d h1 h2 h3 =>
    by_cases hs : src = d.source
    · exact .inr (.inl (isAcceptOf_deposit.2 ⟨d, rfl, hs.symm⟩))
    · simp only [FMap.get_insert, if_neg hs] at hn
      exact .inl hn
  | mint _ src' d b sym c he h1 h2 h3 =>
    by_cases hs : src = src'
    · subst hs
      exact .inl (.inl (by rw [h3]; simp))
    · simp only [FMap.get_insert, FMap.get_erase, if_neg hs] at hn
      exact .inl hn
  | invalid src' reason h1 h2 h3 =>
    by_cases hs : src = src'
    · subst hs; exact .inr (.inr ⟨_, rfl⟩)
    · simp only [FMap.get_insert, if_neg hs] at hn
      exact .inl hn
  | invalidAgain src' reason x h1 h2 h3 => exact .inl hn
  | quarantine src' =>
    by_cases hs : src = src'
    · subst hs
      exact .inl (.inl (hq _ rfl))
    · refine .inl ?_
      simp only [FMap.get_erase, if_neg hs] at hn
      split at hn
      · exact hn
      · simp only [FMap.get_insert, if_neg hs] at hn
        exact hn
  | other _ _ => exact .inl hn

/-- What the minter knows is named in its event log. -/
theorem run_known {log : List Event} {s : State} (h : Run log s) (src : EventSource) (hk : ¬ Unknown s src) :
    ∃ ev ∈ log, Names src ev := by
  have hk' : s.eventsToMint.get src ≠ none ∨ s.mintedEvents.get src ≠ none ∨ s.invalidEvents.get src ≠ none := by
    unfold Unknown at hk
    by_cases h1 : s.eventsToMint.get src = none
    · by_cases h2 : s.mintedEvents.get src = none
      · exact .inr (.inr fun h3 => hk ⟨h1, h2, h3⟩)
      · exact .inr (.inl h2)
    · exact .inl h1
  clear hk
  obtain ⟨s₀, -, -, -, -⟩ := run_replay h
  induction h with
  | init a s h =>
    obtain ⟨h1, h2, h3, -⟩ := ofInit_ok h
    rw [h1, h2, h3] at hk'
    simp at hk'
  | event log s e s' hr he ha ih =>
    rcases dep_known (applyEvent_dep ha) src (by
      rintro src rfl
      obtain ⟨d, hd⟩ := he
      show s.eventsToMint.get src ≠ none
      rw [hd]; simp) hk' with hk | hk
    · obtain ⟨ev, h1, h2⟩ := ih hk
      exact ⟨ev, List.mem_append_left _ h1, h2⟩
    · exact ⟨e, List.mem_append_right _ List.mem_cons_self, hk⟩
  | reschedule log s r t hr h1 h2 ih => exact ih hk'
  | scraped log s b hr ih => exact ih hk'
  | restart log s s' hr hs ih =>
    obtain ⟨s₀, h1, -, -, h4⟩ := run_replay hr
    rw [hs] at h1
    simp only [Except.ok.injEq] at h1
    subst h1
    refine ih ?_
    rw [h4]; exact hk'

/-- The anchor moves along. -/
theorem anchored {c : Chain} {w₀ : Scraper} (h0 : Idle w₀) (ha : Anchored c w₀) {w : Scraper} {h : List Obs}
    (hw : Scraping w₀ w h) (hh : HonestHistory c h) : Anchored c w := by
  have I := scrapeInv h0 hw
  have Q := queryInv h0 hw
  obtain ⟨l, h1, h2, h3, h4, h5⟩ := I.log
  have answered : ∀ src r ls e, Obs.answered r (.logs ls) ∈ h → e ∈ ls → sourceOf e = some src →
      ∃ b e, b ≤ w.m.st.lastScrapedBlockNumber ∧ e ∈ c b ∧ sourceOf e = some src := by
    intro src r ls e hr he hs
    obtain ⟨b, g1, g2, g3, -⟩ := ((hh r _ hr).1 e).1 he
    exact ⟨b, e, Nat.le_trans g2 (Q.settled r _ hr trivial), g3, hs⟩
  have old : ∀ src ev, ev ∈ w₀.m.log → (isAcceptOf src ev = true ∨ isRejectOf src ev = true) →
      ∃ b e, b ≤ w.m.st.lastScrapedBlockNumber ∧ e ∈ c b ∧ sourceOf e = some src := by
    intro src ev hev hm
    obtain ⟨b, e, g1, g2, g3⟩ := ha src ev hev hm
    exact ⟨b, e, Nat.le_trans g1 I.forward, g2, g3⟩
  have names : ∀ src ev, ev ∈ w.m.log → Names src ev →
      ∃ b e, b ≤ w.m.st.lastScrapedBlockNumber ∧ e ∈ c b ∧ sourceOf e = some src := by
    intro src ev hev hm
    rw [h1, List.mem_append] at hev
    rcases hm with hm | ⟨m, rfl⟩
    · rcases hev with hev | hev
      · exact old src ev hev (.inl hm)
      · obtain ⟨d, rfl, rfl⟩ := isAcceptOf_deposit.1 hm
        obtain ⟨r, ls, e, k1, k2, k3⟩ := h3 d hev
        exact answered _ r ls e k1 k2 (parsed_source k3)
    · rcases hev with hev | hev
      · exact old src _ hev (.inr (by simp [isRejectOf]))
      · obtain ⟨r, ls, e, x, k1, k2, k3⟩ := h5 src m hev
        exact answered _ r ls e k1 k2 (rejected_source k3)
  intro src ev hev hm
  rcases hm with hm | hm
  · exact names src ev hev (.inl hm)
  · cases ev <;> simp only [isRejectOf, beq_iff_eq, reduceCtorEq] at hm
    case invalidDeposit s m => subst hm; exact names _ _ hev (.inr ⟨m, rfl⟩)
    case quarantinedDeposit s =>
      subst hm
      obtain ⟨pre, post, s₁, s₂, hl, hr1, ⟨d, hd⟩, -⟩ := run_mem I.run hev (by simp)
      obtain ⟨ev', g1, g2⟩ := run_known hr1 s (fun hu => by rw [hu.1] at hd; cases hd)
      exact names s ev' (by rw [hl]; exact List.mem_append_left _ g1) g2

/-- **C48**, completeness: if the providers answer truthfully, then a deposit of a registered token that the helper contract
emitted in a block that has been scraped is accepted, unless the block was skipped. So is any deposit as long as no token is
registered; afterwards native deposits are not found (`C10_violated`). -/
theorem C48_credited {c : Chain} {w₀ w : Scraper} {h : List Obs} (h0 : Idle w₀) (hw : Scraping w₀ w h)
    (hh : HonestHistory c h) (helper : Address)
    (hc : ∀ r a, Obs.answered r a ∈ h → r.address = helper) (b : BlockNumber)
    (hb : w₀.m.st.lastScrapedBlockNumber < b) (hb' : b ≤ w.m.st.lastScrapedBlockNumber) (e : LogEntry) (he : e ∈ c b)
    (hadr : e.address = helper) (src : EventSource) (x : DepositLog) (hx : x.Emittable) (hm : MinedLog e b src x)
    (htok : (∃ t ∈ tokensOf w₀.m.log, t.erc20ContractAddress = x.token) ∨ tokensOf w.m.log = []) (p : Principal)
    (hp : x.principal.1 = principalWord p) (hcr : Creditable p) :
    (x.deposit b src p).intoEvent ∈ w.m.log ∨ w.m.st.skippedBlocks.contains b = true := by
  have I := scrapeInv h0 hw
  have Q := queryInv h0 hw
  obtain ⟨l, h1, h2, -⟩ := I.log
  rcases I.covered b hb hb' with ⟨r, ls, hr, hbr⟩ | hsk
  · refine .inl ?_
    rw [mem_blocks] at hbr
    obtain ⟨⟨topics, g1, log, s, sc, g2, g3, g4, g5, g6, g7⟩, -⟩ := Q.requests r _ hr
    have hin : e ∈ ls := by
      refine ((hh r _ hr).1 e).2 ⟨b, hbr.1, hbr.2, he, by rw [hadr, hc r _ hr], ?_⟩
      rw [g1, g7, hm.topics]
      refine (C10_matched_exactly g2 sc g5 x hx.1).2 ?_
      obtain ⟨rest, rfl⟩ := g3
      obtain ⟨rest', g4⟩ := g4
      rcases htok with ⟨t, ht, htok⟩ | hno
      · refine .inr ⟨t, ?_, htok⟩
        rw [tokensOf_append]
        exact List.mem_append_left _ ht
      · rw [← g4, tokensOf_append] at hno
        exact .inl (List.append_eq_nil_iff.1 hno).1
    rw [h1]
    exact List.mem_append_right _ (h2 r ls e _ hr hin (C11_faithful e x b src p hm hx hp hcr))
  · exact .inr hsk

/-- **C48**, soundness: if the providers answer truthfully, then every deposit accepted is one that the helper contract
configured at the time emitted, in a block above the one scraped initially and scraped by now. -/
theorem C48_only_real {c : Chain} {w₀ w : Scraper} {h : List Obs} (h0 : Idle w₀) (hw : Scraping w₀ w h)
    (hok : c.Ok) (hh : HonestHistory c h) :
    ∃ l, w.m.log = w₀.m.log ++ l ∧ ∀ d : Deposit, d.intoEvent ∈ l →
      ∃ b e, w₀.m.st.lastScrapedBlockNumber < b ∧ b ≤ w.m.st.lastScrapedBlockNumber ∧ e ∈ c b ∧
        (∃ topics, FilterOf w₀ w e.address topics) ∧ ∃ src x p, MinedLog e b src x ∧ x.Typed ∧
        x.principal.1 = principalWord p ∧ Creditable p ∧ d = x.deposit b src p := by
  have I := scrapeInv h0 hw
  have Q := queryInv h0 hw
  obtain ⟨l, h1, h2, h3, -⟩ := I.log
  refine ⟨l, h1, fun d hd => ?_⟩
  obtain ⟨r, ls, e, k1, k2, k3⟩ := h3 d hd
  obtain ⟨b, g1, g2, g3, g4, -⟩ := ((hh r _ k1).1 e).1 k2
  obtain ⟨⟨topics, -, hF⟩, g5, g6, -⟩ := Q.requests r _ k1
  obtain ⟨x, b', src, p, m1, m2, m3, m4, m5⟩ := (C11_exact e d).1 k3
  have hbb : b' = b := by
    have := hok.mined b e g3
    rw [m1.block] at this
    simpa using this
  subst hbb
  refine ⟨b', e, ?_, Nat.le_trans g2 (Q.settled r _ k1 trivial), g3, ⟨topics, by rw [g4]; exact hF⟩, src, x, p, m1, m2, m4, m3, m5⟩
  rcases g6 with g6 | g6
  · exact Nat.lt_of_lt_of_le g6 g1
  · have h5 := I.bounded
    have h6 := Q.settled r _ k1 trivial
    have hue := u256_eq
    have : b' = u256Max := by womega
    rw [this, hok.last] at g3
    cases g3

/-- **C45**, with an honest provider: once a token is registered, the logs that the provider returns never make the scraper
panic, whatever anyone deposits, unless a balance would exceed 256 bits. -/
theorem C45_honest_partial {c : Chain} {w₀ w : Scraper} {h : List Obs} (hok : c.Ok) (h0 : Idle w₀) (ha : Anchored c w₀)
    (hreg : tokensOf w₀.m.log ≠ []) (hw : Scraping w₀ w h) (hh : HonestHistory c h) (q : Query)
    (hq : w.task = some (.querying q)) (a : LogsAnswer) (hans : Honest c q.request a)
    (hf : ∀ l, a = .logs l → Fits w.m.st (depositsOf l)) (hsk : SkippedBelow w₀)
    (hmax : q.current.stop < 2 ^ 256 - 1) :
    ∃ w', w.onLogs q a = .ok w' := by
  have I := scrapeInv h0 hw
  have Q := queryInv h0 hw
  have A := anchored h0 ha hw hh
  obtain ⟨wq, hstart, hstart'⟩ := I.task q hq
  obtain ⟨o, ho, -⟩ := query_next q wq a
  have key : ∃ m', w.m.onAnswer q.current a = .ok m' := by
    cases a with
    | failed => exact ⟨_, rfl⟩
    | tooLarge =>
      unfold Minter.onAnswer
      simp only
      split
      · rename_i heq
        have hno : w.m.st.skippedBlocks.contains q.current.stop = false := by
          cases hc : w.m.st.skippedBlocks.contains q.current.stop with
          | false => rfl
          | true =>
            exfalso
            have hle : q.current.stop ≤ w.m.st.lastScrapedBlockNumber := by
              rcases I.skipped _ hc with h | ⟨r, h1, h2⟩
              · exact Nat.le_trans (hsk _ h) I.forward
              · have := Q.settled r _ h2 (by rw [h1]; rfl)
                rw [h1] at this; exact this
            have hue := u256_eq
            unfold U256 at hue
            rcases hstart' with hs' | hs'
            · womega
            · womega
        have : applyEvent w.m.st (.skippedBlock q.current.stop) =
            .ok { w.m.st with skippedBlocks := w.m.st.skippedBlocks.insert q.current.stop () } := by
          simp only [applyEvent, State.recordSkippedBlock, hno]; rfl
        simp only [processEvent_eq this, Res.ok_bind]
        exact ⟨_, rfl⟩
      · exact ⟨_, rfl⟩
    | logs l =>
      obtain ⟨log, s, sc, g1, g2, g3, g4, g5, g6⟩ := Q.filter q hq
      refine C45_partial g1 sc g4 ?_ w.m I.run g3 q.current l ?_ ⟨hans.2, ?_⟩ (hf l rfl)
      · obtain ⟨rest, rfl⟩ := g2
        rw [tokensOf_append]
        simp [hreg]
      · intro e he
        obtain ⟨b, k1, k2, k3, k4, k5⟩ := (hans.1 e).1 he
        rw [← g6]; exact k5
      · intro e he src hs
        obtain ⟨b, k1, k2, k3, k4, k5⟩ := (hans.1 e).1 he
        refine Classical.byContradiction fun hun => ?_
        obtain ⟨ev, e1, e2⟩ := run_known I.run src hun
        obtain ⟨b', e', f1, f2, f3⟩ := A src ev e1 (e2.imp_right fun ⟨m, hm⟩ => by rw [hm]; simp [isRejectOf])
        obtain ⟨rfl, rfl⟩ := hok.unique b b' e e' k3 f2 (hs.trans f3.symm)
        have : q.request.range = q.current := rfl
        rw [this] at k1 k2
        rcases hstart' with hs' | hs'
        · womega
        · have hbd := I.bounded
          have hue := u256_eq
          have : b = u256Max := by womega
          rw [this, hok.last] at k3
          cases k3
  obtain ⟨m', hm'⟩ := key
  simp only [Scraper.onLogs, hm', ho, Res.ok_bind]
  exact ⟨_, rfl⟩

end

/-! ## A concrete run -/

namespace Example

/-- A deposit of five units of the registered token. -/
def usdcDeposit : DepositLog := ⟨7, usdc, 5, ⟨principalWord ⟨[1, 2, 3]⟩, by decide⟩, 0⟩

/-- Its log on the chain. -/
def usdcLog : LogEntry :=
  { address := 0xcafe, topics := usdcDeposit.topics, data := usdcDeposit.data, blockNumber := some 103
    transactionHash := some 21, transactionIndex := some 0, blockHash := some 12, logIndex := some 3, removed := false }

/-- A chain with that log in block 103, and a deposit of an unknown token in block 104. -/
def chain : Chain := fun b => if b = 103 then [usdcLog] else if b = 104 then [{ foreignLog with blockNumber := some 104 }] else []

theorem chain_ok : chain.Ok := by
  refine ⟨fun b e he => ?_, fun b b' e e' he he' hs => ?_, by decide⟩
  · unfold chain at he
    split at he
    · rename_i hb; rw [List.mem_singleton.1 he, hb]; rfl
    · split at he
      · rename_i hb; rw [List.mem_singleton.1 he, hb]
      · cases he
  · unfold chain at he he'
    split at he
    · rename_i hb
      split at he'
      · rename_i hb'; exact ⟨by rw [hb, hb'], by rw [List.mem_singleton.1 he, List.mem_singleton.1 he']⟩
      · split at he'
        · rw [List.mem_singleton.1 he, List.mem_singleton.1 he'] at hs
          simp [sourceOf, usdcLog, foreignLog] at hs
        · cases he'
    · split at he
      · rename_i hb
        split at he'
        · rw [List.mem_singleton.1 he, List.mem_singleton.1 he'] at hs
          simp [sourceOf, usdcLog, foreignLog] at hs
        · split at he'
          · rename_i hb'; exact ⟨by rw [hb, hb'], by rw [List.mem_singleton.1 he, List.mem_singleton.1 he']⟩
          · cases he'
      · cases he

/-- The request of the first query. -/
def firstRequest : LogsRequest := ⟨0xcafe, [[depositTopic], [wordOfAddress usdc]], ⟨101, 105⟩⟩

/-- The history of the run: the provider answers truthfully. -/
def scrapeHistory : List Obs := [.started 7, .latest (some 105), .answered firstRequest (.logs [usdcLog])]

theorem firstRequest_honest : Honest chain firstRequest (.logs [usdcLog]) := by
  have foreign : ¬ FilterMatches firstRequest.topics foreignLog.topics := by
    rintro ⟨-, hm⟩
    have := hm 1 [wordOfAddress usdc] (word 0xbad) rfl rfl
    revert this
    decide +kernel
  refine ⟨fun e => ?_, by decide⟩
  constructor
  · intro he
    rw [List.mem_singleton] at he
    subst he
    refine ⟨103, by decide, by decide, by decide +kernel, rfl, by decide +kernel, fun i l t hl ht => .inr ?_⟩
    match i with
    | 0 => simp only [firstRequest, List.getElem?_cons_zero, Option.some.injEq] at hl; subst hl; simp [usdcLog, DepositLog.topics] at ht; subst ht; decide +kernel
    | 1 => simp only [firstRequest, List.getElem?_cons_zero, List.getElem?_cons_succ, Option.some.injEq] at hl; subst hl; simp [usdcLog, DepositLog.topics] at ht; subst ht; decide +kernel
    | n + 2 => simp [firstRequest] at hl
  · rintro ⟨b, -, -, he, -, hm⟩
    unfold chain at he
    split at he
    · exact he
    · split at he
      · rw [List.mem_singleton.1 he] at hm
        exact absurd hm foreign
      · cases he

example : HonestHistory chain scrapeHistory := by
  intro r a hr
  simp only [scrapeHistory, List.mem_cons, reduceCtorEq, Obs.answered.injEq, List.not_mem_nil, or_false, false_or] at hr
  obtain ⟨rfl, rfl⟩ := hr
  exact firstRequest_honest

/-- The deposit of the registered token is accepted; the other one does no harm. -/
example : ∃ s w, Run (log.take 3) s ∧ Scraping ⟨⟨s, log.take 3⟩, none, none, none⟩ w scrapeHistory ∧
    w.m.st.lastScrapedBlockNumber = 105 ∧
    w.m.log = log.take 3 ++ [(usdcDeposit.deposit 103 ⟨21, 3⟩ ⟨[1, 2, 3]⟩).intoEvent] := by
  obtain ⟨s, hr, hp⟩ := start_run (k := 2) (p := fun s =>
    match play ⟨⟨s, log.take 3⟩, none, none, none⟩ [] [.start 7, .block (some 105), .logs (.logs [usdcLog])] with
    | some (w, [.started 7, .latest (some 105), .answered r (.logs l)]) =>
      decide (r.address = 0xcafe ∧ r.topics = firstRequest.topics ∧ r.range = ⟨101, 105⟩ ∧ l = [usdcLog] ∧
        w.m.st.lastScrapedBlockNumber = 105 ∧
        w.m.log = log.take 3 ++ [(usdcDeposit.deposit 103 ⟨21, 3⟩ ⟨[1, 2, 3]⟩).intoEvent])
    | _ => false) (by decide +kernel)
  split at hp
  · rename_i w r l hw
    obtain ⟨h1, h2, h3, rfl, h4, h5⟩ := of_decide_eq_true hp
    refine ⟨s, w, hr, ?_, h4, h5⟩
    have := play_sound _ .refl hw
    cases r
    simp only at h1 h2 h3
    subst h1; subst h2; subst h3
    exact this
  · cases hp

end Example

end EvmMinter
