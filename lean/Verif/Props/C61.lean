import Verif.Lemmas.WorldScrape
import Verif.Spec.ExampleHistory
import Verif.Props.C30
import Verif.Props.C02
import Verif.Props.C05
import Verif.Props.C48
import Verif.Props.C49
/-!
# C61: from the chain to the ledgers

Deposits all the way: what a contract emitted on the chain, and what the ledgers credit.
-/

namespace EvmMinter
open Spec

section
variable [Keccak]

/-! ## The helper contract -/

theorem applyEvents_helper {s s' : State} {l : List Event} (h : applyEvents s l = .ok s') (hk : HelperKept l) :
    s'.helperContractAddress = s.helperContractAddress := by
  induction l generalizing s with
  | nil => simp only [applyEvents, Except.ok.injEq] at h; rw [h]
  | cons e t ih =>
    simp only [applyEvents, Res.bind_ok] at h
    obtain ⟨s1, h1, h2⟩ := h
    rw [ih h2 fun a ha => hk a (List.mem_cons_of_mem _ ha)]
    by_cases he : ∃ a, e = .upgrade a
    · obtain ⟨a, rfl⟩ := he
      have ha := hk a List.mem_cons_self
      simp only [applyEvent] at h1
      split at h1
      · rename_i s2 h3
        cases h1
        obtain ⟨helper, h4, h5, -⟩ := upgrade_ok h3
        rw [ha] at h4
        rw [h5]
        exact h4
      · cases h1
    · exact congrArg UpgradableConfig.helperContractAddress ((applyEvent_frame h1).2.1 fun a ha => he ⟨a, ha⟩)

theorem run_helper {log more : List Event} {s s' : State} (h : Run log s) (h' : Run (log ++ more) s') (hk : HelperKept more) :
    s'.helperContractAddress = s.helperContractAddress := by
  obtain ⟨s₀, h1, _, _, h4⟩ := run_replay h
  obtain ⟨s₁, h5, _, _, h6⟩ := run_replay h'
  obtain ⟨x, hx, hy⟩ := replay_prefix h5 (replay_ne_nil h1)
  rw [h1, Except.ok.injEq] at hx; subst hx
  have := applyEvents_helper hy hk
  rw [h4, h6]
  exact this

/-! ## Executions that are watched -/

variable {c : Chain} {helper : Address} {w₀ w : World} {h : List Obs}

theorem Spec.Watched.filter (W : Watched c helper w₀ w h) {contract : Address} {topics : List Topic}
    (hf : FilterOf w₀.scraper w.scraper contract topics) : contract = helper := by
  obtain ⟨log, s, sc, h1, ⟨more, h2⟩, ⟨rest, h3⟩, h4, h5, -⟩ := hf
  have h2 : w₀.mem.m.log ++ more = log := h2
  have h3 : log ++ rest = w.mem.m.log := h3
  subst h2
  have hm : HelperKept more := by
    intro a ha
    refine W.helperKept a ?_
    have := W.log
    rw [← h3, List.append_assoc, List.append_cancel_left_eq] at this
    rw [← this]
    exact List.mem_append_left _ ha
  have := run_helper W.isIdle.run h1 hm
  unfold State.nextScrape at h4
  simp only [Res.bind_ok, Res.expect_ok, Res.pure_ok] at h4
  obtain ⟨a, ha, hsc⟩ := h4
  rw [this] at ha
  have hw : w₀.scraper.m.st.helperContractAddress = some helper := W.helper
  rw [hw] at ha
  rw [h5, ← hsc]
  exact (Option.some.inj ha).symm

/-! ## What becomes of an accepted deposit -/

theorem quarantined_of_replay {log : List Event} {s : State} (h : replay log = .ok s) (src : EventSource)
    (ha : ∃ e ∈ log, isAcceptOf src e = true) (hi : (s.invalidEvents.get src).isSome) : Event.quarantinedDeposit src ∈ log := by
  have key : DepLog src log s.dep ∧ ((∃ e ∈ log, isAcceptOf src e = true) → (s.invalidEvents.get src).isSome →
      Event.quarantinedDeposit src ∈ log) := by
    clear ha hi
    refine replay_induct (P := fun log s => DepLog src log s.dep ∧ ((∃ e ∈ log, isAcceptOf src e = true) →
      (s.invalidEvents.get src).isSome → Event.quarantinedDeposit src ∈ log)) ?_ ?_ h
    · intro a s h
      refine ⟨depLog_of_replay (log := [.init a]) ?_ src, fun _ hi => ?_⟩
      · simp [replay, h, applyEvents]
      · rw [(ofInit_ok h).2.2.1] at hi; cases hi
    · intro log s e s' hr ih ha
      refine ⟨depLog_of_replay (log := log ++ [e]) (by rw [replay_snoc (replay_ne_nil hr), hr]; exact ha) src, ?_⟩
      rintro ⟨e', he', hacc⟩ hi
      have hD := applyEvent_dep ha
      have k : ∀ D', s'.dep = D' → (D'.invalid.get src).isSome := by rintro D' rfl; exact hi
      generalize hD' : s'.dep = D' at hD
      have k := k D' hD'
      have weak : e' ∈ log → (s.invalidEvents.get src).isSome → Event.quarantinedDeposit src ∈ log ++ [e] := fun h1 h2 =>
        List.mem_append_left _ (ih.2 ⟨e', h1, hacc⟩ h2)
      have cnt : e' ∈ log → (s.eventsToMint.get src).isSome ∨ (s.mintedEvents.get src).isSome ∨ (s.invalidEvents.get src).isSome :=
        fun h1 => ih.1.accept_seen (by
          unfold count
          rw [List.countP_pos_iff]
          exact ⟨e', h1, hacc⟩)
      have split' : e' ∈ log ∨ e' = e := by
        rcases List.mem_append.1 he' with h | h
        · exact .inl h
        · exact .inr (List.mem_singleton.1 h)
      cases hD with
      | accept d h1 h2 h3 =>
        rcases split' with h' | rfl
        · exact weak h' k
        · rw [source_intoEvent, beq_iff_eq] at hacc
          subst hacc
          rw [h3] at k; cases k
      | mint e src' _ _ _ _ hev _ _ _ =>
        rcases split' with h' | rfl
        · exact weak h' k
        · exfalso
          rcases hev with ⟨rfl, -⟩ | ⟨_, rfl, -⟩ <;> cases hacc
      | invalid src' reason h1 h2 h3 =>
        rcases split' with h' | rfl
        · by_cases hs : src = src'
          · subst hs
            rcases cnt h' with hh | hh | hh
            · have hh : (s.dep.toMint.get src).isSome := hh
              rw [h1] at hh; cases hh
            · have hh : (s.dep.minted.get src).isSome := hh
              rw [h2] at hh; cases hh
            · have hh : (s.dep.invalid.get src).isSome := hh
              rw [h3] at hh; cases hh
          · simp only [FMap.get_insert, if_neg hs] at k
            exact weak h' k
        · cases hacc
      | invalidAgain _ _ _ _ _ _ =>
        rcases split' with h' | rfl
        · exact weak h' k
        · cases hacc
      | quarantine src' =>
        rcases split' with h' | rfl
        · by_cases hs : src = src'
          · subst hs; simp
          · refine weak h' ?_
            split at k
            · exact k
            · simp only [FMap.get_insert, if_neg hs] at k
              exact k
        · cases hacc
      | other _ hne =>
        rcases split' with h' | rfl
        · exact weak h' k
        · exfalso
          revert hne hacc
          cases e' <;> simp [isAcceptOf]
  exact key.2 ha hi

/-- An accepted deposit is waiting, or there is a mint for it, or it is quarantined. -/
theorem accepted_cases (hr : Reachable w) {d : Deposit} (hd : d.intoEvent ∈ w.mem.m.log) :
    w.mem.m.st.eventsToMint.get d.source = some d ∨ (∃ b ∈ w.blocks, b.call.credits d.source = true) ∨
      Event.quarantinedDeposit d.source ∈ w.mem.m.log := by
  have T := tracks hr
  obtain ⟨s₀, h1, _, _, h4⟩ := T
  have hacc : isAcceptOf d.source d.intoEvent = true := by rw [source_intoEvent]; simp
  have D := depLog_of_replay h1 d.source
  have hpos : 0 < count (isAcceptOf d.source) w.mem.m.log := by
    unfold count; rw [List.countP_pos_iff]; exact ⟨_, hd, hacc⟩
  rcases D.accept_seen hpos with hs | hs | hs
  · left
    obtain ⟨d', hd'⟩ := Option.isSome_iff_exists.1 hs
    have hd' : w.mem.m.st.eventsToMint.get d.source = some d' := by rw [h4]; exact hd'
    obtain ⟨k1, k2⟩ := accepted_of_tracks (tracks hr) hd'
    rw [hd', accepted_unique (tracks hr) k2 hd k1]
  · right; left
    have hm : 0 < count (isMintOf d.source) w.mem.m.log := by rw [D.mint_count, if_pos hs]; exact Nat.one_pos
    unfold count at hm
    rw [List.countP_pos_iff] at hm
    obtain ⟨ev, he, hm⟩ := hm
    have ht := C49_truthful hr he
    cases ev <;> simp only [isMintOf, beq_iff_eq, Bool.false_eq_true] at hm
    case mintedNative src i =>
      subst hm
      obtain ⟨b, k1, k2⟩ := ht
      exact ⟨b, (List.mem_filter.1 (List.mem_of_getElem? k1)).1, k2⟩
    case mintedErc20 src i sym a =>
      subst hm
      obtain ⟨l, b, -, k1, k2⟩ := ht
      exact ⟨b, (List.mem_filter.1 (List.mem_of_getElem? k1)).1, k2⟩
  · right; right
    exact quarantined_of_replay h1 _ ⟨_, hd, hacc⟩ hs

omit [Keccak] in
theorem Spec.DepositLog.deposit_source (x : DepositLog) (b : BlockNumber) (src : EventSource) (p : Principal) :
    (x.deposit b src p).source = src := by
  unfold DepositLog.deposit
  split <;> rfl

omit [Keccak] in
theorem Spec.DepositLog.deposit_value (x : DepositLog) (b : BlockNumber) (src : EventSource) (p : Principal) :
    (x.deposit b src p).value = x.amount := by
  unfold DepositLog.deposit
  split <;> rfl

omit [Keccak] in
theorem Spec.DepositLog.deposit_ledger (x : DepositLog) (b : BlockNumber) (src : EventSource) (p : Principal) (s : State)
    (l : Principal) : LedgerFor s (x.deposit b src p) l ↔ x.LedgerIs s l := by
  unfold DepositLog.deposit DepositLog.LedgerIs
  split <;> rfl

/-- A mint for an accepted deposit credits what was emitted. -/
theorem block_credits (hr : Reachable w) {x : DepositLog} {bn : BlockNumber} {src : EventSource} {p : Principal}
    (hd : (x.deposit bn src p).intoEvent ∈ w.mem.m.log) {b : Block} (hb : b ∈ w.blocks) (hc : b.call.credits src = true) :
    b.Credits w.mem.m.st x p := by
  have hmem : b.call ∈ paidFor w.blocks src :=
    List.mem_map.2 ⟨b, List.mem_filter.2 ⟨hb, by simp [source_of_credits hr hb hc]⟩, rfl⟩
  have wf := (registry_of_tracks (tracks hr)).wf
  rcases (mintInv hr).paid src with hp | ⟨d, l, h1, h2, h3⟩
  · rw [hp] at hmem; cases hmem
  · have hdx : d = x.deposit bn src p := accepted_unique (tracks hr) h2 hd (by rw [h1, DepositLog.deposit_source])
    have hacct : (⟨d.principal, d.subaccount⟩ : Account) = x.account p := by
      rw [hdx]; unfold DepositLog.deposit DepositLog.account; split <;> rfl
    have hval : d.value = x.amount := by rw [hdx, DepositLog.deposit_value]
    rcases h3 with ⟨e, he, k2, fee, k3, k4⟩ | ⟨e, sym, he, k2, k3⟩
    · have hu : b.call = userCall d l (e.value - fee) := by
        rcases k4 with k4 | k4 <;> rw [k4] at hmem
        · exact List.mem_singleton.1 hmem
        · rcases List.mem_cons.1 hmem with h | h
          · exact h
          · rw [List.mem_singleton.1 h] at hc; cases hc
      have htok : x.token = 0 := by
        rw [hdx] at he
        unfold DepositLog.deposit at he
        split at he
        · assumption
        · cases he
      refine ⟨?_, e.value - fee, ?_, ?_, fun h => absurd htok h⟩
      · rw [hu, DepositLog.LedgerIs, if_pos htok]; exact k2
      · rw [hu, ← hacct]; rfl
      · rw [← hval, he]; exact Nat.sub_le _ _
    · rw [k3, List.mem_singleton] at hmem
      have htok : x.token ≠ 0 ∧ x.token = e.erc20ContractAddress := by
        rw [hdx] at he
        unfold DepositLog.deposit at he
        split at he
        · cases he
        · rename_i h0
          simp only [Deposit.erc20.injEq] at he
          exact ⟨h0, by rw [← he]⟩
      have hv : e.value = x.amount := by rw [← hval, he]; rfl
      refine ⟨?_, e.value, ?_, Nat.le_of_eq hv, fun _ => hv⟩
      · rw [hmem, DepositLog.LedgerIs, if_neg htok.1, htok.2]
        exact ⟨sym, (DMKM.getEntryAlt_eq wf).2 k2⟩
      · rw [hmem, ← hacct]; rfl

/-- **C61**, completeness. Take any execution in which the providers tell the truth about the chain. A deposit of a token that was
registered at its start (or, as long as no token is registered, of the native token), emitted by the helper contract in a block scraped since and not skipped, is accepted. It is waiting, or
the account it names has been credited on the twin ledger of the token, exactly once and with the emitted amount (less a fee if
it is the native token), or it is quarantined. -/
theorem C61_credited (W : Watched c helper w₀ w h) (b : BlockNumber)
    (hb : w₀.mem.m.st.lastScrapedBlockNumber < b) (hb' : b ≤ w.mem.m.st.lastScrapedBlockNumber)
    (hsk : w.mem.m.st.skippedBlocks.contains b = false) (src : EventSource) (x : DepositLog) (hx : x.Emittable)
    (hm : OnChain c helper b src x)
    (htok : (∃ t ∈ tokensOf w₀.mem.m.log, t.erc20ContractAddress = x.token) ∨ tokensOf w.mem.m.log = []) (p : Principal)
    (hp : x.principal.1 = principalWord p) (hcr : Creditable p) :
    (x.deposit b src p).intoEvent ∈ w.mem.m.log ∧
      (w.mem.m.st.eventsToMint.get src = some (x.deposit b src p) ∨
        (∃ k ∈ w.blocks, (w.blocks.filter fun b => b.call.credits src) = [k] ∧ k.Credits w.mem.m.st x p) ∨
        Event.quarantinedDeposit src ∈ w.mem.m.log) := by
  obtain ⟨e, he, hadr, hmined⟩ := hm
  have hacc : (x.deposit b src p).intoEvent ∈ w.mem.m.log := by
    rcases C48_credited W.isIdle W.scraping W.honest helper (fun r a hr => by
      obtain ⟨⟨topics, -, hF⟩, -⟩ := (queryInv W.isIdle W.scraping).requests r a hr
      exact W.filter hF) b hb hb' e he hadr src x hx hmined htok p hp hcr with h | h
    · exact h
    · have h : w.mem.m.st.skippedBlocks.contains b = true := h
      rw [hsk] at h; cases h
  refine ⟨hacc, ?_⟩
  have := accepted_cases W.reached hacc
  rw [DepositLog.deposit_source] at this
  refine this.imp_right (Or.imp_left ?_)
  rintro ⟨k, hk, hc⟩
  refine ⟨k, hk, ?_, block_credits W.reached hacc hk hc⟩
  have h1 := C02_minted_at_most_once W.reached src
  have h2 : k ∈ w.blocks.filter fun b => b.call.credits src := List.mem_filter.2 ⟨hk, hc⟩
  match hl : w.blocks.filter fun b => b.call.credits src with
  | [] => rw [hl] at h2; cases h2
  | [z] => rw [hl, List.mem_singleton] at h2; rw [hl, h2]
  | _ :: _ :: _ => rw [hl] at h1; simp at h1

/-- A deposit accepted since `w₀` is on the chain. -/
theorem Spec.Watched.onChain (W : Watched c helper w₀ w h) {d : Deposit} (hd : d.intoEvent ∈ w.since w₀) :
    ∃ b x p, w₀.mem.m.st.lastScrapedBlockNumber < b ∧ b ≤ w.mem.m.st.lastScrapedBlockNumber ∧ OnChain c helper b d.source x ∧
      x.Typed ∧ x.principal.1 = principalWord p ∧ Creditable p ∧ d = x.deposit b d.source p := by
  obtain ⟨l, h1, h2⟩ := C48_only_real W.isIdle W.scraping W.chain W.honest
  have h1 : w.mem.m.log = w₀.mem.m.log ++ l := h1
  have hl : l = w.since w₀ := by
    have := W.log
    rw [h1, List.append_cancel_left_eq] at this
    exact this
  subst hl
  obtain ⟨b, e, k1, k2, k3, ⟨topics, k4⟩, src, x, p, k5, k6, k7, k8, rfl⟩ := h2 d hd
  rw [DepositLog.deposit_source]
  exact ⟨b, x, p, k1, k2, ⟨e, k3, W.filter k4, k5⟩, k6, k7, k8, rfl⟩

/-- **C61**, soundness. Take any execution in which the providers tell the truth about the chain. Every mint for a deposit that had
not been accepted at its start is for a log that the helper contract emitted, at the position named in the memo of the mint, in
a block scraped since. It credits the account in that log, on the twin ledger of the token, with the emitted amount (less a fee
if it is the native token). No other mint is for that log. -/
theorem C61_real (W : Watched c helper w₀ w h) {k : Block} (hk : k ∈ w.blocks) {src : EventSource}
    (hc : k.call.credits src = true) (hnew : ∀ e ∈ w₀.mem.m.log, isAcceptOf src e = false) :
    (∃ b x p, w₀.mem.m.st.lastScrapedBlockNumber < b ∧ b ≤ w.mem.m.st.lastScrapedBlockNumber ∧ OnChain c helper b src x ∧
      x.Typed ∧ x.principal.1 = principalWord p ∧ Creditable p ∧ k.Credits w.mem.m.st x p) ∧
    (w.blocks.filter fun b => b.call.credits src).length = 1 := by
  have hone : (w.blocks.filter fun b => b.call.credits src).length = 1 := by
    refine Nat.le_antisymm (C02_minted_at_most_once W.reached src) ?_
    exact List.length_pos_of_mem (List.mem_filter.2 ⟨hk, hc⟩)
  refine ⟨?_, hone⟩
  have hmem : k.call ∈ paidFor w.blocks src :=
    List.mem_map.2 ⟨k, List.mem_filter.2 ⟨hk, by simp [source_of_credits W.reached hk hc]⟩, rfl⟩
  rcases (mintInv W.reached).paid src with hp | ⟨d, l, rfl, h2, -⟩
  · rw [hp] at hmem; cases hmem
  · have hd : d.intoEvent ∈ w.since w₀ := by
      have h2' := h2
      rw [W.log, List.mem_append] at h2'
      rcases h2' with h' | h'
      · have := hnew _ h'
        rw [source_intoEvent] at this
        simp at this
      · exact h'
    obtain ⟨b, x, p, k1, k2, k3, k4, k5, k6, k7⟩ := W.onChain hd
    refine ⟨b, x, p, k1, k2, k3, k4, k5, k6, block_credits (bn := b) W.reached ?_ hk hc⟩
    rw [← k7]; exact h2

omit [Keccak] in
theorem count_accepted (src : EventSource) (log : List Event) :
    ((acceptedDeposits log).map Deposit.source).count src = count (isAcceptOf src) log := by
  induction log with
  | nil => rfl
  | cons e t ih =>
    unfold acceptedDeposits count at ih ⊢
    rw [List.filterMap_cons, List.countP_cons, ← ih]
    cases e <;> simp only [Event.deposit?, isAcceptOf, Bool.false_eq_true, if_false, Nat.add_zero, List.map_cons, List.count_cons] <;> rfl

/-- No log is accepted twice. -/
theorem accepted_nodup (hr : Reachable w) : ((acceptedDeposits w.mem.m.log).map Deposit.source).Nodup := by
  obtain ⟨s₀, h1, _⟩ := tracks hr
  rw [List.nodup_iff_count]
  intro src
  rw [count_accepted]
  exact (depLog_of_replay h1 src).accept_count

omit [Keccak] in
theorem exists_map {α β : Type} {P : α → β → Prop} (l : List α) (h : ∀ a ∈ l, ∃ b, P a b) :
    ∃ l' : List (α × β), l'.map Prod.fst = l ∧ ∀ y ∈ l', P y.1 y.2 := by
  induction l with
  | nil => exact ⟨[], rfl, fun y hy => by cases hy⟩
  | cons a t ih =>
    obtain ⟨b, hb⟩ := h a (by simp)
    obtain ⟨l', h1, h2⟩ := ih fun x hx => h x (by simp [hx])
    refine ⟨(a, b) :: l', by rw [List.map_cons, h1], fun y hy => ?_⟩
    rcases List.mem_cons.1 hy with rfl | hy
    · exact hb
    · exact h2 y hy

/-- **C61**, in total. Take any execution in which the providers tell the truth about the chain, from a start where no deposit had
been accepted. There are different logs on the chain, all emitted by the helper contract in blocks scraped since for the token of
the ledger, with amounts that together are at least all that was minted on the ledger, reimbursements excepted. -/
theorem C61_total (W : Watched c helper w₀ w h) (hnew : ∀ src, ∀ e ∈ w₀.mem.m.log, isAcceptOf src e = false) (ledger : Principal) :
    ∃ l : List ChainLog, (l.map (·.src)).Nodup ∧
      (∀ y ∈ l, w₀.mem.m.st.lastScrapedBlockNumber < y.block ∧ y.block ≤ w.mem.m.st.lastScrapedBlockNumber ∧
        OnChain c helper y.block y.src y.log ∧ y.log.LedgerIs w.mem.m.st ledger) ∧
      w.mintedForDeposits ledger ≤ (l.map (·.log.amount)).sum := by
  classical
  have htot := C03_total W.reached ledger
  generalize hds : ((acceptedDeposits w.mem.m.log).filter fun d => LedgerFor w.mem.m.st d ledger) = ds at htot
  have hnd : (ds.map Deposit.source).Nodup := by
    rw [← hds]
    exact (accepted_nodup W.reached).sublist (List.filter_sublist.map _)
  obtain ⟨l, hl, hP⟩ := exists_map (P := fun (d : Deposit) (y : ChainLog) => y.src = d.source ∧ y.log.amount = d.value ∧
      w₀.mem.m.st.lastScrapedBlockNumber < y.block ∧ y.block ≤ w.mem.m.st.lastScrapedBlockNumber ∧
      OnChain c helper y.block y.src y.log ∧ y.log.LedgerIs w.mem.m.st ledger) ds (by
    intro d hd
    rw [← hds] at hd
    obtain ⟨hd, hld⟩ := List.mem_filter.1 hd
    rw [mem_acceptedDeposits] at hd
    have hd' : d.intoEvent ∈ w.since w₀ := by
      rw [W.log, List.mem_append] at hd
      rcases hd with h' | h'
      · have := hnew d.source _ h'
        rw [source_intoEvent] at this
        simp at this
      · exact h'
    obtain ⟨b, x, p, k1, k2, k3, k4, k5, k6, k7⟩ := W.onChain hd'
    refine ⟨⟨b, d.source, x⟩, rfl, ?_, k1, k2, k3, ?_⟩
    · rw [k7, DepositLog.deposit_value]
    · have hld : LedgerFor w.mem.m.st d ledger := of_decide_eq_true hld
      rw [k7] at hld
      exact (DepositLog.deposit_ledger _ _ _ _ _ _).1 hld)
  refine ⟨l.map Prod.snd, ?_, ?_, ?_⟩
  · rw [← hl, List.map_map] at hnd
    rw [List.map_map]
    exact (List.map_congr_left fun y hy => (hP y hy).1) ▸ hnd
  · intro y hy
    obtain ⟨z, hz, rfl⟩ := List.mem_map.1 hy
    exact (hP z hz).2.2
  · refine Nat.le_trans htot (Nat.le_of_eq ?_)
    rw [← hl, List.map_map, List.map_map]
    exact congrArg List.sum (List.map_congr_left fun y hy => (hP y hy).2.1.symm)

end

/-! ## A concrete execution -/

namespace Example
attribute [local instance] keccak

/-- A token is registered. -/
def beforeDeposit : List Action := [.start (.addToken manager usdcArg) 4]

/-- The deposit in block 103 is scraped and minted. -/
def depositAndMint : List Action := [.start .scrape 5, .answer 0 (.block (some 105)) 6, .answer 0 (.logs (.logs [usdcLog])) 7,
  .start .mint 8, .execute 0, .deliver 0 9]

def noUpgrade (log : List Event) : Bool := log.all fun
  | .upgrade _ => false
  | _ => true

theorem noUpgrade_not {log : List Event} (h : noUpgrade log = true) (a : UpgradeArg) : Event.upgrade a ∉ log := by
  intro ha
  have := List.all_eq_true.1 h _ ha
  cases this

/-- The deposit of five tokens that the contract emitted is credited. -/
theorem C61_example : ∃ w₀ w h, Watched chain 0xcafe w₀ w h ∧ (∀ src, ∀ e ∈ w₀.mem.m.log, isAcceptOf src e = false) ∧
    OnChain chain 0xcafe 103 ⟨21, 3⟩ usdcDeposit ∧ w₀.mem.m.st.lastScrapedBlockNumber = 100 ∧ w.mem.m.st.lastScrapedBlockNumber = 105 ∧
    (tokensOf w₀.mem.m.log).map (·.erc20ContractAddress) = [usdcDeposit.token] ∧
    w.blocks.map (·.call) = [⟨usdcLedger, .mint ⟨⟨[1, 2, 3]⟩, none⟩ 5, some (.mint (.convert 7 21 3))⟩] := by
  have key : (match playInit initArg beforeDeposit with
    | some w₀ =>
      match w₀.watchAll [] depositAndMint with
      | some (w, [.started 5, .latest (some 105), .answered r (.logs l)]) =>
        decide (r.address = 0xcafe ∧ r.topics = firstRequest.topics ∧ r.range = ⟨101, 105⟩ ∧ l = [usdcLog] ∧
          w₀.mem.m.log.length = 2 ∧ noUpgrade w.mem.m.log = true ∧ (acceptedDeposits w₀.mem.m.log).length = 0 ∧ w₀.tasks.length = 0 ∧
          w₀.mem.m.st.helperContractAddress = some 0xcafe ∧
          w₀.mem.m.st.lastScrapedBlockNumber = 100 ∧ w.mem.m.st.lastScrapedBlockNumber = 105 ∧
          (tokensOf w₀.mem.m.log).map (·.erc20ContractAddress) = [usdcDeposit.token] ∧
          w.blocks.map (·.call) = [⟨usdcLedger, .mint ⟨⟨[1, 2, 3]⟩, none⟩ 5, some (.mint (.convert 7 21 3))⟩])
      | _ => false
    | none => false) = true := by decide +kernel
  split at key
  · rename_i w₀ hw₀
    split at key
    · rename_i w r l hw
      obtain ⟨h1, h2, h3, rfl, h4, h5, h6, h7, h8, h9, h10, h11, h12⟩ := of_decide_eq_true key
      have hr := playInit_reachable hw₀
      have hno := noUpgrade_not h5
      cases r
      simp only at h1 h2 h3
      subst h1; subst h2; subst h3
      refine ⟨w₀, w, _, ⟨⟨hr, ?_, World.watchAll_history .refl hw, ?_, ?_⟩, h8, ?_, chain_ok, ?_⟩, ?_, ?_, h9, h10, h11, h12⟩
      · intro p hp; rw [List.length_eq_zero_iff.1 h7] at hp; cases hp
      · intro pre a post n hl _
        exact absurd (by rw [hl]; simp) (hno a)
      · intro a ha; exact absurd (List.mem_of_mem_drop ha) (hno a)
      · intro a ha; exact absurd (List.mem_of_mem_drop ha) (hno a)
      · intro r a hr
        simp only [List.mem_cons, reduceCtorEq, Obs.answered.injEq, List.not_mem_nil, or_false, false_or] at hr
        obtain ⟨rfl, rfl⟩ := hr
        exact firstRequest_honest
      · intro src e he
        cases hacc : isAcceptOf src e with
        | false => rfl
        | true =>
          obtain ⟨d, rfl, -⟩ := isAcceptOf_deposit.1 hacc
          have := mem_acceptedDeposits.2 he
          rw [List.length_eq_zero_iff.1 h6] at this
          cases this
      · exact ⟨usdcLog, by decide +kernel, rfl, ⟨rfl, rfl, rfl, by decide, by decide, rfl, rfl, rfl⟩⟩
    · cases key
  · cases key

end Example
end EvmMinter
