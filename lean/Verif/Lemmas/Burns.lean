import Verif.Lemmas.Story
/-!
# Every burn is used once
-/

namespace EvmMinter
open Spec

/-- The burns that an event names. -/
def Event.burns (native : Principal) : Event → List (Principal × Nat)
  | .acceptedNativeWithdrawalRequest r => [(native, r.ledgerBurnIndex)]
  | .acceptedErc20WithdrawalRequest r => [(native, r.nativeLedgerBurnIndex), (r.erc20LedgerId, r.erc20LedgerBurnIndex)]
  | .failedErc20WithdrawalRequest r => [(native, r.ledgerBurnIndex)]
  | _ => []

theorem Event.burns_nil {native : Principal} {e : Event} (h : e.origin ≠ .endpoint) : e.burns native = [] := by
  cases e <;> first | rfl | exact absurd rfl h

/-- Not part of an endpoint for withdrawals. -/
def Progress.Apart : Progress → Prop
  | .waiting t _ => t.origin ≠ .endpoint
  | .done _ => True

section
variable [Keccak]

theorem news_of_grew {o : Origin} {c c' : Mem} (h : Grew o c.m c'.m) : ∀ e ∈ news c c', e.origin = o := by
  obtain ⟨es, h1, h2⟩ := h.ext
  intro e he
  simp only [news, h1, List.drop_left] at he
  exact h2 e he

omit [Keccak] in
theorem ExtTask.origin_endpoint {t : ExtTask} (h : t.origin = .endpoint) : ∃ q, t = .erc20Gas q := by
  cases t <;> first | exact ⟨_, rfl⟩ | cases h

/-- Other messages record nothing about burns. -/
theorem Thread.apart {W : World} {id : Nat} {msg : Message} {bl : List Block} {ev : List Event} {st : Progress}
    (h : Thread W id msg bl ev st) (hm : msg.origin ≠ .endpoint) : st.Apart ∧ ∀ e ∈ ev, e.origin ≠ .endpoint := by
  have app : ∀ {ev ev' : List Event}, (∀ e ∈ ev, e.origin ≠ .endpoint) → (∀ e ∈ ev', e.origin ≠ .endpoint) → ∀ e ∈ ev ++ ev', e.origin ≠ .endpoint :=
    fun h1 h2 e he => (List.mem_append.1 he).elim (h1 e) (h2 e)
  have grew : ∀ {o : Origin} {c c' : Mem}, Grew o c.m c'.m → o ≠ .endpoint → ∀ e ∈ news c c', e.origin ≠ .endpoint := by
    intro o c c' h ho e he
    rw [news_of_grew h e he]; exact ho
  have mint : ∀ {c c' : Mem} {env : MintEnv} {l : List Deposit} {n : Next}, c.mintLoop env l = .ok (c', n) → n.status.Apart := by
    intro c c' env l n h
    rcases Mem.mintLoop_next h with rfl | ⟨_, _, _, _, _, _, rfl⟩
    · trivial
    · exact fun h => by cases h
  have reimb : ∀ {c c' : Mem} {l : List (ReimbIndex × ReimbRequest)} {n : Next}, c.reimburseLoop l = .ok (c', n) → n.status.Apart := by
    intro c c' l n h
    rcases Mem.reimburseLoop_next h with rfl | ⟨_, _, _, _, rfl⟩
    · trivial
    · exact fun h => by cases h
  induction h with
  | start w now c n hb hn hty hr =>
    refine ⟨?_, grew (Message.run_grew hr) hm⟩
    cases msg <;> simp only [Message.run] at hr
    case mint =>
      unfold Mem.startMint at hr
      split at hr
      · cases hr; trivial
      · exact mint hr
    case reimbursement =>
      unfold Mem.startReimbursement at hr
      split at hr
      · cases hr; trivial
      · exact reimb hr
    case retrieve =>
      unfold Mem.startRetrieve at hr
      split at hr
      · cases hr; trivial
      · split at hr
        · cases hr; trivial
        · split at hr
          · cases hr; exact fun h => by cases h
          · split at hr
            · cases hr; trivial
            · cases hr; exact fun h => by cases h
    case scrape =>
      split at hr
      · cases hr; trivial
      · cases hr; exact fun h => by cases h
    case gas =>
      split at hr
      · cases hr; trivial
      · cases hr; exact fun h => by cases h
    case withdrawNative => exact absurd rfl hm
    case withdrawErc20 => exact absurd rfl hm
    case addToken =>
      simp only [Res.bind_ok, Res.pure_ok] at hr
      obtain ⟨x, _, h⟩ := hr
      cases h
      trivial
  | startTrap w now e hb hn hty hr => exact ⟨trivial, fun e he => by cases he⟩
  | execute w bl ev t hT hb hm hh h0 h1 ih => exact ih
  | refuse w bl ev t e hT hb hm hr ih => exact ih
  | reject w bl ev t hT hb hm ih => exact ih
  | deliver w bl ev t a now c n hT hb hm hr ih =>
    refine ⟨?_, app ih.2 (grew (LedgerTask.resume_grew hr) ih.1)⟩
    clear hT
    have ho := ih.1
    cases t <;> simp only [LedgerTask.resume] at hr <;> try exact absurd rfl ho
    case mintUser env d sym l amount rest =>
      rcases Mem.onMintUser_cases hr with ⟨i, fee, e, rfl, hi, rfl, hf, rfl, rfl⟩ | ⟨i, c1, rfl, hi, _, hp, hl⟩ | ⟨_, hl⟩
      · exact fun h => by cases h
      · exact mint hl
      · exact mint hl
    case mintFee env d sym l fee block rest =>
      simp only [Mem.mintRecord, Res.bind_ok] at hr
      obtain ⟨c1, hp, hl⟩ := hr
      exact mint hl
    case reimburse x r l rest =>
      rcases Mem.onReimburse_cases hr with ⟨i, c1, rfl, hi, hp, hl⟩ | ⟨_, hl⟩
      · exact reimb hl
      · exact reimb hl
  | deliverTrap w bl ev t a now e c hT hb hm hr hc ih => exact ⟨trivial, app ih.2 (grew (Task.cleanup_grew hc) ih.1)⟩
  | kill w bl ev t a c hT hb hm hc ih => exact ⟨trivial, app ih.2 (grew (Task.cleanup_grew hc) ih.1)⟩
  | answer w bl ev t o a now c n hT hb hm ht hr ih =>
    refine ⟨?_, app ih.2 (grew (ExtTask.resume_grew hr) ih.1)⟩
    rcases ExtTask.resume_next hr with ⟨q, g, rfl, hq, _⟩ | ⟨hne, hn⟩
    · exact absurd rfl ih.1
    · rcases hn with ⟨t', rfl, hne'⟩ | rfl
      · intro h
        obtain ⟨q, rfl⟩ := ExtTask.origin_endpoint h
        exact hne' q rfl
      · trivial
  | answerTrap w bl ev t o a now e c hT hb hm ht hr hc ih => exact ⟨trivial, app ih.2 (grew (Task.cleanup_grew hc) ih.1)⟩
  | killExt w bl ev t o c hT hb hm hc ih => exact ⟨trivial, app ih.2 (grew (Task.cleanup_grew hc) ih.1)⟩

/-- A message records at most one event that names burns. -/
theorem Thread.one_burn_event {W : World} {id : Nat} {msg : Message} {bl : List Block} {ev : List Event} {st : Progress}
    (h : Thread W id msg bl ev st) : ev.length ≤ 1 ∨ ∀ e ∈ ev, e.origin ≠ .endpoint := by
  have aft : ∀ {q : Erc20Charged} {bl : List Block} {ev : List Event} {e : WithdrawErc20Error}, q.Aftermath W id bl ev e → ev.length ≤ 1 := by
    rintro q bl ev e (⟨_, rfl, _⟩ | ⟨_, _, _, _, _, ⟨_, rfl⟩ | ⟨_, rfl⟩⟩) <;> simp
  cases msg
  case withdrawNative caller amount recipient =>
    left
    have hn := h.native
    cases st with
    | waiting t a =>
      cases t with
      | ledger t => rw [hn.1]; simp
      | ext t => exact hn.elim
    | done o =>
      cases o with
      | trapped => rw [hn.1]; simp
      | killed => rw [show ev = [] from hn]; simp
      | replied r =>
        match r, hn with
        | some (.native (.ok i)), ⟨_, _, _, _, _, _, _, _, hev⟩ => rw [hev]; simp
        | some (.native (.error e)), hn => rw [hn.1]; simp
  case withdrawErc20 caller amount ledger recipient cached =>
    left
    have hn := h.erc20
    cases st with
    | waiting t a =>
      cases t with
      | ledger t =>
        obtain ⟨bl', hbl, hn⟩ := hn
        clear h
        cases t <;> try exact hn.elim
        case erc20Refund q am e => exact aft hn.2.2
        all_goals (rw [hn.2.1]; simp)
      | ext t =>
        clear h
        cases t <;> try exact hn.elim
        rw [hn.2.2]; simp
    | done o =>
      cases o with
      | trapped => rw [hn.2]; simp
      | killed =>
        rcases hn with hn | ⟨q, e, bl, hq, ha, hb⟩
        · rw [hn]; simp
        · exact aft ha
      | replied r =>
        match r, hn with
        | some (.erc20 (.ok (ni, i))), ⟨_, _, _, _, _, _, _, hev⟩ => rw [hev]; simp
        | some (.erc20 (.error e)), hn =>
          rcases hn with ⟨_, h0⟩ | ⟨q, bl, hq, ha, hb⟩
          · rw [h0]; simp
          · exact aft ha
  all_goals exact .inr (h.apart (fun h => by cases h)).2

/-- The recorded events, without those of installations and upgrades. -/
theorem log_eq_trace {w : World} (h : Reachable w) :
    w.mem.m.log.filter (fun e => e.origin ≠ .lifecycle) = (w.trace.map (·.2)).filter fun e => e.origin ≠ .lifecycle := by
  induction h with
  | init id a s blocks _ _ => rfl
  | step w w' hr hs ih =>
    have grow : ∀ {o : Origin} {c : Mem} (id : Nat), Grew o w.mem.m c.m →
        c.m.log.filter (fun e => e.origin ≠ .lifecycle) =
          ((w.trace ++ newEvents id w.mem c).map (·.2)).filter fun e => e.origin ≠ .lifecycle := by
      intro o c id hg
      obtain ⟨es, h1, _⟩ := hg.ext
      rw [h1, List.filter_append, ih, List.map_append, List.filter_append]
      congr 2
      simp [newEvents, h1, Function.comp_def]
    cases hs with
    | start msg now c n _ hr => exact grow _ (Message.run_grew hr)
    | startTrap msg now e _ hr => exact grow _ (Grew.refl .mint _)
    | execute pre post id t ht _ => exact ih
    | refuse pre post id t e ht _ => exact ih
    | reject pre post id t ht => exact ih
    | deliver pre post id t a now c n ht hr => exact grow _ (LedgerTask.resume_grew hr)
    | deliverTrap pre post id t a now e c ht hr hc => exact grow _ (Task.cleanup_grew hc)
    | kill pre post id t a c ht hc => exact grow _ (Task.cleanup_grew hc)
    | answer pre post id t o a now c n ht _ hr => exact grow _ (ExtTask.resume_grew hr)
    | answerTrap pre post id t o a now e c ht _ hr hc => exact grow _ (Task.cleanup_grew hc)
    | killExt pre post id t o c ht hc => exact grow _ (Task.cleanup_grew hc)
    | foreign call _ => exact ih
    | upgrade arg log s ht hp =>
      obtain ⟨_, es, h1, h2⟩ := postUpgrade_grew hp
      show log.filter _ = _
      rw [h1, List.filter_append, ih, (List.filter_eq_nil_iff (l := es)).2 fun e he => by simp [h2 e he], List.append_nil]

omit [Keccak] in
theorem flatMap_filter {α β : Type} {f : α → List β} {p : α → Bool} : ∀ {l : List α}, (∀ a ∈ l, p a = false → f a = []) →
    (l.filter p).flatMap f = l.flatMap f
  | [], _ => rfl
  | a :: l, h => by
    have ih := flatMap_filter (l := l) (p := p) fun b hb => h b (List.mem_cons_of_mem _ hb)
    rw [List.filter_cons, List.flatMap_cons]
    split
    · rw [List.flatMap_cons, ih]
    · rename_i hp
      rw [h a (List.mem_cons_self ..) (by simpa using hp), ih]; rfl

omit [Keccak] in
/-- Blocks named by events. -/
theorem burns_backed {w : World} {id : Nat} {e : Event} (h : e.Backed w id) {x : Principal × Nat}
    (hx : x ∈ e.burns w.mem.m.st.nativeLedgerId) : ∃ t, MadeBy w x.1 x.2 id t := by
  cases e <;> simp only [Event.burns, List.mem_cons, List.not_mem_nil, or_false] at hx <;> try exact hx.elim
  case acceptedNativeWithdrawalRequest r =>
    subst hx; obtain ⟨q, now, _, h⟩ := h; exact ⟨_, h⟩
  case acceptedErc20WithdrawalRequest r =>
    obtain ⟨q, now, _, _, h1, h2⟩ := h
    rcases hx with rfl | rfl
    · exact ⟨_, h1⟩
    · exact ⟨_, h2⟩
  case failedErc20WithdrawalRequest r =>
    subst hx; obtain ⟨q, now, _, _, _, h⟩ := h; exact ⟨_, h⟩

omit [Keccak] in
theorem nodup_flatMap' {α β : Type} {f : α → List β} : ∀ {l : List α}, (∀ a ∈ l, (f a).Nodup) →
    l.Pairwise (fun a b => ∀ x ∈ f a, x ∉ f b) → (l.flatMap f).Nodup
  | [], _, _ => List.nodup_nil
  | a :: l, h1, h2 => by
    rw [List.flatMap_cons, List.nodup_append]
    cases h2 with
    | cons h2 h3 =>
      refine ⟨h1 a (List.mem_cons_self ..), nodup_flatMap' (fun b hb => h1 b (List.mem_cons_of_mem _ hb)) h3, ?_⟩
      rintro x hx y hy rfl
      obtain ⟨b, hb, hy⟩ := List.mem_flatMap.1 hy
      exact h2 b hb x hx hy

/-- No block is named twice as a burn. -/
theorem burns_nodup {w : World} (h : Reachable w) : (w.mem.m.log.flatMap (Event.burns w.mem.m.st.nativeLedgerId)).Nodup := by
  have key : ∀ l : List Event, (l.filter fun e => e.origin ≠ .lifecycle).flatMap (Event.burns w.mem.m.st.nativeLedgerId) =
      l.flatMap (Event.burns w.mem.m.st.nativeLedgerId) := by
    intro l
    refine flatMap_filter fun e _ hp => Event.burns_nil ?_
    intro h
    simp [h] at hp
  rw [← key, log_eq_trace h, key, List.flatMap_map]
  refine nodup_flatMap' ?_ ?_
  · rintro ⟨id, e⟩ he
    have hb := trace_backed h he
    cases e <;> simp only [Event.burns, List.nodup_nil, List.nodup_cons, List.not_mem_nil, not_false_eq_true, and_self, List.mem_cons,
      or_false, and_true]
    obtain ⟨q, now, _, _, h1, h2⟩ := hb
    intro hh
    simp only [Prod.mk.injEq] at hh
    obtain ⟨e1, e2⟩ := hh
    rw [← e1, ← e2] at h2
    have := h1.1.symm.trans h2.1
    simp at this
  · rw [List.pairwise_iff_forall_sublist]
    rintro ⟨id, e⟩ ⟨id', e'⟩ hsub x hx hx'
    have hm : (id, e) ∈ w.trace := hsub.subset (by simp)
    have hm' : (id', e') ∈ w.trace := hsub.subset (by simp)
    obtain ⟨t, h1⟩ := burns_backed (trace_backed h hm) hx
    obtain ⟨t', h2⟩ := burns_backed (trace_backed h hm') hx'
    have := h1.1.symm.trans h2.1
    simp only [Option.some.injEq, Block.mk.injEq, Prod.mk.injEq] at this
    obtain ⟨_, rfl, _⟩ := this
    obtain ⟨msg, hs⟩ := trace_started h hm
    obtain ⟨st, hT, _⟩ := thread h hs
    have hev : [e, e'].Sublist (w.eventsOf id) := by
      have := (hsub.filter fun x => x.1 == id).map (·.2)
      simpa [World.eventsOf] using this
    rcases hT.one_burn_event with hl | hne
    · exact absurd (Nat.le_trans hev.length_le hl) (by simp)
    · have : e.burns w.mem.m.st.nativeLedgerId = [] := Event.burns_nil (hne e (hev.subset (by simp)))
      simp only [this, List.not_mem_nil] at hx

end
end EvmMinter
