import Verif.Lemmas.Truth
/-!
# The endpoints for withdrawals: recording cannot fail after a burn
-/

namespace EvmMinter
open Spec

/-- A withdrawal that has not recorded anything. -/
def Task.charging : Task → Bool
  | .ledger (.nativeFee _ _ _ _) | .ledger (.nativeBurn _ _ _ _) | .ledger (.nativeRefund _ _ _ _) => true
  | .ledger (.erc20Fee _ _) | .ledger (.erc20NativeBurn _ _) | .ledger (.erc20TokenBurn _ _ _) => true
  | .ext (.erc20Gas _) => true
  | _ => false

def Progress.Quiet (ev : List Event) : Progress → Prop
  | .waiting t _ => t.charging = true → ev = []
  | .done _ => True

section
variable [Keccak]

theorem Thread.quiet {W : World} {id : Nat} {msg : Message} {bl : List Block} {ev : List Event} {st : Progress}
    (h : Thread W id msg bl ev st) : st.Quiet ev := by
  have fin : ∀ {r : Option Reply} {ev : List Event}, (Next.finish r).status.Quiet ev := trivial
  have same : ∀ {c c' : Mem} {n : Next} {ev : List Event}, ev = [] → c'.m = c.m → n.status.Quiet (ev ++ news c c') := by
    intro c c' n ev h1 h2
    rw [h1, news_same h2]
    cases n with
    | await t => exact fun _ => rfl
    | finish r => trivial
  have calm : ∀ {n : Next} {ev : List Event}, (∀ t, n = .await t → t.charging = false) → n.status.Quiet ev := by
    intro n ev h
    cases n with
    | await t => intro ht; rw [h t rfl] at ht; cases ht
    | finish r => trivial
  have mint : ∀ {c c' : Mem} {env : MintEnv} {l : List Deposit} {n : Next} {ev : List Event}, c.mintLoop env l = .ok (c', n) → n.status.Quiet ev := by
    intro c c' env l n ev h
    refine calm fun t ht => ?_
    rcases Mem.mintLoop_next h with rfl | ⟨_, _, _, _, _, _, rfl⟩ <;> cases ht
    rfl
  have reimb : ∀ {c c' : Mem} {l : List (ReimbIndex × ReimbRequest)} {n : Next} {ev : List Event}, c.reimburseLoop l = .ok (c', n) → n.status.Quiet ev := by
    intro c c' l n ev h
    refine calm fun t ht => ?_
    rcases Mem.reimburseLoop_next h with rfl | ⟨_, _, _, _, rfl⟩ <;> cases ht
    rfl
  induction h with
  | start w now c n hb hn hty hr =>
    rcases Message.run_news hr with h | ⟨_, _, t, _, _, rfl⟩
    · exact same (ev := []) rfl h
    · trivial
  | startTrap w now e hb hn hty hr => trivial
  | execute w bl ev t _ hb hm hh h0 h1 ih => exact ih
  | refuse w bl ev t e _ hb hm hr ih => exact ih
  | reject w bl ev t _ hb hm ih => exact ih
  | deliver w bl ev t a now c n hT hb hm hr ih =>
    clear hT
    cases t <;> simp only [LedgerTask.resume] at hr
    case mintUser env d sym l amount rest =>
      rcases Mem.onMintUser_cases hr with ⟨i, fee, e, rfl, hi, rfl, hf, rfl, rfl⟩ | ⟨i, c1, rfl, hi, _, hp, hl⟩ | ⟨_, hl⟩
      · exact calm fun t ht => by cases ht; rfl
      · exact mint hl
      · exact mint hl
    case mintFee env d sym l fee block rest =>
      simp only [Mem.mintRecord, Res.bind_ok] at hr
      obtain ⟨c1, hp, hl⟩ := hr
      exact mint hl
    case reimburse x r l rest =>
      rcases Mem.onReimburse_cases hr with ⟨i, c1, rfl, hi, hp, hl⟩ | ⟨_, hl⟩
      · exact reimb hl
      · exact reimb hl
    case nativeFee q l fee t =>
      rcases Mem.onNativeFee_cases hr with ⟨i, amount, _, _, _, rfl, rfl⟩ | ⟨_, e, rfl, rfl⟩
      · exact same (ih rfl) rfl
      · trivial
    case nativeBurn q l amount at' =>
      rcases Mem.onNativeBurn_cases hr with ⟨i, c1, rfl, hi, hp, rfl, rfl⟩ | ⟨_, e, fee, _, rfl, rfl⟩ | ⟨_, _, e, rfl, rfl⟩
      · trivial
      · exact same (ih rfl) rfl
      · trivial
    case nativeRefund q l amount e =>
      obtain ⟨e', rfl, rfl⟩ := Mem.onNativeRefund_cases hr
      trivial
    case erc20Fee q t =>
      rcases Mem.onErc20Fee_cases hr with ⟨i, _, _, rfl, rfl⟩ | ⟨_, e, rfl, rfl⟩
      · exact same (ih rfl) rfl
      · trivial
    case erc20NativeBurn q at' =>
      rcases Mem.onErc20NativeBurn_cases hr with ⟨i, rfl, _, rfl, rfl⟩ | ⟨_, e, hf⟩
      · exact same (ih rfl) rfl
      · rcases Mem.erc20Fail_cases w.mem q (.nativeLedgerError e) with ⟨fee, _, h1⟩ | ⟨_, h1⟩ <;> rw [h1] at hf <;> cases hf
        · exact same (ih rfl) rfl
        · trivial
    case erc20TokenBurn q at' ni =>
      rcases Mem.onErc20TokenBurn_cases hr with ⟨i, c1, rfl, hi, hp, rfl, rfl⟩ | ⟨_, e, c1, _, hc, hf⟩
      · trivial
      · rcases Mem.erc20Fail_cases c1 q (.erc20LedgerError ni e) with ⟨fee, _, h1⟩ | ⟨_, h1⟩ <;> rw [h1] at hf <;> cases hf
        · exact calm fun t ht => by cases ht; rfl
        · trivial
    case erc20Refund q amount e =>
      obtain ⟨rfl, rfl⟩ := Mem.onErc20Refund_cases hr
      trivial
  | deliverTrap w bl ev t a now e c _ hb hm hr hc ih => trivial
  | kill w bl ev t a c _ hb hm hc ih => trivial
  | answer w bl ev t o a now c n _ hb hm ht hr ih =>
    rcases ExtTask.resume_next hr with ⟨q, g, rfl, hq, _⟩ | ⟨hne, hn⟩
    · exact same (ih rfl) ((Mem.onErc20Gas_m hq).trans rfl)
    · rcases hn with ⟨t', rfl, hne'⟩ | rfl
      · refine calm fun t ht => ?_
        cases ht
        cases t' <;> first | rfl | exact absurd rfl (hne' _)
      · trivial
  | answerTrap w bl ev t o a now e c _ hb hm ht hr hc ih => trivial
  | killExt w bl ev t o c _ hb hm hc ih => trivial

/-- A suspended withdrawal has not recorded anything. -/
theorem charging_quiet {w : World} (h : Reachable w) {id : Nat} {t : Task} {a : Option LedgerAnswer} (hp : ⟨id, t, a⟩ ∈ w.tasks)
    (hc : t.charging = true) (e : Event) : (id, e) ∉ w.trace := by
  have I := idInv h
  have h1 : id < w.nextId := I.lt _ (List.mem_append_left _ (List.mem_map_of_mem (f := Pending.id) hp))
  have h2 : id ∈ w.started.map (·.1) := by rw [I.started]; exact List.mem_range.2 h1
  obtain ⟨⟨i, msg⟩, hy, h3⟩ := List.mem_map.1 h2
  simp only at h3
  subst h3
  obtain ⟨st, ht, hh⟩ := thread h hy
  have := I.has_unique hp hh
  subst this
  have h4 := ht.quiet hc
  intro he
  have h5 : e ∈ w.eventsOf i := List.mem_map.2 ⟨(i, e), List.mem_filter.2 ⟨he, by simp⟩, rfl⟩
  rw [h4] at h5
  cases h5

omit [Keccak] in
/-- A block was made by one task. -/
theorem MadeBy.unique {w : World} {l : Principal} {i id id' : Nat} {t t' : LedgerTask} (h : MadeBy w l i id t) (h' : MadeBy w l i id' t') :
    id = id' ∧ t = t' := by
  have := h.1.symm.trans h'.1
  simp only [Option.some.injEq, Block.mk.injEq, Prod.mk.injEq] at this
  exact this.2

/-- Nobody has recorded a request for a burn whose message has not recorded it. -/
theorem unknown_of_quiet {w : World} (h : Reachable w) {id i : Nat} {t : LedgerTask} (hm : MadeBy w w.mem.m.st.nativeLedgerId i id t)
    (hq : ∀ e, (id, e) ∉ w.trace) : ¬ KnownIndex w.mem.m.log i ∧ ¬ KnownReimb w.mem.m.log (.native i) := by
  have req : ∀ r : Request, r.event ∈ w.mem.m.log → r.burnIndex ≠ i := by
    intro r hr hi
    cases r with
    | native r =>
      obtain ⟨id', h1, q, now, _, h2⟩ := log_backed h hr (by simp [Request.event, Event.origin])
      have hi : r.ledgerBurnIndex = i := hi
      rw [hi] at h2
      exact hq _ ((h2.unique hm).1 ▸ h1)
    | erc20 r =>
      obtain ⟨id', h1, q, now, _, _, h2, _⟩ := log_backed h hr (by simp [Request.event, Event.origin])
      have hi : r.nativeLedgerBurnIndex = i := hi
      rw [hi] at h2
      exact hq _ ((h2.unique hm).1 ▸ h1)
  refine ⟨fun ⟨r, h1, h2⟩ => req r h2 h1, ?_⟩
  rintro (⟨r, h1, h2⟩ | ⟨r, h1, h2⟩)
  · refine req r h2 ?_
    cases r with
    | native r => simp only [ReimbIndex.ofRequest, ReimbIndex.native.injEq] at h1; exact h1.symm
    | erc20 r => simp [ReimbIndex.ofRequest] at h1
  · obtain ⟨id', k1, q, now, _, _, _, k2⟩ := log_backed h h2 (by simp [Event.origin])
    simp only [ReimbIndex.native.injEq] at h1
    rw [← h1] at k2
    exact hq _ ((k2.unique hm).1 ▸ k1)

/-- A request with an unknown index can be recorded. -/
theorem KnownInv.record {log : List Event} {t : Transactions} (I : KnownInv log t) {r : Request} (h : ¬ KnownIndex log r.burnIndex) :
    t.recordWithdrawalRequest r = .ok { t with pending := t.pending ++ [r] } := by
  simp only [Transactions.recordWithdrawalRequest, Res.bind_ok, Res.ensure_ok, Res.pure_ok, Bool.not_eq_true', Bool.or_eq_false_iff,
    List.any_eq_false, beq_iff_eq]
  refine ⟨(), ⟨⟨⟨fun r' hr' he => h ⟨r', he, I.pending r' hr'⟩, ?_⟩, ?_⟩, ?_⟩, trivial⟩
  · cases hc : t.created.containsAlt r.burnIndex with
    | false => rfl
    | true => obtain ⟨n, c, hh⟩ := (MKM.containsAlt_eq I.maps.cw).1 hc; exact absurd (I.created hh) h
  · cases hc : t.sent.containsAlt r.burnIndex with
    | false => rfl
    | true => obtain ⟨n, c, hh⟩ := (MKM.containsAlt_eq I.maps.sw).1 hc; exact absurd (I.sent hh) h
  · cases hc : t.finalized.containsAlt r.burnIndex with
    | false => rfl
    | true => obtain ⟨n, c, hh⟩ := (MKM.containsAlt_eq I.maps.fw).1 hc; exact absurd (I.finalized hh) h

theorem Mem.process_of_apply {c : Mem} {e : Event} (h : ∃ s, applyEvent c.m.st e = .ok s) : ∃ c', c.process e = .ok c' := by
  obtain ⟨s, h⟩ := h
  exact ⟨_, Mem.process_iff.2 ⟨s, h, rfl⟩⟩

/-- Quarantined reimbursements are known. -/
theorem reimbursed_known {w : World} (h : Reachable w) {x : ReimbIndex} {r : ReimbResult}
    (hx : w.mem.m.st.txs.reimbursed.get x = some r) : KnownReimb w.mem.m.log x := by
  rcases (known_of_tracks (tracks h)).reimbursed hx with h1 | h1
  · exact h1
  · obtain ⟨id, _, h2⟩ := log_backed h h1 (by simp [Event.origin])
    exact h2

theorem record_native_ok {w : World} (h : Reachable w) {id i : Nat} {q : NativeCall} {amount : Wei} {now : Nat} {r : NativeRequest}
    (hp : ⟨id, .ledger (.nativeBurn q w.mem.m.st.nativeLedgerId amount now), some (.block i)⟩ ∈ w.tasks) (hr : r.ledgerBurnIndex = i) :
    ∃ c, w.mem.process (.acceptedNativeWithdrawalRequest r) = .ok c := by
  obtain ⟨h1, h2⟩ := (answerInv h).block hp rfl rfl
  have hk := (unknown_of_quiet h ⟨h2, rfl, h1⟩ (charging_quiet h hp rfl)).1
  have := (known_of_tracks (tracks h)).record (r := .native r) (by show ¬ KnownIndex _ r.ledgerBurnIndex; rw [hr]; exact hk)
  refine Mem.process_of_apply ?_
  simp only [applyEvent, liftTxs, this, Res.bind_ok, Except.ok.injEq, exists_eq_left']
  exact ⟨_, rfl⟩

theorem record_erc20_ok {w : World} (h : Reachable w) {id : Nat} {q : Erc20Charged} {now ni : Nat} {a : Option LedgerAnswer}
    {r : Erc20Request} (hp : ⟨id, .ledger (.erc20TokenBurn q now ni), a⟩ ∈ w.tasks) (hr : r.nativeLedgerBurnIndex = ni)
    (hc : r.erc20ContractAddress = q.token.erc20ContractAddress) :
    ∃ c, w.mem.process (.acceptedErc20WithdrawalRequest r) = .ok c := by
  obtain ⟨ok, hm⟩ := task_ok h hp
  have hk := (unknown_of_quiet h hm (charging_quiet h hp rfl)).1
  have := (known_of_tracks (tracks h)).record (r := .erc20 r) (by show ¬ KnownIndex _ r.nativeLedgerBurnIndex; rw [hr]; exact hk)
  have hreg := (DMKM.containsAlt_eq (registry_of_tracks (tracks h)).wf).2 ⟨_, _, hc ▸ ok.2⟩
  refine Mem.process_of_apply ?_
  simp only [applyEvent, State.recordErc20WithdrawalRequest, this, Res.bind_ok, Except.ok.injEq, exists_eq_left', Res.ensure_ok]
  exact ⟨_, (), hreg, rfl⟩

theorem record_failed_ok {w : World} (h : Reachable w) {id : Nat} {q : Erc20Charged} {now ni : Nat} {a : Option LedgerAnswer}
    {r : ReimbRequest} (hp : ⟨id, .ledger (.erc20TokenBurn q now ni), a⟩ ∈ w.tasks) (hr : r.ledgerBurnIndex = ni) :
    ∃ c, w.mem.process (.failedErc20WithdrawalRequest r) = .ok c := by
  obtain ⟨ok, hm⟩ := task_ok h hp
  obtain ⟨hk, hk'⟩ := unknown_of_quiet h hm (charging_quiet h hp rfl)
  have I := known_of_tracks (tracks h)
  subst hr
  refine Mem.process_of_apply ?_
  simp only [applyEvent, liftTxs, Transactions.recordReimbursementRequest, Res.bind_ok, Res.ensure_ok, Res.pure_ok, Bool.not_eq_true',
    FMap.contains_eq_false]
  refine ⟨_, _, ⟨(), ?_, (), ?_, (), ?_, rfl⟩, rfl⟩
  · cases hh : w.mem.m.st.txs.maybeReimburse.get (ReimbIndex.withdrawalId (.native r.ledgerBurnIndex)) with
    | none => rfl
    | some u => exact absurd (I.maybe hh) hk
  · cases hh : w.mem.m.st.txs.reimbursed.get (.native r.ledgerBurnIndex) with
    | none => rfl
    | some u => exact absurd (reimbursed_known h hh) hk'
  · cases hh : w.mem.m.st.txs.reimbursementRequests.get (.native r.ledgerBurnIndex) with
    | none => rfl
    | some u => exact absurd (I.requests hh).2 hk'

end
end EvmMinter
