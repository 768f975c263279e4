import Verif.Lemmas.Handlers
import Verif.Props.C04
import Verif.Props.C20
import Verif.Props.C49
/-!
# C59: nothing is given up unless a callback traps
-/

namespace EvmMinter
open Spec

namespace Spec

/-- The deposit was credited: a ledger minted its value, less a fee for native deposits, to the account it names. -/
def World.Credited (w : World) (d : Deposit) : Prop :=
  ∃ b ∈ w.blocks, ∃ fee amount, LedgerFor w.mem.m.st d b.call.ledger ∧ b.call.op = .mint ⟨d.principal, d.subaccount⟩ amount ∧
    b.call.memo = some d.memo ∧ amount + fee = d.value ∧ ((∃ e, d = .erc20 e) → fee = 0)

/-- The reimbursement was paid. -/
def World.Repaid (w : World) (x : ReimbIndex) (r : ReimbRequest) : Prop :=
  ∃ b ∈ w.blocks, b.call = ⟨match x with | .native _ => w.mem.m.st.nativeLedgerId | .erc20 _ l _ => l,
    .mint ⟨r.to, r.toSubaccount⟩ r.reimbursedAmount, some (reimbursementMemo r.ledgerBurnIndex r.transactionHash)⟩

/-- The event gives up a deposit or a reimbursement. -/
def _root_.EvmMinter.Event.givesUp : Event → Bool
  | .quarantinedDeposit _ | .quarantinedReimbursement _ => true
  | _ => false

end Spec

section
variable [Keccak]

/-- What a step does to deposits and reimbursements. -/
inductive StepKind (w : World) : World → Prop where
  | other (w' : World) (o : Origin) : Grew o w.mem.m w'.mem.m → o ≠ .mint → o ≠ .reimburse →
      (∀ x ∈ w'.trace, x ∈ w.trace ∨ x.2.origin = o) → StepKind w w'
  | deliver (pre post : List Pending) (id : Nat) (t : LedgerTask) (a : LedgerAnswer) (now : Nat) (c : Mem) (n : Next) :
      w.tasks = pre ++ ⟨id, .ledger t, some a⟩ :: post → t.resume w.mem a now = .ok (c, n) → t.deposit.isSome ∨ t.reimb.isSome →
      StepKind w (w.advance pre post id c n)
  | drop (pre post : List Pending) (id : Nat) (t : LedgerTask) (a : LedgerAnswer) (c : Mem) (o : Outcome) :
      w.tasks = pre ++ ⟨id, .ledger t, some a⟩ :: post → (Task.ledger t).cleanup w.mem = .ok c →
      (o = .killed ∨ o = .trapped ∧ ∃ now e, t.resume w.mem a now = .error e) → t.deposit.isSome ∨ t.reimb.isSome →
      StepKind w (w.drop pre post id c o)

theorem mem_newEvents {o : Origin} {c c' : Mem} (h : Grew o c.m c'.m) {id : Nat} {x : Nat × Event} (hx : x ∈ newEvents id c c') :
    x.2.origin = o := by
  obtain ⟨e, he, rfl⟩ := List.mem_map.1 hx
  exact news_of_grew h e he

theorem Step.kind {w w' : World} (hs : Step w w') : StepKind w w' := by
  have adv : ∀ {o : Origin} {c : Mem} {id : Nat}, Grew o w.mem.m c.m → ∀ x ∈ w.trace ++ newEvents id w.mem c, x ∈ w.trace ∨ x.2.origin = o := by
    intro o c id g x hx
    rcases List.mem_append.1 hx with hx | hx
    · exact .inl hx
    · exact .inr (mem_newEvents g hx)
  have hled : ∀ (t : LedgerTask), ¬ (t.deposit.isSome ∨ t.reimb.isSome) → t.origin ≠ .mint ∧ t.origin ≠ .reimburse := by
    intro t; cases t <;> simp [LedgerTask.origin, LedgerTask.reimb, LedgerTask.deposit]
  have hext : ∀ (t : ExtTask), t.origin ≠ .mint ∧ t.origin ≠ .reimburse := by intro t; cases t <;> simp [ExtTask.origin]
  cases hs with
  | start msg now c n _ hr =>
    by_cases hm : c.m = w.mem.m
    · have g : Grew .scrape w.mem.m c.m := .of_eq hm
      exact .other _ _ g (by simp) (by simp) (adv g)
    · have g := Message.run_grew hr
      rcases Message.run_news hr with h | ⟨_, _, _, rfl, _⟩
      · exact absurd h hm
      · exact .other _ _ g (by simp [Message.origin]) (by simp [Message.origin]) (adv g)
  | startTrap msg now e _ hr => exact .other _ .scrape (.refl _ _) (by simp) (by simp) (adv (.refl _ _))
  | execute pre post id t ht hh => exact .other _ .scrape (.refl _ _) (by simp) (by simp) fun x hx => .inl hx
  | refuse pre post id t e ht hh => exact .other _ .scrape (.refl _ _) (by simp) (by simp) fun x hx => .inl hx
  | reject pre post id t ht => exact .other _ .scrape (.refl _ _) (by simp) (by simp) fun x hx => .inl hx
  | deliver pre post id t a now c n ht hr =>
    by_cases h : t.deposit.isSome ∨ t.reimb.isSome
    · exact .deliver pre post id t a now c n ht hr h
    · have g := LedgerTask.resume_grew hr
      exact .other _ _ g (hled t h).1 (hled t h).2 (adv g)
  | deliverTrap pre post id t a now e c ht hr hc =>
    by_cases h : t.deposit.isSome ∨ t.reimb.isSome
    · exact .drop pre post id t a c _ ht hc (.inr ⟨rfl, now, e, hr⟩) h
    · have g := Task.cleanup_grew hc
      exact .other _ _ g (hled t h).1 (hled t h).2 (adv g)
  | kill pre post id t a c ht hc =>
    by_cases h : t.deposit.isSome ∨ t.reimb.isSome
    · exact .drop pre post id t a c _ ht hc (.inl rfl) h
    · have g := Task.cleanup_grew hc
      exact .other _ _ g (hled t h).1 (hled t h).2 (adv g)
  | answer pre post id t o a now c n ht _ hr =>
    have g := ExtTask.resume_grew hr
    exact .other _ _ g (hext t).1 (hext t).2 (adv g)
  | answerTrap pre post id t o a now e c ht _ hr hc =>
    have g := Task.cleanup_grew hc
    exact .other _ _ g (hext t).1 (hext t).2 (adv g)
  | killExt pre post id t o c ht hc =>
    have g := Task.cleanup_grew hc
    exact .other _ _ g (hext t).1 (hext t).2 (adv g)
  | foreign call hf => exact .other _ .scrape (.refl _ _) (by simp) (by simp) fun x hx => .inl hx
  | upgrade arg log s ht hp =>
    obtain ⟨h1, es, h2, h3⟩ := postUpgrade_grew hp
    have g : Grew .lifecycle w.mem.m ⟨s, log⟩ := ⟨⟨es, h2, h3⟩, fun _ => h1, fun _ h => absurd rfl h, fun _ h => absurd rfl h⟩
    exact .other _ _ g (by simp) (by simp) fun x hx => .inl hx

/-- Between `w` and `w'` a callback of message `id`, of a task with `P`, is cut off or traps. -/
def Dropped (w w' : World) (id : Nat) (P : LedgerTask → Prop) : Prop :=
  ∃ t a o, ⟨id, .ledger t, some a⟩ ∈ w.tasks ∧ P t ∧ (id, o) ∈ w'.finished ∧
    (o = .killed ∨ o = .trapped ∧ ∃ now e, t.resume w.mem a now = .error e)

/-! ## Reimbursements -/

/-- What is owed is not settled. -/
theorem owed_not_reimbursed {log : List Event} {s : State} (h : Tracks log s) (hn : NonceNeverLowered log) {x : ReimbIndex} {r : ReimbRequest}
    (hx : s.txs.reimbursementRequests.get x = some r) : s.txs.reimbursed.get x = none := by
  obtain ⟨s₀, h1, _, _, h4⟩ := h
  rw [h4] at hx ⊢
  refine Classical.byContradiction fun hc => ?_
  have := (C19_reimbursements_justified h1 hn).2.2.2.2 x hc
  rw [show s₀.txs.reimbursementRequests.get x = some r from hx] at this
  cases this

/-- Recording a payment does not trap. -/
theorem process_reimbursed_ok {c : Mem} {x : ReimbIndex} {r : ReimbRequest} {i : Nat} (h : Tracks c.m.log c.m.st)
    (hn : NonceNeverLowered c.m.log) (hx : c.m.st.txs.reimbursementRequests.get x = some r) :
    ∃ c', c.process (reimbursedEvent x r i) = .ok c' ∧
      c'.m.st.txs.reimbursed.get x = some (.ok ⟨i, x.burnInBlock, r.reimbursedAmount, r.transactionHash⟩) ∧
      c' = { c with m := c'.m } := by
  have hb := ((known_of_tracks h).requests hx).1
  have h0 := owed_not_reimbursed h hn hx
  have hrec : ∃ t, c.m.st.txs.recordFinalizedReimbursement x i = .ok t ∧
      t.reimbursed.get x = some (.ok ⟨i, x.burnInBlock, r.reimbursedAmount, r.transactionHash⟩) := by
    refine ⟨{ c.m.st.txs with
      reimbursementRequests := c.m.st.txs.reimbursementRequests.erase x
      reimbursed := c.m.st.txs.reimbursed.insert x (.ok ⟨i, x.burnInBlock, r.reimbursedAmount, r.transactionHash⟩) }, ?_, FMap.get_insert_self _ _ _⟩
    simp [Transactions.recordFinalizedReimbursement, hx, (FMap.contains_eq_false).2 h0, ensure, expect, bind, Except.bind, pure, Except.pure]
  obtain ⟨t, hrec, ht⟩ := hrec
  have key : ∃ s', applyEvent c.m.st (reimbursedEvent x r i) = .ok s' ∧
      s'.txs.reimbursed.get x = some (.ok ⟨i, x.burnInBlock, r.reimbursedAmount, r.transactionHash⟩) := by
    cases x with
    | native k =>
      have hk : r.ledgerBurnIndex = k := hb
      refine ⟨{ c.m.st with txs := t }, ?_, ht⟩
      simp only [reimbursedEvent, applyEvent, hk, hrec]
      rfl
    | erc20 n l k =>
      have hk : r.ledgerBurnIndex = k := hb
      refine ⟨{ c.m.st with txs := t }, ?_, ht⟩
      simp only [reimbursedEvent, applyEvent, hk, hrec]
      rfl
  obtain ⟨s', k1, k2⟩ := key
  exact ⟨{ c with m := ⟨s', c.m.log ++ [reimbursedEvent x r i]⟩ }, Mem.process_iff.2 ⟨s', k1, rfl⟩, k2, rfl⟩

omit [Keccak] in
theorem reimburseLoop_ok (c : Mem) (l : List (ReimbIndex × ReimbRequest)) : ∃ c' n, c.reimburseLoop l = .ok (c', n) := by
  cases l with
  | nil => exact ⟨_, _, rfl⟩
  | cons y l => exact ⟨_, _, rfl⟩

/-- The suspended reimbursement. -/
theorem reimb_claim {w : World} (h : Reachable w) {id : Nat} {x : ReimbIndex} {r : ReimbRequest} {l : Principal}
    {rest : List (ReimbIndex × ReimbRequest)} {a : Option LedgerAnswer} (hm : ⟨id, .ledger (.reimburse x r l rest), a⟩ ∈ w.tasks) :
    ReimbQueue w.mem.m.st ((x, r) :: rest) ∧ l = w.mem.reimbursementLedger x :=
  (reimbInv h).claim (p := ⟨id, .ledger (.reimburse x r l rest), a⟩) (List.mem_filter.2 ⟨hm, rfl⟩) rfl

/-- A reimbursement does not trap by itself. -/
theorem reimburse_resume_ok {w : World} (h : Reachable w) (hn : NonceNeverLowered w.mem.m.log) {id : Nat} {x : ReimbIndex} {r : ReimbRequest}
    {l : Principal} {rest : List (ReimbIndex × ReimbRequest)} {a : LedgerAnswer}
    (hm : ⟨id, .ledger (.reimburse x r l rest), some a⟩ ∈ w.tasks) (now : Nat) :
    ∃ c n, (LedgerTask.reimburse x r l rest).resume w.mem a now = .ok (c, n) := by
  have hq := (reimb_claim h hm).1.waiting (x, r) (by simp)
  cases a with
  | block i =>
    have hi := ((answerInv h).block hm rfl rfl).1
    obtain ⟨c', h1, _⟩ := process_reimbursed_ok (i := i) (tracks h) hn hq
    obtain ⟨c'', n, h2⟩ := reimburseLoop_ok c' rest
    refine ⟨c'', n, ?_⟩
    simp [LedgerTask.resume, Mem.onReimburse, toU64_ok.2 ⟨rfl, hi⟩, h1, h2, bind, Except.bind]
  | refused e => exact reimburseLoop_ok _ _
  | rejected => exact reimburseLoop_ok _ _

/-! ## Giving up -/

/-- The callback of a mint traps only for a deposit that is smaller than the fee. -/
theorem mint_trap {w : World} (h : Reachable w) {id : Nat} {t : LedgerTask} {a : LedgerAnswer} (hm : ⟨id, .ledger t, some a⟩ ∈ w.tasks)
    (hd : t.deposit.isSome) {now : Nat} {e : String} (hr : t.resume w.mem a now = .error e) :
    ∃ src d, w.mem.m.st.eventsToMint.get src = some d ∧ TooSmall w.mem.m.st d := by
  refine Classical.byContradiction fun hc => ?_
  obtain ⟨c, n, hk⟩ := (C04_partial h (fun src d h1 h2 => hc ⟨src, d, h1, h2⟩)).2 _ hm t a now rfl rfl hd
  rw [hk] at hr; cases hr

/-- What a mint or a reimbursement records that goes on. -/
theorem resume_news_keeps {c c' : Mem} {t : LedgerTask} {a : LedgerAnswer} {now : Nat} {n : Next} (hd : t.deposit.isSome ∨ t.reimb.isSome)
    (hr : t.resume c a now = .ok (c', n)) : ∀ e ∈ news c c', e.givesUp = false := by
  have one : ∀ {c c' : Mem} {e : Event}, news c c' = [e] → e.givesUp = false → ∀ e ∈ news c c', e.givesUp = false := by
    intro c c' e h1 h2 e' he
    rw [h1, List.mem_singleton] at he
    exact he ▸ h2
  have none' : ∀ {c c' : Mem}, c'.m = c.m → ∀ e ∈ news c c', e.givesUp = false := by
    intro c c' hm e he
    rw [news_same hm] at he; cases he
  cases t <;> simp only [LedgerTask.resume] at hr
  case mintUser env d sym l amount rest =>
    rcases Mem.onMintUser_cases hr with ⟨i, fee, e, rfl, hi, rfl, hf, rfl, rfl⟩ | ⟨i, c1, rfl, hi, _, hp, hl⟩ | ⟨_, hl⟩
    · exact none' rfl
    · exact one ((news_eq (Mem.mintLoop_m hl)).trans (news_process hp)) (by cases d <;> rfl)
    · exact none' (Mem.mintLoop_m hl)
  case mintFee env d sym l fee block rest =>
    simp only [Mem.mintRecord, Res.bind_ok] at hr
    obtain ⟨c1, hp, hl⟩ := hr
    exact one ((news_eq (Mem.mintLoop_m hl)).trans (news_process hp)) (by cases d <;> rfl)
  case reimburse x r l rest =>
    rcases Mem.onReimburse_cases hr with ⟨i, c1, rfl, hi, hp, hl⟩ | ⟨_, hl⟩
    · exact one ((news_eq (Mem.reimburseLoop_m hl)).trans (news_process hp)) (by cases x <;> rfl)
    · exact none' (Mem.reimburseLoop_m hl)
  all_goals simp [LedgerTask.deposit, LedgerTask.reimb] at hd

/-- **C59**: a deposit or a reimbursement is given up only by a message that ended in the same step: its callback was made to trap,
or, for deposits, trapped because some waiting deposit was smaller than the fee (see C04). -/
theorem C59_given_up {w : World} (h : Reachable w) (hn : NonceNeverLowered w.mem.m.log) {id : Nat} {e : Event} (he : (id, e) ∈ w.trace)
    (hg : e.givesUp = true) :
    (id, .killed) ∈ w.finished ∨ (id, .trapped) ∈ w.finished ∧ (∃ src, e = .quarantinedDeposit src) ∧
      ∃ w₀ src d, Leads w₀ w ∧ w₀.mem.m.st.eventsToMint.get src = some d ∧ TooSmall w₀.mem.m.st d := by
  induction h with
  | init => cases he
  | step w w' hr hs ih =>
    obtain ⟨l, hl⟩ := (Step.grows hr hs).finished
    obtain ⟨es, hes⟩ := (Step.grows hr hs).log
    have hn' : NonceNeverLowered w.mem.m.log := by rw [hes] at hn; exact nonceNeverLowered_prefix hn
    have old : (id, e) ∈ w.trace → _ := fun hx => (ih hn' hx).imp (fun h => (show _ ∈ w'.finished by rw [hl]; exact List.mem_append_left _ h))
      fun ⟨h1, h2, w₀, src, d, h3, h4⟩ => (⟨by rw [hl]; exact List.mem_append_left _ h1, h2, w₀, src, d, .step _ _ _ h3 hs, h4⟩ :
        (id, Outcome.trapped) ∈ w'.finished ∧ (∃ src, e = Event.quarantinedDeposit src) ∧
          ∃ w₀ src d, Leads w₀ w' ∧ w₀.mem.m.st.eventsToMint.get src = some d ∧ TooSmall w₀.mem.m.st d)
    cases Step.kind hs with
    | other _ o g h1 h2 h3 =>
      rcases h3 _ he with h | h
      · exact old h
      · exfalso
        cases e <;> simp [Event.givesUp] at hg
        · exact h1 h.symm
        · exact h2 h.symm
    | deliver pre post id' t a now c n ht hr' hd =>
      rcases List.mem_append.1 he with he | he
      · exact old he
      · obtain ⟨e', h1, h2⟩ := List.mem_map.1 he
        cases h2
        rw [resume_news_keeps hd hr' e h1] at hg
        cases hg
    | drop pre post id' t a c o ht hc ho hd =>
      rcases List.mem_append.1 he with he | he
      · exact old he
      · obtain ⟨e', h1, h2⟩ := List.mem_map.1 he
        cases h2
        have hm : (⟨id, .ledger t, some a⟩ : Pending) ∈ w.tasks := by rw [ht]; simp
        rcases ho with rfl | ⟨rfl, now, msg, hr'⟩
        · exact .inl (List.mem_append_right _ (by simp))
        · have hdep : t.deposit.isSome := by
            rcases hd with hd | hd
            · exact hd
            · obtain ⟨x, hx⟩ := Option.isSome_iff_exists.1 hd
              obtain ⟨r, l, rest, rfl⟩ := LedgerTask.reimb_eq hx
              obtain ⟨c', n, hk⟩ := reimburse_resume_ok hr hn' hm now
              rw [hk] at hr'; cases hr'
          obtain ⟨src, d, k1, k2⟩ := mint_trap hr hm hdep hr'
          refine .inr ⟨List.mem_append_right _ (by simp), ?_, w, src, d, .step _ _ _ (.refl _) hs, k1, k2⟩
          have h1 : e ∈ news w.mem c := h1
          rcases Task.cleanup_news hc with h | ⟨src', h⟩ | ⟨x, r, l, rest, hx, h⟩
          · rw [h] at h1; cases h1
          · rw [h, List.mem_singleton] at h1; exact ⟨src', h1⟩
          · cases hx; cases hdep

/-! ## What is waiting is not lost -/

omit [Keccak] in
theorem repaid_grows {w w' : World} (h : Grows w w') {x : ReimbIndex} {r : ReimbRequest} (hr : w.Repaid x r) : w'.Repaid x r := by
  obtain ⟨bs, hb⟩ := h.blocks
  obtain ⟨b, h1, h2⟩ := hr
  refine ⟨b, by rw [hb]; exact List.mem_append_left _ h1, h2.trans ?_⟩
  cases x with
  | native k => rw [show w'.mem.m.st.nativeLedgerId = w.mem.m.st.nativeLedgerId from congrArg FixedConfig.nativeLedgerId h.fixed]
  | erc20 _ _ _ => rfl

/-- The payment that is being recorded. -/
theorem repaid_of_block {w : World} (h : Reachable w) {id i : Nat} {x : ReimbIndex} {r : ReimbRequest} {l : Principal}
    {rest : List (ReimbIndex × ReimbRequest)} (hm : ⟨id, .ledger (.reimburse x r l rest), some (.block i)⟩ ∈ w.tasks) : w.Repaid x r := by
  have hp := (reimbInv h).current (p := ⟨id, .ledger (.reimburse x r l rest), some (.block i)⟩) (List.mem_filter.2 ⟨hm, rfl⟩) rfl
  obtain ⟨b, hb, hc⟩ : ∃ b ∈ w.blocks, b.call = reimbCall l r := by
    have : reimbCall l r ∈ repaidFor w.blocks x := by rw [hp]; simp [Pending.repaid, executed]
    obtain ⟨b, h1, h2⟩ := List.mem_map.1 this
    exact ⟨b, (List.mem_filter.1 h1).1, h2⟩
  refine ⟨b, hb, hc.trans ?_⟩
  rw [(reimb_claim h hm).2]
  unfold reimbCall ReimbRequest.memo reimbursementMemo
  cases x <;> cases r.transactionHash <;> rfl

theorem Step.owed {w w' : World} (h : Reachable w) (hs : Step w w') {x : ReimbIndex} {r : ReimbRequest}
    (hx : w.mem.m.st.txs.reimbursementRequests.get x = some r) :
    w'.mem.m.st.txs.reimbursementRequests.get x = some r ∨ w'.Repaid x r ∨
      ∃ id, (id, .quarantinedReimbursement x) ∈ w'.trace ∧ Dropped w w' id (·.reimb.isSome) := by
  have T := tracks h
  have G := Step.grows h hs
  cases Step.kind hs with
  | other _ o g h1 h2 h3 => exact .inl ((g.reimbFrame T h2).keep hx)
  | deliver pre post id t a now c n ht hr hd =>
    cases hd' : t.reimb with
    | none =>
      have ho : t.origin ≠ .reimburse := by cases t <;> simp [LedgerTask.origin, LedgerTask.reimb] at hd' ⊢
      exact .inl (((LedgerTask.resume_grew hr).reimbFrame T ho).keep hx)
    | some y =>
      obtain ⟨q, l, rest, rfl⟩ := LedgerTask.reimb_eq hd'
      have hm : (⟨id, .ledger (.reimburse y q l rest), some a⟩ : Pending) ∈ w.tasks := by rw [ht]; simp
      have hq := (reimb_claim h hm).1.waiting (y, q) (by simp)
      simp only [LedgerTask.resume] at hr
      rcases Mem.onReimburse_cases hr with ⟨i, c1, rfl, hi, hp, hl⟩ | ⟨_, hl⟩
      · have hcm := Mem.reimburseLoop_m hl
        obtain ⟨s, hs', rfl⟩ := Mem.process_iff.1 hp
        have hset := settles_reimbursed ((known_of_tracks T).requests hq).1 hs'
        by_cases hxy : x = y
        · subst hxy
          rw [hx] at hq
          cases hq
          exact .inr (.inl (repaid_grows G (repaid_of_block h hm)))
        · refine .inl ?_
          show c.m.st.txs.reimbursementRequests.get x = some r
          rw [hcm]
          exact hset.keep hxy hx
      · refine .inl ?_
        show c.m.st.txs.reimbursementRequests.get x = some r
        rw [Mem.reimburseLoop_m hl]; exact hx
  | drop pre post id t a c o ht hc ho hd =>
    cases hd' : t.reimb with
    | none =>
      have ho : t.origin ≠ .reimburse := by cases t <;> simp [LedgerTask.origin, LedgerTask.reimb] at hd' ⊢
      exact .inl (((Task.cleanup_grew hc).reimbFrame T ho).keep hx)
    | some y =>
      obtain ⟨q, l, rest, rfl⟩ := LedgerTask.reimb_eq hd'
      simp only [Task.cleanup, Res.bind_ok, Res.pure_ok] at hc
      obtain ⟨c1, h1, rfl⟩ := hc
      by_cases hxy : x = y
      · subst hxy
        refine .inr (.inr ⟨id, List.mem_append_right _ (List.mem_map.2 ⟨_, ?_, rfl⟩), _, a, o, (by rw [ht]; simp), rfl,
          List.mem_append_right _ (by simp), ho⟩)
        have hn : news w.mem (c1.release .reimbursement) = _ := (news_eq (c' := c1) rfl).trans (news_process h1)
        show _ ∈ news w.mem (c1.release .reimbursement)
        rw [hn]
        simp
      · obtain ⟨s, hs', rfl⟩ := Mem.process_iff.1 h1
        exact .inl ((settles_quarantinedReimb hs').keep hxy hx)

theorem Step.trace_mono {w w' : World} (hs : Step w w') {x : Nat × Event} (hx : x ∈ w.trace) : x ∈ w'.trace := by
  cases hs <;> first | exact hx | exact List.mem_append_left _ hx

/-- **C59**, reimbursements: what the minter owes at some time it still owes later, with the same amount and account, or a ledger
has minted exactly that amount to exactly that account, or it was given up by a message whose callback was made to trap. In
particular a refused or failed call leaves it owed. -/
theorem C59_reimbursement {w₀ w : World} (h : Reachable w₀) (hl : Leads w₀ w) (hn : NonceNeverLowered w.mem.m.log) {x : ReimbIndex}
    {r : ReimbRequest} (hx : w₀.mem.m.st.txs.reimbursementRequests.get x = some r) :
    w.mem.m.st.txs.reimbursementRequests.get x = some r ∨ w.Repaid x r ∨
      ∃ id, (id, .quarantinedReimbursement x) ∈ w.trace ∧ (id, .killed) ∈ w.finished := by
  have key : w.mem.m.st.txs.reimbursementRequests.get x = some r ∨ w.Repaid x r ∨ ∃ id, (id, .quarantinedReimbursement x) ∈ w.trace := by
    clear hn
    induction hl with
    | refl => exact .inl hx
    | step w w' hl hs ih =>
      have hr := hl.reachable h
      rcases ih with ih | ih | ⟨id, ih⟩
      · exact (Step.owed hr hs ih).imp_right (Or.imp_right fun ⟨id, h, _⟩ => ⟨id, h⟩)
      · exact .inr (.inl (repaid_grows (Step.grows hr hs) ih))
      · exact .inr (.inr ⟨id, Step.trace_mono hs ih⟩)
  refine key.imp id (Or.imp id fun ⟨i, hi⟩ => ⟨i, hi, ?_⟩)
  rcases C59_given_up (hl.reachable h) hn hi rfl with h | ⟨_, ⟨_, h⟩, _⟩
  · exact h
  · cases h

omit [Keccak] in
theorem credited_grows {w w' : World} (h : Grows w w') (wf : w.mem.m.st.erc20Tokens.WF) (wf' : w'.mem.m.st.erc20Tokens.WF) {d : Deposit}
    (hr : w.Credited d) : w'.Credited d := by
  obtain ⟨bs, hb⟩ := h.blocks
  obtain ⟨b, h1, fee, amount, h2, h3⟩ := hr
  refine ⟨b, by rw [hb]; exact List.mem_append_left _ h1, fee, amount, ?_, h3⟩
  cases d with
  | native e => exact (show _ = _ from h2).trans (congrArg FixedConfig.nativeLedgerId h.fixed).symm
  | erc20 e =>
    obtain ⟨sym, h2⟩ := h2
    exact ⟨sym, (DMKM.getEntryAlt_eq wf').2 (h.tokens ((DMKM.getEntryAlt_eq wf).1 h2))⟩

omit [Keccak] in
/-- A mint that was executed. -/
theorem credited_of_call {w : World} {d : Deposit} {l : Principal} {a fee : Nat} (hp : userCall d l a ∈ paidFor w.blocks d.source)
    (hl : LedgerFor w.mem.m.st d l) (ha : a + fee = d.value) (hf : (∃ e, d = .erc20 e) → fee = 0) : w.Credited d := by
  obtain ⟨b, h1, h2⟩ := List.mem_map.1 hp
  refine ⟨b, (List.mem_filter.1 h1).1, fee, a, ?_⟩
  rw [h2]
  exact ⟨hl, rfl, rfl, ha, hf⟩

omit [Keccak] in
theorem ledgerFor_of_target {c : Mem} {env : MintEnv} {d : Deposit} {sym : String} {l : Principal} (hq : env.ledger = c.m.st.nativeLedgerId)
    (h1 : c.mintTarget env d = .ok (sym, l)) : LedgerFor c.m.st d l := by
  cases d with
  | native e =>
    simp only [Mem.mintTarget, Except.ok.injEq, Prod.mk.injEq] at h1
    obtain ⟨_, rfl⟩ := h1
    exact hq
  | erc20 e =>
    simp only [Mem.mintTarget, Res.bind_ok, Res.expect_ok, Res.pure_ok, Prod.mk.injEq] at h1
    obtain ⟨⟨l', sym'⟩, h1, rfl, rfl⟩ := h1
    exact ⟨_, h1⟩

omit [Keccak] in
theorem mintAmount_fee {d : Deposit} {fee : Option Nat} {a : Nat} (h : d.mintAmount fee = .ok a) :
    ∃ f, a + f = d.value ∧ ((∃ e, d = .erc20 e) → f = 0) := by
  unfold Deposit.mintAmount at h
  split at h
  · split at h
    · cases h
      exact ⟨_, Nat.sub_add_cancel ‹_›, fun ⟨_, h⟩ => by cases h⟩
    · cases h
  · cases h
    exact ⟨0, rfl, fun _ => rfl⟩

/-- The mint that is being recorded. -/
theorem credited_of_block {w : World} (h : Reachable w) {id : Nat} {t : LedgerTask} {a : LedgerAnswer} (hm : ⟨id, .ledger t, some a⟩ ∈ w.tasks)
    {d : Deposit} (hd : t.deposit = some d) (ha : (∃ env sym l n rest, t = .mintUser env d sym l n rest) → ∃ i, a = .block i) : w.Credited d := by
  have hmt : (⟨id, .ledger t, some a⟩ : Pending) ∈ mintTasks w.tasks :=
    List.mem_filter.2 ⟨hm, by simp [Pending.minting, Task.deposit, hd]⟩
  have hp := (mintInv h).current hmt (src := d.source) (by simp [Pending.minting, Task.deposit, hd])
  have hc := (mintInv h).claim hmt rfl
  cases t <;> simp only [LedgerTask.deposit, Option.some.injEq, reduceCtorEq] at hd
  case mintUser env d' sym l n rest =>
    subst hd
    obtain ⟨i, rfl⟩ := ha ⟨_, _, _, _, _, rfl⟩
    obtain ⟨k1, k2, k3⟩ := hc
    obtain ⟨f, hf1, hf2⟩ := mintAmount_fee k3
    exact credited_of_call (by rw [hp]; simp [Pending.done, executed]) (ledgerFor_of_target k1.ledger k2) hf1 hf2
  case mintFee env d' sym l fee b rest =>
    subst hd
    obtain ⟨k1, k2, k3, e, rfl, k4⟩ := hc
    exact credited_of_call (a := e.value - fee) (fee := fee) (by rw [hp]; simp [Pending.done, Deposit.value]) (ledgerFor_of_target k1.ledger k2)
      (Nat.sub_add_cancel k4) (fun ⟨_, h⟩ => by cases h)

theorem Step.waiting {w w' : World} (h : Reachable w) (hs : Step w w') {src : EventSource} {d : Deposit}
    (hx : w.mem.m.st.eventsToMint.get src = some d) :
    w'.mem.m.st.eventsToMint.get src = some d ∨ w'.Credited d ∨
      ∃ id, (id, .quarantinedDeposit src) ∈ w'.trace ∧ Dropped w w' id (·.deposit.isSome) := by
  have T := tracks h
  have G := Step.grows h hs
  have wf := (registry_of_tracks T).wf
  have wf' := (registry_of_tracks (tracks (.step _ _ h hs))).wf
  have hsrc := (accepted_of_tracks T hx).1
  have keep : ∀ {o : Origin} {c : Mem}, Grew o w.mem.m c.m → o ≠ .mint → c.m.st.eventsToMint.get src = some d :=
    fun g ho => ((g.shift T).deposits ho).keep hx
  cases Step.kind hs with
  | other _ o g h1 h2 h3 => exact .inl (keep g h1)
  | deliver pre post id t a now c n ht hr hd =>
    have hm : (⟨id, .ledger t, some a⟩ : Pending) ∈ w.tasks := by rw [ht]; simp
    cases hd' : t.deposit with
    | none =>
      have ho : t.origin ≠ .mint := by cases t <;> simp [LedgerTask.origin, LedgerTask.deposit] at hd' ⊢
      exact .inl (keep (LedgerTask.resume_grew hr) ho)
    | some y =>
      have hmt : (⟨id, .ledger t, some a⟩ : Pending) ∈ mintTasks w.tasks :=
        List.mem_filter.2 ⟨hm, by simp [Pending.minting, Task.deposit, hd']⟩
      have hc := (mintInv h).claim hmt rfl
      have hw : w.mem.m.st.eventsToMint.get y.source = some y := by
        cases t <;> simp only [LedgerTask.deposit, Option.some.injEq, reduceCtorEq] at hd'
        · subst hd'; exact hc.1.waiting _ (by simp)
        · subst hd'; exact hc.1.waiting _ (by simp)
      have fin : ∀ {sym : String} {i : Nat} {c1 : Mem}, w.mem.process (y.mintedEvent sym i) = .ok c1 → c.m = c1.m → w.Credited y →
          c.m.st.eventsToMint.get src = some d ∨ (w.advance pre post id c n).Credited d ∨
            ∃ id', (id', .quarantinedDeposit src) ∈ (w.advance pre post id c n).trace ∧
              Dropped w (w.advance pre post id c n) id' (·.deposit.isSome) := by
        intro sym i c1 hp hcm hy
        obtain ⟨s, hs', rfl⟩ := Mem.process_iff.1 hp
        by_cases hxy : src = y.source
        · subst hxy
          rw [hx] at hw
          cases hw
          exact .inr (.inl (credited_grows G wf wf' hy))
        · refine .inl ?_
          rw [hcm]
          exact (settles_minted hs').keep hxy hx
      cases t <;> simp only [LedgerTask.deposit, Option.some.injEq, reduceCtorEq] at hd'
      case mintUser env d' sym l amount rest =>
        subst hd'
        simp only [LedgerTask.resume] at hr
        rcases Mem.onMintUser_cases hr with ⟨i, fee, e, rfl, hi, rfl, hf, rfl, rfl⟩ | ⟨i, c1, rfl, hi, _, hp, hl⟩ | ⟨_, hl⟩
        · exact .inl hx
        · exact fin hp (Mem.mintLoop_m hl) (credited_of_block h hm rfl fun _ => ⟨_, rfl⟩)
        · refine .inl ?_
          show c.m.st.eventsToMint.get src = some d
          rw [Mem.mintLoop_m hl]; exact hx
      case mintFee env d' sym l fee block rest =>
        subst hd'
        simp only [LedgerTask.resume, Mem.mintRecord, Res.bind_ok] at hr
        obtain ⟨c1, hp, hl⟩ := hr
        exact fin hp (Mem.mintLoop_m hl) (credited_of_block h hm rfl fun ⟨_, _, _, _, _, h⟩ => by cases h)
  | drop pre post id t a c o ht hc ho hd =>
    cases hd' : t.deposit with
    | none =>
      have ho : t.origin ≠ .mint := by cases t <;> simp [LedgerTask.origin, LedgerTask.deposit] at hd' ⊢
      exact .inl (keep (Task.cleanup_grew hc) ho)
    | some y =>
      have key : ∃ c1, w.mem.process (.quarantinedDeposit y.source) = .ok c1 ∧ c1.release .mint = c := by
        cases t <;> simp only [LedgerTask.deposit, Option.some.injEq, reduceCtorEq] at hd' <;> subst hd' <;>
          simpa only [Task.cleanup, Res.bind_ok, Res.pure_ok] using hc
      obtain ⟨c1, h1, rfl⟩ := key
      by_cases hxy : src = y.source
      · subst hxy
        refine .inr (.inr ⟨id, List.mem_append_right _ (List.mem_map.2 ⟨_, ?_, rfl⟩), t, a, o, (by rw [ht]; simp),
          (by simp [hd']),
          List.mem_append_right _ (by simp), ho⟩)
        have hn : news w.mem (c1.release .mint) = _ := (news_eq (c' := c1) rfl).trans (news_process h1)
        show _ ∈ news w.mem (c1.release .mint)
        rw [hn]
        simp
      · obtain ⟨s, hs', rfl⟩ := Mem.process_iff.1 h1
        exact .inl ((settles_quarantined hs').keep hxy hx)

/-- **C59**, deposits: what waits to be minted at some time still waits later, or was minted by the right ledger to the account that
the deposit names, or was given up by a message whose callback was made to trap or trapped for a deposit smaller than the fee. -/
theorem C59_deposit {w₀ w : World} (h : Reachable w₀) (hl : Leads w₀ w) (hn : NonceNeverLowered w.mem.m.log) {src : EventSource}
    {d : Deposit} (hx : w₀.mem.m.st.eventsToMint.get src = some d) :
    w.mem.m.st.eventsToMint.get src = some d ∨ w.Credited d ∨
      ∃ id, (id, .quarantinedDeposit src) ∈ w.trace ∧ ((id, .killed) ∈ w.finished ∨ (id, .trapped) ∈ w.finished ∧
        ∃ w₁ src' d', Leads w₁ w ∧ w₁.mem.m.st.eventsToMint.get src' = some d' ∧ TooSmall w₁.mem.m.st d') := by
  have key : w.mem.m.st.eventsToMint.get src = some d ∨ w.Credited d ∨ ∃ id, (id, .quarantinedDeposit src) ∈ w.trace := by
    clear hn
    induction hl with
    | refl => exact .inl hx
    | step w w' hl hs ih =>
      have hr := hl.reachable h
      rcases ih with ih | ih | ⟨id, ih⟩
      · exact (Step.waiting hr hs ih).imp_right (Or.imp_right fun ⟨id, h, _⟩ => ⟨id, h⟩)
      · exact .inr (.inl (credited_grows (Step.grows hr hs) (registry_of_tracks (tracks hr)).wf (registry_of_tracks (tracks (.step _ _ hr hs))).wf ih))
      · exact .inr (.inr ⟨id, Step.trace_mono hs ih⟩)
  refine key.imp id (Or.imp id fun ⟨i, hi⟩ => ⟨i, hi, ?_⟩)
  rcases C59_given_up (hl.reachable h) hn hi rfl with h | ⟨h1, _, h2⟩
  · exact .inl h
  · exact .inr ⟨h1, h2⟩

/-! ## Progress -/

theorem steps_leads {w w' : World} (h : Steps w w') : Leads w w' := by
  induction h with
  | refl => exact .refl _
  | tail w' w'' _ hs ih => exact .step _ _ _ ih hs

/-- The rest of a run of the timer pays everything, if ledgers execute all calls. -/
theorem repays_rest (l : List (ReimbIndex × ReimbRequest)) : ∀ {w : World} {ts : List Pending} {id : Nat} {x : ReimbIndex} {r : ReimbRequest}
    {p : Principal}, Reachable w → NonceNeverLowered w.mem.m.log → w.tasks = ts ++ [⟨id, .ledger (.reimburse x r p l), none⟩] →
    (∀ q, w.height q + (l.length + 1) ≤ 2 ^ 64) → ∃ w', Steps w w' ∧ w'.tasks = ts ∧ ∀ y ∈ (x, r) :: l, w'.Repaid y.1 y.2 := by
  induction l with
  | nil =>
    intro w ts id x r p hr hn ht hh
    have e1 := executedWorld_step ht (by have := hh ((LedgerTask.reimburse x r p []).call w.mem.id).ledger; omega)
    generalize hw2 : executedWorld w ts id (.reimburse x r p []) = w2 at e1
    have m2 : w2.mem = w.mem := by subst hw2; rfl
    have r2 : Reachable w2 := .step _ _ hr e1
    have t2 : ∃ i, w2.tasks = ts ++ [⟨id, .ledger (.reimburse x r p []), some (.block i)⟩] := by subst hw2; exact ⟨_, rfl⟩
    obtain ⟨i, t2⟩ := t2
    have hm : (⟨id, .ledger (.reimburse x r p []), some (.block i)⟩ : Pending) ∈ w2.tasks := by rw [t2]; simp
    have hi := ((answerInv r2).block hm rfl rfl).1
    obtain ⟨c', k1, _⟩ := process_reimbursed_ok (c := w2.mem) (x := x) (r := r) (i := i) (tracks r2) (by rw [m2]; exact hn)
      ((reimb_claim r2 hm).1.waiting (x, r) (by simp))
    have hres : (LedgerTask.reimburse x r p []).resume w2.mem (.block i) 0 = .ok (c'.release .reimbursement, .finish none) := by
      simp [LedgerTask.resume, Mem.onReimburse, toU64_ok.2 ⟨rfl, hi⟩, k1, bind, Except.bind, Mem.reimburseLoop]
    have s3 := Step.deliver w2 ts [] id _ _ 0 _ _ t2 hres
    refine ⟨_, .tail _ _ _ (.tail _ _ _ (.refl _) e1) s3, by simp [World.advance, Next.pending], fun y hy => ?_⟩
    rw [List.mem_singleton] at hy; subst hy
    exact repaid_grows (Step.grows r2 s3) (repaid_of_block r2 hm)
  | cons y l ih =>
    intro w ts id x r p hr hn ht hh
    have e1 := executedWorld_step ht (by have := hh ((LedgerTask.reimburse x r p (y :: l)).call w.mem.id).ledger; omega)
    have g2 := executedWorld_height w ts id (.reimburse x r p (y :: l))
    generalize hw2 : executedWorld w ts id (.reimburse x r p (y :: l)) = w2 at e1 g2
    have m2 : w2.mem = w.mem := by subst hw2; rfl
    have r2 : Reachable w2 := .step _ _ hr e1
    have t2 : ∃ i, w2.tasks = ts ++ [⟨id, .ledger (.reimburse x r p (y :: l)), some (.block i)⟩] := by subst hw2; exact ⟨_, rfl⟩
    obtain ⟨i, t2⟩ := t2
    have hm : (⟨id, .ledger (.reimburse x r p (y :: l)), some (.block i)⟩ : Pending) ∈ w2.tasks := by rw [t2]; simp
    have hi := ((answerInv r2).block hm rfl rfl).1
    obtain ⟨c', k1, _⟩ := process_reimbursed_ok (c := w2.mem) (x := x) (r := r) (i := i) (tracks r2) (by rw [m2]; exact hn)
      ((reimb_claim r2 hm).1.waiting (x, r) (by simp))
    have hres : (LedgerTask.reimburse x r p (y :: l)).resume w2.mem (.block i) 0 =
        .ok (c', .await (.ledger (.reimburse y.1 y.2 (c'.reimbursementLedger y.1) l))) := by
      simp [LedgerTask.resume, Mem.onReimburse, toU64_ok.2 ⟨rfl, hi⟩, k1, bind, Except.bind, Mem.reimburseLoop]
    have s3 := Step.deliver w2 ts [] id _ _ 0 _ _ t2 hres
    generalize hw3 : w2.advance ts [] id c' (.await (.ledger (.reimburse y.1 y.2 (c'.reimbursementLedger y.1) l))) = w3 at s3
    have t3 : w3.tasks = ts ++ [⟨id, .ledger (.reimburse y.1 y.2 (c'.reimbursementLedger y.1) l), none⟩] := by
      subst hw3; simp [World.advance, Next.pending]
    have m3 : w3.mem = c' := by subst hw3; rfl
    have g3 : ∀ q, w3.height q = w2.height q := by subst hw3; intro q; rfl
    have hn3 : NonceNeverLowered w3.mem.m.log := by
      obtain ⟨s, _, hc⟩ := Mem.process_iff.1 k1
      rw [m3, hc, m2]
      exact nonceNeverLowered_snoc hn (by cases x <;> simp [reimbursedEvent])
    obtain ⟨w', h1, h2, h3⟩ := ih (.step _ _ r2 s3) hn3 t3 (fun q => by
      have := hh q
      have := g2 q
      rw [g3]
      simp only [List.length_cons] at *
      omega)
    refine ⟨w', Steps.trans (.tail _ _ _ (.tail _ _ _ (.refl _) e1) s3) h1, h2, fun z hz => ?_⟩
    rcases List.mem_cons.1 hz with rfl | hz
    · exact repaid_grows ((Leads.step _ _ _ (.refl _) s3).trans (steps_leads h1) |>.grows r2) (repaid_of_block r2 hm)
    · exact h3 z hz

/-- **C59**, progress: if no reimbursement is running, and the ledgers have room for the blocks and execute all calls, then one run of
the timer pays all that is owed. -/
theorem C59_progress {w : World} (h : Reachable w) (hn : NonceNeverLowered w.mem.m.log) (ha : .reimbursement ∉ w.mem.active)
    (hh : ∀ l, w.height l + w.mem.m.st.txs.reimbursementRequests.toList.length ≤ 2 ^ 64) :
    ∃ w', Leads w w' ∧ w'.tasks = w.tasks ∧
      ∀ x r, w.mem.m.st.txs.reimbursementRequests.get x = some r → w'.Repaid x r := by
  have hq : ∃ c, w.mem.acquire .reimbursement = some c := by
    unfold Mem.acquire
    rw [if_neg ha]; exact ⟨_, rfl⟩
  obtain ⟨c, hc⟩ := hq
  have hm := Mem.acquire_m hc
  cases hl : w.mem.m.st.txs.reimbursementRequests.toList with
  | nil => exact ⟨w, .refl _, rfl, fun x r hx => by have := FMap.mem_toList.2 hx; rw [hl] at this; cases this⟩
  | cons y l =>
    have hrun : Message.reimbursement.run w.mem 0 = .ok (c, .await (.ledger (.reimburse y.1 y.2 (c.reimbursementLedger y.1) l))) := by
      simp only [Message.run, Mem.startReimbursement, hc]
      rw [hm, hl]; rfl
    have s1 := Step.start w .reimbursement 0 _ _ trivial hrun
    generalize hw1 : (w.begin .reimbursement).advance w.tasks [] w.nextId c (.await (.ledger (.reimburse y.1 y.2 (c.reimbursementLedger y.1) l))) = w1 at s1
    have t1 : w1.tasks = w.tasks ++ [⟨w.nextId, .ledger (.reimburse y.1 y.2 (c.reimbursementLedger y.1) l), none⟩] := by
      subst hw1; simp [World.advance, Next.pending]
    have m1 : w1.mem = c := by subst hw1; rfl
    have g1 : ∀ p, w1.height p = w.height p := by subst hw1; intro p; rfl
    obtain ⟨w', h1, h2, h3⟩ := repays_rest l (.step _ _ h s1) (by rw [m1, hm]; exact hn) t1
      (fun p => by have := hh p; rw [hl] at this; rw [g1]; simpa using this)
    refine ⟨w', (Leads.step _ _ _ (.refl _) s1).trans (steps_leads h1), h2, fun x r hx => ?_⟩
    have := FMap.mem_toList.2 hx
    rw [hl] at this
    exact h3 _ this

end

namespace Example
attribute [local instance] keccak

/-- A reimbursement that the ledger refused is still owed; nothing was given up. -/
theorem C59_example : ∃ w, Reachable w ∧ decide (
    w.mem.m.st.txs.reimbursementRequests.get (.native 1) ≠ none ∧ w.mem.m.log.all (fun e => !e.givesUp) ∧
    w.tasks.length = 0 ∧ w.reimbursements ledger 1 = []) = true :=
  after_reachable (arg := initArg) (l := owing ++ [.start .reimbursement 20, .refuse 0 .temporarilyUnavailable, .deliver 0 21])
    (by decide +kernel)

/-- A reimbursement given up because the callback of its mint trapped: the giving up is recorded by that very task. -/
theorem C59_example_given_up : ∃ w, Reachable w ∧ decide (
    (w.trace.filter fun x => x.2.givesUp).map (·.1) = [2] ∧ (2, .killed) ∈ w.finished ∧
    w.mem.m.st.txs.reimbursed.get (.native 1) = some .quarantined) = true :=
  after_reachable (arg := initArg) (l := owing ++ [.start .reimbursement 20, .execute 0, .kill 0]) (by decide +kernel)

end Example
end EvmMinter
