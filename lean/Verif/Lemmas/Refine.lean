import Verif.Lemmas.Handlers
import Verif.Props.C11
import Verif.Props.C20
/-!
# Executions of the minter with its ledgers are executions of the canister

`run_of_reachable`: the log and state of a reachable world (Spec/World.lean) are those of an execution at the granularity of
audit events (Spec/Live.lean). What `Emits` assumes about the ledgers holds: no burn index is used twice.
-/

namespace EvmMinter
open Spec

section
variable [Keccak]

/-! ## Created transactions -/

theorem txEvent_created {t t' : Transactions} {e : Event} (w : t.MapsWF) (h : txEvent t e = .ok t') (he : e.origin ≠ .retrieve) :
    t'.created = t.created := by
  cases e <;> simp only [txEvent] at h
  case acceptedNativeWithdrawalRequest r => obtain ⟨rfl, _⟩ := Transactions.recordWithdrawalRequest_ok w h; rfl
  case acceptedErc20WithdrawalRequest r => obtain ⟨rfl, _⟩ := Transactions.recordWithdrawalRequest_ok w h; rfl
  case reimbursedNativeWithdrawal => obtain ⟨_, _, _, rfl⟩ := Transactions.recordFinalizedReimbursement_ok h; rfl
  case reimbursedErc20Withdrawal => obtain ⟨_, _, _, rfl⟩ := Transactions.recordFinalizedReimbursement_ok h; rfl
  case failedErc20WithdrawalRequest r => obtain ⟨_, _, _, rfl⟩ := Transactions.recordReimbursementRequest_ok h; rfl
  case upgrade a => cases h; unfold withNonce; split <;> rfl
  case quarantinedReimbursement x => cases h; rfl
  all_goals first
    | exact absurd rfl he
    | (cases h; rfl)

theorem Grew.created {o : Origin} {m m' : Minter} (h : Grew o m m') (ht : Tracks m.log m.st) (ho : o ≠ .retrieve) :
    m'.st.txs.created = m.st.txs.created := by
  obtain ⟨es, h1, h2⟩ := h.ext
  have ht' := h.tracks ht
  rw [h1] at ht'
  obtain ⟨s₀, s₀', e0, e1, e2, e3⟩ := ht.between' ht'
  have : (∃ l, KnownInv l s₀'.txs) ∧ s₀'.txs.created = s₀.txs.created := by
    refine applyEvents_induct (P := fun x => (∃ l, KnownInv l x.txs) ∧ x.txs.created = s₀.txs.created) (fun e he a b hp ha => ?_)
      ⟨⟨_, known_of_replay e0⟩, rfl⟩ e3
    obtain ⟨⟨l, hl⟩, hp⟩ := hp
    have hx := applyEvent_txs ha
    exact ⟨⟨_, hl.event hx⟩, (txEvent_created hl.maps hx (by rw [h2 e he]; exact ho)).trans hp⟩
  rw [e1, e2]
  exact this.2

/-! ## Claims of suspended tasks -/

omit [Keccak] in
/-- The batch consists of created transactions in the order of their nonces. -/
def SignOk (s : State) (batch : List (LedgerBurnIndex × Tx)) : Prop :=
  batch.Pairwise (fun x y => x.2.nonce < y.2.nonce) ∧
    ∀ i tx, (i, tx) ∈ batch → ∃ c, s.txs.created.getEntry tx.nonce = some (i, c) ∧ c.transaction = tx

omit [Keccak] in
/-- What a suspended task that sends withdrawals relies on. -/
def Task.SendClaim (s : State) : Task → Prop
  | .ext (.retrieveCount g) => g.Bounded
  | .ext (.retrieveSign _ batch) => SignOk s batch
  | _ => True

omit [Keccak] in
def Next.SendClaim (s : State) : Next → Prop
  | .await t => t.SendClaim s
  | .finish _ => True

structure RunInv (w : World) : Prop where
  run : Run w.mem.m.log w.mem.m.st
  claim : ∀ p ∈ w.tasks, p.task.SendClaim w.mem.m.st

omit [Keccak] in
theorem Task.SendClaim.mono {s s' : State} (h : s'.txs.created = s.txs.created) {t : Task} (hc : t.SendClaim s) : t.SendClaim s' := by
  unfold Task.SendClaim SignOk at *
  rw [h]; exact hc

omit [Keccak] in
theorem Task.sendClaim_of_running {s : State} {t : Task} (h : TaskType.retrieveEth ∉ t.running) : t.SendClaim s := by
  cases t with
  | ledger t => trivial
  | ext t => cases t <;> first | trivial | (simp [Task.running] at h)

omit [Keccak] in
theorem Next.sendClaim_pending {s : State} {n : Next} (h : n.SendClaim s) {id : Nat} : ∀ p ∈ n.pending id, p.task.SendClaim s := by
  cases n with
  | finish r => intro p hp; cases hp
  | await t =>
    intro p hp
    simp only [Next.pending, List.mem_singleton] at hp
    subst hp; exact h

omit [Keccak] in
theorem Next.sendClaim_of_running {s : State} {n : Next} (h : TaskType.retrieveEth ∉ n.running) : n.SendClaim s := by
  cases n with
  | finish r => trivial
  | await t => exact Task.sendClaim_of_running h

omit [Keccak] in
theorem not_running_of_split {c : Mem} {pre post : List Pending} {p : Pending} {x : TaskType} (h : LockInv c (pre ++ p :: post))
    (hp : x ∈ p.task.running) : ∀ q ∈ pre ++ post, x ∉ q.task.running := by
  have hn := h.rnodup
  rw [runningOf_append, runningOf_cons] at hn
  simp only [List.nodup_append, List.mem_append] at hn
  obtain ⟨_, ⟨_, _, h4⟩, h5⟩ := hn
  intro q hq hr
  have key : ∀ l : List Pending, q ∈ l → x ∈ runningOf l := by
    intro l hl
    exact List.mem_flatMap.2 ⟨q, hl, hr⟩
  rcases List.mem_append.1 hq with hq | hq
  · exact h5 _ (key _ hq) _ (.inl hp) rfl
  · exact h4 _ hp _ (key _ hq) rfl

/-! ## Segments -/

theorem run_process {c c' : Mem} {e : Event} (h : Run c.m.log c.m.st) (he : Emits c.m.st e) (hp : c.process e = .ok c') :
    Run c'.m.log c'.m.st := by
  obtain ⟨s, hs, rfl⟩ := Mem.process_iff.1 hp
  exact .event _ _ _ _ h he hs

theorem run_createLoop {g : GasFeeEstimate} (hg : g.Bounded) : ∀ {l : List Request} {m m' : Minter}, Run m.log m.st →
    PendingNodup l → (∀ r ∈ l, r ∈ m.st.txs.pending) → PendingNodup m.st.txs.pending → m.createLoop g l = .ok m' →
    Run m'.log m'.st := by
  intro l
  induction l with
  | nil => intro m m' h _ _ _ hm; cases hm; exact h
  | cons r t ih =>
    intro m m' h hl hp hn hm
    simp only [Minter.createLoop, Res.bind_ok] at hm
    obtain ⟨m1, h1, h2⟩ := hm
    rw [PendingNodup, List.pairwise_cons] at hl
    simp only [Minter.createOne, Res.bind_ok] at h1
    obtain ⟨x, hx, h1⟩ := h1
    split at h1
    · rename_i tx
      have he : Emits m.st (.createdTransaction r.burnIndex tx) := ⟨r, g, hg, hp r (by simp), rfl, hx⟩
      obtain ⟨hr, _, ha⟩ := h.processEvent he h1
      have hq := applyEvent_txs ha
      simp only [txEvent] at hq
      obtain ⟨r', cr, k1, _, k2, _, _, _, _, _, _, _, k3⟩ := Transactions.recordCreatedTransaction_ok hq
      have hpe : m1.st.txs.pending = Transactions.pendingWithout m.st.txs.pending r' := by rw [k3]
      refine ih hr hl.2 (fun q hq => ?_) ?_ h2
      · rw [hpe]
        refine Transactions.mem_pendingWithout.2 ⟨hp q (by simp [hq]), ?_⟩
        rintro rfl
        exact hl.1 q hq k2.symm
      · rw [hpe]; exact hn.sublist List.filter_sublist
    · simp only [Res.bind_ok, Res.pure_ok] at h1
      obtain ⟨t', ht, rfl⟩ := h1
      have hr := hp r (by simp)
      obtain ⟨_, hperm⟩ := reschedule_ok hn hr ht
      exact ih (m := ⟨{ m.st with txs := t' }, m.log⟩) (.reschedule _ _ _ _ h hr ht) hl.2 (fun q hq => hperm.mem_iff.1 (hp q (by simp [hq]))) (hn.perm hperm) h2

theorem run_createBatch {g : GasFeeEstimate} (hg : g.Bounded) {m m' : Minter} (h : Run m.log m.st) (hn : PendingNodup m.st.txs.pending)
    (hm : m.createBatch g = .ok m') : Run m'.log m'.st :=
  run_createLoop hg h (hn.sublist (List.take_sublist _ _)) (fun _ hr => List.mem_of_mem_take hr) hn hm

omit [Keccak] in
theorem parseLog_value {e : LogEntry} {d : Deposit} (h : parseLog e = .ok (.ok d)) : d.value < U256 := by
  have key : ∀ w : Word32, beNat w.1 < U256 := fun w => by
    have := beNat_lt w.1
    rw [w.2] at this
    unfold U256; omega
  unfold parseLog at h
  split at h
  · cases h
  · split at h
    · cases h
    · split at h
      · cases h
      · split at h
        · cases h
        · split at h
          · cases h
          · simp only [Res.bind_ok, Res.expect_ok] at h
            obtain ⟨_, _, h⟩ := h
            split at h
            · cases h
            · simp only [Res.bind_ok, Res.expect_ok] at h
              obtain ⟨_, _, _, _, h⟩ := h
              split at h
              · cases h
              · simp only [Res.bind_ok, Res.expect_ok] at h
                obtain ⟨v, _, h⟩ := h
                split at h <;> (cases h; exact key v)

theorem run_onAnswer {m m' : Minter} {r : BlockRange} {a : LogsAnswer} (h : Run m.log m.st) (hm : m.onAnswer r a = .ok m') :
    Run m'.log m'.st := by
  cases a with
  | failed => cases hm; exact h
  | tooLarge =>
    simp only [Minter.onAnswer] at hm
    split at hm
    · simp only [Res.bind_ok, Res.pure_ok] at hm
      obtain ⟨m1, h1, rfl⟩ := hm
      exact .scraped _ _ _ (h.processEvent (by trivial) h1).1
    · cases hm; exact h
  | logs l =>
    simp only [Minter.onAnswer, Res.bind_ok, Res.pure_ok, Minter.registerDeposits] at hm
    obtain ⟨x, hx, m1, ⟨m2, h2, h3⟩, rfl⟩ := hm
    obtain ⟨f, hf, hl⟩ := parseAllLogs_eq l
    rw [hl] at hx
    cases hx
    refine .scraped _ _ _ (Run.processEvents (fun e he s => ?_) (Run.processEvents (fun e he s => ?_) h h2).1 h3).1
    · obtain ⟨x, _, hx⟩ := List.mem_filterMap.1 he
      cases x <;> simp only [reduceCtorEq, Option.some.injEq] at hx
      subst hx
      trivial
    · obtain ⟨d, hd, rfl⟩ := List.mem_map.1 he
      obtain ⟨le, _, hle⟩ := List.mem_filterMap.1 hd
      have hv : parseLog le = .ok (.ok d) := by
        rw [hf le]
        cases hfe : f le with
        | error e => rw [hfe] at hle; cases hle
        | ok d' => rw [hfe] at hle; cases hle; rfl
      have := parseLog_value hv
      cases d <;> exact this

/-! ## Sizes -/

omit [Keccak] in
theorem maxTransactionFee_lt {g : GasFeeEstimate} (hg : g.Bounded) (l : GasAmount) : (g.toPrice l).maxTransactionFee < U256 := by
  rcases maxTransactionFee_spec (g.toPrice l) with ⟨h1, h2⟩ | ⟨h1, _⟩
  · rw [h1]; exact h2
  · rw [h1, u256_eq]; exact Nat.lt_succ_self _

omit [Keccak] in
theorem validateDestination_lt {s : List Char} {a : Address} (h : validateDestination s = some a) : a < 2 ^ 160 := by
  unfold validateDestination at h
  rw [Option.filter_eq_some_iff] at h
  exact Address.parse_lt h.1

theorem task_thread {w : World} (h : Reachable w) {p : Pending} (hp : p ∈ w.tasks) :
    ∃ msg, Thread w p.id msg (w.blocksOf p.id) (w.eventsOf p.id) (.waiting p.task p.answer) := by
  have I := idInv h
  have h1 : p.id < w.nextId := I.lt _ (List.mem_append_left _ (List.mem_map_of_mem hp))
  have h2 : p.id ∈ w.started.map (·.1) := by rw [I.started]; exact List.mem_range.2 h1
  obtain ⟨⟨i, msg⟩, hy, h3⟩ := List.mem_map.1 h2
  simp only at h3
  subst h3
  obtain ⟨st, ht, hh⟩ := thread h hy
  have := I.has_unique (id := p.id) (t := p.task) (a := p.answer) hp hh
  subst this
  exact ⟨msg, ht⟩

/-- The amount and destination of a native withdrawal. -/
theorem nativeBurn_sized {w : World} (h : Reachable w) {id : Nat} {q : NativeCall} {l : Principal} {am : Wei} {now : Nat}
    {a : Option LedgerAnswer} (hp : ⟨id, .ledger (.nativeBurn q l am now), a⟩ ∈ w.tasks) : am < U256 ∧ q.destination < 2 ^ 160 := by
  obtain ⟨msg, ht⟩ := task_thread h hp
  by_cases ho : msg.origin = .endpoint
  · cases msg <;> simp [Message.origin] at ho
    · obtain ⟨_, _, _, hq, _, hpaid⟩ := ht.native
      refine ⟨?_, validateDestination_lt hq.destination⟩
      have hlt := hq.lt
      rcases hpaid with ⟨_, rfl, _⟩ | ⟨fee, t, _, he, _⟩
      · rw [hq.amount_eq]; exact hlt
      · rw [hq.amount_eq] at he
        womega
    · obtain ⟨_, _, hh⟩ := ht.erc20
      exact hh.elim
  · exact absurd rfl ((ht.apart ho).1 : Task.origin _ ≠ _)

/-- The amounts, destination and token of an ERC-20 withdrawal. -/
theorem erc20TokenBurn_sized {w : World} (h : Reachable w) {id : Nat} {q : Erc20Charged} {now ni : Nat}
    {a : Option LedgerAnswer} (hp : ⟨id, .ledger (.erc20TokenBurn q now ni), a⟩ ∈ w.tasks) :
    q.amount < U256 ∧ q.txFee < U256 ∧ q.destination < 2 ^ 160 := by
  obtain ⟨msg, ht⟩ := task_thread h hp
  by_cases ho : msg.origin = .endpoint
  · cases msg <;> simp [Message.origin] at ho
    · obtain ⟨_, _, _, hh⟩ := ht.native
      exact hh.elim
    · obtain ⟨_, _, hq, _⟩ := ht.erc20
      obtain ⟨_, g, _, _, _, _, hg, he⟩ := hq.config
      refine ⟨?_, ?_, validateDestination_lt hq.call.destination⟩
      · rw [hq.call.amount_eq]; exact hq.call.lt
      · rw [he]; exact maxTransactionFee_lt hg _
  · exact absurd rfl ((ht.apart ho).1 : Task.origin _ ≠ _)

/-! ## New burns -/

omit [Keccak] in
theorem Request.event_burns (native : Principal) (r : Request) : (native, r.burnIndex) ∈ r.event.burns native := by
  cases r <;> simp [Request.event, Event.burns, Request.burnIndex]

/-- Every reimbursement in the state is one of an accepted or failed request. -/
theorem knownReimb_state {w : World} (h : Reachable w) {x : ReimbIndex}
    (hx : w.mem.m.st.txs.reimbursementRequests.get x ≠ none ∨ w.mem.m.st.txs.reimbursed.get x ≠ none) : KnownReimb w.mem.m.log x := by
  have K := known_of_tracks (tracks h)
  rcases hx with hx | hx
  · obtain ⟨r, hr⟩ := Option.ne_none_iff_exists'.1 hx
    exact (K.requests hr).2
  · obtain ⟨r, hr⟩ := Option.ne_none_iff_exists'.1 hx
    rcases K.reimbursed hr with hk | hk
    · exact hk
    · obtain ⟨_, _, hb⟩ := log_backed h hk (by simp [Event.origin])
      exact hb

theorem notReimbursed_of_nodup {w : World} (h : Reachable w) {e : Event} {i : Nat}
    (hn : ((w.mem.m.log ++ [e]).flatMap (Event.burns w.mem.m.st.nativeLedgerId)).Nodup)
    (he : (w.mem.m.st.nativeLedgerId, i) ∈ e.burns w.mem.m.st.nativeLedgerId) : w.mem.m.st.NotReimbursed i := by
  have key : ¬ KnownReimb w.mem.m.log (.native i) := by
    intro hk
    obtain ⟨e', h1, h2, _⟩ := hk.burns (native := w.mem.m.st.nativeLedgerId)
    rw [List.flatMap_append, List.nodup_append] at hn
    exact hn.2.2 _ (List.mem_flatMap.2 ⟨e', h1, h2⟩) (w.mem.m.st.nativeLedgerId, i) (by simpa using he) rfl
  exact ⟨Classical.byContradiction fun hh => key (knownReimb_state h (.inl hh)),
    Classical.byContradiction fun hh => key (knownReimb_state h (.inr hh))⟩

theorem notRequested_of_nodup {w : World} (h : Reachable w) {e : Event} {i : Nat}
    (hn : ((w.mem.m.log ++ [e]).flatMap (Event.burns w.mem.m.st.nativeLedgerId)).Nodup)
    (he : (w.mem.m.st.nativeLedgerId, i) ∈ e.burns w.mem.m.st.nativeLedgerId) : w.mem.m.st.NotRequested i := by
  have K := known_of_tracks (tracks h)
  have key : ∀ r : Request, r.event ∈ w.mem.m.log → r.burnIndex ≠ i := by
    rintro r hr rfl
    rw [List.flatMap_append, List.nodup_append] at hn
    exact hn.2.2 _ (List.mem_flatMap.2 ⟨_, hr, r.event_burns w.mem.m.st.nativeLedgerId⟩) (w.mem.m.st.nativeLedgerId, r.burnIndex) (by simpa using he) rfl
  refine ⟨fun r hr => key r (K.pending r hr), ?_⟩
  cases hp : w.mem.m.st.txs.processed.get i with
  | none => rfl
  | some r => exact absurd (K.processed hp).1 (key r (K.processed hp).2)

/-! ## Steps -/

theorem mintClaim_of {w : World} (h : Reachable w) {id : Nat} {t : LedgerTask} {a : Option LedgerAnswer} {d : Deposit}
    (hp : ⟨id, .ledger t, a⟩ ∈ w.tasks) (hd : (Task.ledger t).deposit = some d) : MintClaim w.mem t :=
  (mintInv h).claim (p := ⟨id, .ledger t, a⟩) (List.mem_filter.2 ⟨hp, by simp [Pending.minting, hd]⟩) rfl

theorem deliver_run {w w' : World} (h : Reachable w) (hs : Step w w') (hR : Run w.mem.m.log w.mem.m.st) {id : Nat} {t : LedgerTask} {a : LedgerAnswer}
    {now : Nat} {n : Next} (hp : ⟨id, .ledger t, some a⟩ ∈ w.tasks) (hr : t.resume w.mem a now = .ok (w'.mem, n)) :
    Run w'.mem.m.log w'.mem.m.st := by
  have hnod := burns_nodup (Reachable.step _ _ h hs)
  rw [(Step.grows h hs).nativeLedger] at hnod
  have hlast : ∀ {c1 : Mem} {e : Event}, w.mem.process e = .ok c1 → w'.mem.m = c1.m →
      ((w.mem.m.log ++ [e]).flatMap (Event.burns w.mem.m.st.nativeLedgerId)).Nodup := by
    intro c1 e h1 h2
    obtain ⟨s, _, rfl⟩ := Mem.process_iff.1 h1
    rw [h2] at hnod; exact hnod
  have same : w'.mem.m = w.mem.m → Run w'.mem.m.log w'.mem.m.st := fun e => by rw [e]; exact hR
  have one : ∀ {c1 : Mem} {e : Event}, w.mem.process e = .ok c1 → w'.mem.m = c1.m → Emits w.mem.m.st e → Run w'.mem.m.log w'.mem.m.st := by
    intro c1 e h1 h2 he
    rw [h2]; exact run_process hR he h1
  have minted : ∀ {env : MintEnv} {d : Deposit} {rest : List Deposit} {sym : String} {l : Principal} {i : Nat},
      MintQueue w.mem.m.st env (d :: rest) → w.mem.mintTarget env d = .ok (sym, l) → Emits w.mem.m.st (d.mintedEvent sym i) := by
    intro env d rest sym l i k1 k2
    have hw := k1.waiting d (by simp)
    cases d with
    | native e => exact ⟨e, hw⟩
    | erc20 e =>
      simp only [Mem.mintTarget, Res.bind_ok, Res.expect_ok, Res.pure_ok, Prod.mk.injEq] at k2
      obtain ⟨⟨l', sym'⟩, h1, rfl, rfl⟩ := k2
      exact ⟨e, l', hw, rfl, h1⟩
  have fail : ∀ {c : Mem} {q : Erc20Charged} {e : WithdrawErc20Error}, c.erc20Fail q e = (w'.mem, n) → w'.mem.m = c.m := by
    intro c q e hh
    have := c.erc20Fail_m q e
    rw [hh] at this; exact this
  cases t <;> simp only [LedgerTask.resume] at hr
  case mintUser env d sym l amount rest =>
    obtain ⟨k1, k2, k3⟩ := mintClaim_of h hp rfl
    rcases Mem.onMintUser_cases hr with ⟨i, fee, e, _, _, _, _, h1, _⟩ | ⟨i, c1, _, _, _, h1, h2⟩ | ⟨_, h2⟩
    · exact same (by rw [h1])
    · exact one h1 (Mem.mintLoop_m h2) (minted k1 k2)
    · exact same (Mem.mintLoop_m h2)
  case mintFee env d sym l fee block rest =>
    obtain ⟨k1, k2, _⟩ := mintClaim_of h hp rfl
    simp only [Mem.mintRecord, Res.bind_ok] at hr
    obtain ⟨c1, h1, h2⟩ := hr
    exact one h1 (Mem.mintLoop_m h2) (minted k1 k2)
  case reimburse x r l rest =>
    have hc : ReimbClaim w.mem (.reimburse x r l rest) := (reimbInv h).claim (p := ⟨id, .ledger (.reimburse x r l rest), some a⟩)
      (List.mem_filter.2 ⟨hp, rfl⟩) rfl
    have hw := hc.1.waiting (x, r) (by simp)
    rcases Mem.onReimburse_cases hr with ⟨i, c1, _, _, h1, h2⟩ | ⟨_, h2⟩
    · refine one h1 (Mem.reimburseLoop_m h2) ?_
      cases x with
      | native j => exact ⟨j, r, hw, rfl⟩
      | erc20 n l j => exact ⟨j, r, hw, rfl⟩
    · exact same (Mem.reimburseLoop_m h2)
  case nativeFee q l fee t =>
    rcases Mem.onNativeFee_cases hr with ⟨_, _, _, _, _, h1, _⟩ | ⟨_, _, h1, _⟩ <;> exact same (by rw [h1]; try rfl)
  case nativeBurn q l am at' =>
    obtain ⟨s1, s2⟩ := nativeBurn_sized h hp
    rcases Mem.onNativeBurn_cases hr with ⟨i, c1, _, _, h1, h2, _⟩ | ⟨_, _, _, _, h1, _⟩ | ⟨_, _, _, h1, _⟩
    · have h3 : w'.mem.m = c1.m := by rw [h2]; rfl
      exact one h1 h3 ⟨s1, notReimbursed_of_nodup h (hlast h1 h3) (by simp [Event.burns]), s2⟩
    · exact same (by rw [h1])
    · exact same (by rw [h1]; try rfl)
  case nativeRefund q l am e =>
    obtain ⟨_, h1, _⟩ := Mem.onNativeRefund_cases hr
    exact same (by rw [h1]; try rfl)
  case erc20Fee q t =>
    rcases Mem.onErc20Fee_cases hr with ⟨_, _, _, h1, _⟩ | ⟨_, _, h1, _⟩ <;> exact same (by rw [h1]; try rfl)
  case erc20NativeBurn q at' =>
    rcases Mem.onErc20NativeBurn_cases hr with ⟨_, _, _, h1, _⟩ | ⟨_, _, h1⟩
    · exact same (by rw [h1])
    · exact same (fail h1)
  case erc20TokenBurn q at' ni =>
    obtain ⟨s1, s2, s3⟩ := erc20TokenBurn_sized h hp
    have hok : Task.Ok w id (.ledger (.erc20TokenBurn q at' ni)) := task_ok h hp
    have htok := hok.1.2
    rcases Mem.onErc20TokenBurn_cases hr with ⟨i, c1, _, _, h1, h2, _⟩ | ⟨_, e, c1, _, h1, h2⟩
    · have h3 : w'.mem.m = c1.m := by rw [h2]; rfl
      exact one h1 h3 ⟨notReimbursed_of_nodup h (hlast h1 h3) (by simp [Event.burns]), s1, s2, s3, _,
        (DMKM.getEntry_eq (registry_of_tracks (tracks h)).wf).2 htok⟩
    · have h3 := fail h2
      rcases h1 with ⟨_, h1⟩ | ⟨_, rfl⟩
      · exact one h1 h3 (notRequested_of_nodup h (hlast h1 h3) (by simp [Event.burns]))
      · exact same h3
  case erc20Refund q am e =>
    obtain ⟨h1, _⟩ := Mem.onErc20Refund_cases hr
    exact same (by rw [h1]; try rfl)

theorem cleanup_run {w : World} (h : Reachable w) (hR : Run w.mem.m.log w.mem.m.st) {p : Pending} {c : Mem} (hp : p ∈ w.tasks)
    (hc : p.task.cleanup w.mem = .ok c) : Run c.m.log c.m.st ∧ c.m.st.txs.created = w.mem.m.st.txs.created := by
  obtain ⟨id, t, a⟩ := p
  have one : ∀ {c1 : Mem} {e : Event}, w.mem.process e = .ok c1 → c.m = c1.m → Emits w.mem.m.st e → e.origin ≠ .retrieve →
      Run c.m.log c.m.st ∧ c.m.st.txs.created = w.mem.m.st.txs.created := by
    intro c1 e h1 h2 he ho
    rw [h2]
    exact ⟨run_process hR he h1, (Grew.process rfl h1).created (tracks h) ho⟩
  have same : c.m = w.mem.m → Run c.m.log c.m.st ∧ c.m.st.txs.created = w.mem.m.st.txs.created := fun e => by rw [e]; exact ⟨hR, rfl⟩
  cases t with
  | ledger t =>
    cases t <;> simp only [Task.cleanup, Res.bind_ok, Res.pure_ok, Except.ok.injEq] at hc
    case mintUser env d sym l amount rest =>
      obtain ⟨c1, h1, rfl⟩ := hc
      obtain ⟨k1, _⟩ := mintClaim_of h hp rfl
      exact one h1 rfl ⟨d, k1.waiting d (by simp)⟩ (by simp [Event.origin])
    case mintFee env d sym l fee block rest =>
      obtain ⟨c1, h1, rfl⟩ := hc
      obtain ⟨k1, _⟩ := mintClaim_of h hp rfl
      exact one h1 rfl ⟨d, k1.waiting d (by simp)⟩ (by simp [Event.origin])
    case reimburse x r l rest =>
      obtain ⟨c1, h1, rfl⟩ := hc
      have hc : ReimbClaim w.mem (.reimburse x r l rest) := (reimbInv h).claim (p := ⟨id, .ledger (.reimburse x r l rest), a⟩)
        (List.mem_filter.2 ⟨hp, rfl⟩) rfl
      exact one h1 rfl ⟨r, hc.1.waiting (x, r) (by simp)⟩ (by simp [Event.origin])
    all_goals (subst hc; exact same rfl)
  | ext t => cases t <;> simp only [Task.cleanup, Except.ok.injEq] at hc <;> (subst hc; exact same rfl)

omit [Keccak] in
theorem retrieveSend_claim {c c' : Mem} {count : Option TransactionCount} {n : Next} (h : c.retrieveSend count = .ok (c', n)) (s : State) :
    n.SendClaim s := by
  have fin : c.retrieveFinalize.2.SendClaim s := by unfold Mem.retrieveFinalize; split <;> trivial
  unfold Mem.retrieveSend at h
  split at h
  · simp only [Except.ok.injEq] at h
    rw [h] at fin; exact fin
  · simp only [Res.bind_ok] at h
    obtain ⟨b, _, h⟩ := h
    split at h
    · simp only [Res.pure_ok] at h
      rw [h] at fin; exact fin
    · cases h; trivial

/-- The retrieving task and the other tasks that wait for another canister. -/
theorem answer_run {c c' : Mem} {t : ExtTask} {a : ExtAnswer} {now : Nat} {n : Next} (hT : Tracks c.m.log c.m.st)
    (hR : Run c.m.log c.m.st) (hn : NonceNeverLowered c.m.log) (hclaim : (Task.ext t).SendClaim c.m.st) (hty : a.Typed)
    (h : t.resume c now a = some (.ok (c', n))) :
    Run c'.m.log c'.m.st ∧ (NonceNeverLowered c'.m.log → n.SendClaim c'.m.st) ∧
      (TaskType.retrieveEth ∈ (Task.ext t).running ∨ c'.m.st.txs.created = c.m.st.txs.created) := by
  have hG := ExtTask.resume_grew h
  have fin : ∀ (c : Mem) (s : State), c.retrieveFinalize.2.SendClaim s := by
    intro c s; unfold Mem.retrieveFinalize; split <;> trivial
  unfold ExtTask.resume at h
  split at h <;> simp only [Option.some.injEq, reduceCtorEq] at h
  · rename_i att b
    simp only [Res.bind_ok, Res.pure_ok] at h
    obtain ⟨w, hw, h⟩ := h
    refine ⟨?_, fun _ => ?_, .inr (hG.created hT (by simp [ExtTask.origin]))⟩
    · simp only [Mem.scraperStep] at h
      have hm : c'.m = w.m := by split at h <;> (cases h; rfl)
      rw [hm]
      unfold Scraper.onBlock at hw
      simp only [] at hw
      split at hw
      · simp only [Res.bind_ok, Res.pure_ok] at hw
        obtain ⟨_, _, rfl⟩ := hw
        exact hR
      · split at hw <;> (cases hw; exact hR)
    · unfold Mem.scraperStep at h
      simp only at h
      split at h <;> (cases h; trivial)
  · simp only [Res.bind_ok, Res.pure_ok] at h
    obtain ⟨w, hw, h⟩ := h
    refine ⟨?_, fun _ => ?_, .inr (hG.created hT (by simp [ExtTask.origin]))⟩
    · simp only [Mem.scraperStep] at h
      have hm : c'.m = w.m := by split at h <;> (cases h; rfl)
      rw [hm]
      simp only [Scraper.onLogs, Res.bind_ok, Res.pure_ok] at hw
      obtain ⟨m, hm', _, _, rfl⟩ := hw
      exact run_onAnswer hR hm'
    · unfold Mem.scraperStep at h
      simp only at h
      split at h <;> (cases h; trivial)
  · cases h; exact ⟨hR, fun _ => trivial, .inr rfl⟩
  · rename_i g
    unfold Mem.onRetrieveGas at h
    split at h
    · cases h; exact ⟨hR, fun _ => trivial, .inr rfl⟩
    · cases h; exact ⟨hR, fun _ => hty, .inr rfl⟩
  · rename_i g cnt
    refine ⟨?_, fun hn' => ?_, .inl (by simp [Task.running])⟩
    · simp only [Mem.retrieveCreate, Res.bind_ok] at h
      obtain ⟨m1, h1, m2, h2, b, hb, h⟩ := h
      obtain ⟨m1', out, k1, k2, k3, _, _, k4, _, _⟩ := run_resubmitBatch hR hn hclaim cnt
      rw [h1] at k1; cases k1
      have hr2 := run_createBatch hclaim k2 (by rw [k4]; exact hT.nodup) h2
      have hm : c'.m = m2 := by
        split at h
        · exact Mem.retrieveSend_m h
        · cases h; rfl
      rw [hm]; exact hr2
    · simp only [Mem.retrieveCreate, Res.bind_ok] at h
      obtain ⟨m1, h1, m2, h2, b, hb, h⟩ := h
      obtain ⟨m1', out, k1, k2, k3, _, _, k4, _, _⟩ := run_resubmitBatch hR hn hclaim cnt
      rw [h1] at k1; cases k1
      have hr2 := run_createBatch hclaim k2 (by rw [k4]; exact hT.nodup) h2
      split at h
      · exact retrieveSend_claim h _
      · cases h
        obtain ⟨l, j1, _, j2, j3⟩ := toSignBatch_spec hr2 hn' 5
        rw [hb] at j1; cases j1
        exact ⟨j2, j3⟩
  · rename_i cnt batch sigs
    simp only [Mem.onSignatures, Res.bind_ok] at h
    obtain ⟨m1, h1, h⟩ := h
    obtain ⟨hc1, hc2⟩ := hclaim
    refine ⟨?_, fun _ => retrieveSend_claim h _, .inl (by simp [Task.running])⟩
    obtain ⟨m', k1, k2, _⟩ := run_recordSigned ((batch.zip sigs).map fun x => (x.1.1, x.1.2, x.2)) hR hn (by
        rw [List.pairwise_map]
        have : (batch.zip sigs).Pairwise fun x y => x.1.2.nonce < y.1.2.nonce := by
          clear hc2 h1 hG h hty
          induction batch generalizing sigs with
          | nil => simp
          | cons b bs ih =>
            cases sigs with
            | nil => simp
            | cons s ss =>
              rw [List.pairwise_cons] at hc1
              rw [List.zip_cons_cons, List.pairwise_cons]
              refine ⟨fun y hy => hc1.1 _ (List.of_mem_zip (a := y.1) (b := y.2) hy).1, ih ss hc1.2⟩
        exact this)
      (by
        intro i tx sig hx
        obtain ⟨⟨⟨i', tx'⟩, s'⟩, hm, he⟩ := List.mem_map.1 hx
        simp only [Prod.mk.injEq] at he
        obtain ⟨rfl, rfl, rfl⟩ := he
        exact hc2 _ _ (List.of_mem_zip hm).1)
    rw [h1] at k1; cases k1
    rw [Mem.retrieveSend_m h]; exact k2
  · simp only [Except.ok.injEq] at h
    have h1 := c.retrieveFinalize_m
    have h2 := fin c
    rw [h] at h1 h2
    rw [h1]
    exact ⟨hR, fun _ => h2 _, .inl (by simp [Task.running])⟩
  · unfold Mem.onFinalizedCount at h
    split at h
    · cases h; exact ⟨hR, fun _ => trivial, .inl (by simp [Task.running])⟩
    · simp only [Res.bind_ok] at h
      obtain ⟨f, _, h⟩ := h
      split at h
      · simp only [Mem.onReceipts, Res.bind_ok, Res.pure_ok] at h
        obtain ⟨m, hm, h⟩ := h
        cases h
        exact ⟨run_recordReceipts hR hm, fun _ => trivial, .inl (by simp [Task.running])⟩
      · cases h; exact ⟨hR, fun _ => trivial, .inl (by simp [Task.running])⟩
  · simp only [Mem.onReceipts, Res.bind_ok, Res.pure_ok] at h
    obtain ⟨m, hm, h⟩ := h
    cases h
    exact ⟨run_recordReceipts hR hm, fun _ => trivial, .inl (by simp [Task.running])⟩
  · have hm := Mem.onErc20Gas_m h
    have hm : c'.m = c.m := hm
    refine ⟨by rw [hm]; exact hR, fun _ => ?_, .inr (by rw [hm])⟩
    rcases Mem.onErc20Gas_cases h with ⟨_, _, rfl⟩ | ⟨_, _, _, ⟨_, _, _, _, rfl⟩ | ⟨_, rfl⟩⟩ <;> trivial

theorem start_run {c c' : Mem} {msg : Message} {now : Nat} {n : Next} (hR : Run c.m.log c.m.st) (hty : msg.Typed)
    (h : msg.run c now = .ok (c', n)) : Run c'.m.log c'.m.st ∧ n.SendClaim c'.m.st := by
  refine ⟨?_, ?_⟩
  · by_cases hm : c'.m = c.m
    · rw [hm]; exact hR
    · obtain ⟨caller, arg, t, rfl, _⟩ := (Message.run_news h).resolve_left hm
      simp only [Message.run, Res.bind_ok, Res.pure_ok, addErc20Token] at h
      obtain ⟨x, ⟨_, _, _, _, t, ht, s', hs, rfl⟩, h⟩ := h
      cases h
      refine .event _ _ _ _ hR ?_ hs
      exact Address.parse_lt (ofArg_eq.1 (Res.expect_ok.1 ht)).2.1
  · cases msg <;> simp only [Message.run] at h
    case mint =>
      unfold Mem.startMint at h
      split at h
      · cases h; trivial
      · rcases Mem.mintLoop_next h with rfl | ⟨_, _, _, _, _, _, rfl⟩ <;> trivial
    case reimbursement =>
      unfold Mem.startReimbursement at h
      split at h
      · cases h; trivial
      · rcases Mem.reimburseLoop_next h with rfl | ⟨_, _, _, _, rfl⟩ <;> trivial
    case retrieve g =>
      unfold Mem.startRetrieve at h
      split at h
      · cases h; trivial
      · split at h
        · cases h; trivial
        · split at h
          · cases h; exact hty
          · split at h <;> (cases h; trivial)
    case scrape => split at h <;> (cases h; trivial)
    case gas => split at h <;> (cases h; trivial)
    case withdrawNative =>
      obtain ⟨c1, _, h⟩ := Mem.startNative_cases h
      rcases h with ⟨_, rfl, rfl⟩ | ⟨_, _, _, _, rfl, ⟨_, _, _, _, rfl⟩ | ⟨_, rfl⟩⟩ <;> trivial
    case withdrawErc20 =>
      have gas : ∀ {c c' : Mem} {q : Erc20Call} {g : Option GasFeeEstimate} {now : Nat} {n : Next} {s : State},
          c.onErc20Gas q g now = .ok (c', n) → n.SendClaim s := by
        intro c c' q g now n s h
        rcases Mem.onErc20Gas_cases h with ⟨_, _, rfl⟩ | ⟨_, _, _, ⟨_, _, _, _, rfl⟩ | ⟨_, rfl⟩⟩ <;> trivial
      obtain ⟨c1, _, h⟩ := Mem.startErc20_cases h
      rcases h with ⟨_, rfl, rfl⟩ | ⟨_, _, _, _, _, ⟨_, _, h⟩ | ⟨_, h⟩ | ⟨_, h, rfl⟩⟩
      · trivial
      · exact gas h
      · exact gas h
      · trivial
    case addToken =>
      simp only [Res.bind_ok, Res.pure_ok] at h
      obtain ⟨x, _, h⟩ := h
      cases h; trivial

theorem runInv {w : World} (h : Reachable w) (hn : NonceNeverLowered w.mem.m.log) : RunInv w := by
  induction h with
  | init id a s blocks hs hb => exact ⟨.init a s hs, fun p hp => by cases hp⟩
  | step w w' hr hs ih =>
    have hn0 : NonceNeverLowered w.mem.m.log := by
      obtain ⟨es, he⟩ := (Step.grows hr hs).log
      rw [he] at hn
      exact nonceNeverLowered_prefix hn
    have I := ih hn0
    have T := tracks hr
    have L := lockInv hr
    have others : ∀ {pre post : List Pending} {p : Pending} {s : State}, w.tasks = pre ++ p :: post →
        (TaskType.retrieveEth ∈ p.task.running ∨ s.txs.created = w.mem.m.st.txs.created) →
        ∀ q ∈ pre ++ post, q.task.SendClaim s := by
      intro pre post p s ht hk q hq
      rcases hk with hk | hk
      · rw [ht] at L
        exact Task.sendClaim_of_running (not_running_of_split L hk q hq)
      · refine (I.claim q ?_).mono hk
        rw [ht]
        rcases List.mem_append.1 hq with hq | hq
        · simp [hq]
        · simp [hq]
    have adv : ∀ {pre post : List Pending} {id : Nat} {n : Next} {s : State}, (∀ q ∈ pre ++ post, q.task.SendClaim s) → n.SendClaim s →
        ∀ q ∈ pre ++ n.pending id ++ post, q.task.SendClaim s := by
      intro pre post id n s h1 h2 q hq
      simp only [List.mem_append] at hq
      rcases hq with (hq | hq) | hq
      · exact h1 q (by simp [hq])
      · exact Next.sendClaim_pending h2 q hq
      · exact h1 q (by simp [hq])
    have ledger : ∀ {pre post : List Pending} {id : Nat} {t : LedgerTask} {a a' : Option LedgerAnswer},
        w.tasks = pre ++ ⟨id, .ledger t, a⟩ :: post → ∀ q ∈ pre ++ ⟨id, .ledger t, a'⟩ :: post, q.task.SendClaim w.mem.m.st := by
      intro pre post id t a a' ht q hq
      rcases List.mem_append.1 hq with hq | hq
      · exact I.claim q (by rw [ht]; simp [hq])
      · rcases List.mem_cons.1 hq with rfl | hq
        · trivial
        · exact I.claim q (by rw [ht]; simp [hq])
    have hs0 := hs
    cases hs with
    | start msg now c n hty hrun =>
      obtain ⟨h1, h2⟩ := start_run I.run hty hrun
      refine ⟨h1, ?_⟩
      have hcr : c.m.st.txs.created = w.mem.m.st.txs.created := by
        by_cases hm : c.m = w.mem.m
        · rw [hm]
        · obtain ⟨caller, arg, t, rfl, _⟩ := (Message.run_news hrun).resolve_left hm
          exact (Message.run_grew hrun).created T (by simp [Message.origin])
      refine adv (pre := w.tasks) (post := []) ?_ h2
      rw [List.append_nil]
      exact fun q hq => (I.claim q hq).mono hcr
    | startTrap msg now e _ _ => exact ⟨I.run, by simpa [World.drop, World.begin] using I.claim⟩
    | execute pre post id t ht _ => exact ⟨I.run, ledger ht⟩
    | refuse pre post id t e ht _ => exact ⟨I.run, ledger ht⟩
    | reject pre post id t ht => exact ⟨I.run, ledger ht⟩
    | deliver pre post id t a now c n ht hrun =>
      have hG := LedgerTask.resume_grew hrun
      have ho : t.origin ≠ .retrieve := by cases t <;> simp [LedgerTask.origin]
      have hrun' := deliver_run hr hs0 I.run (id := id) (by rw [ht]; simp) hrun
      refine ⟨hrun', adv (others ht (.inr (hG.created T ho))) (Next.sendClaim_of_running fun hh => ?_)⟩
      have := (LedgerTask.resume_locks hrun).run _ hh
      cases t <;> simp [Task.running] at this
    | deliverTrap pre post id t a now e c ht _ hc =>
      obtain ⟨h1, h2⟩ := cleanup_run hr I.run (p := ⟨id, .ledger t, some a⟩) (by rw [ht]; simp) hc
      exact ⟨h1, others ht (.inr h2)⟩
    | kill pre post id t a c ht hc =>
      obtain ⟨h1, h2⟩ := cleanup_run hr I.run (p := ⟨id, .ledger t, some a⟩) (by rw [ht]; simp) hc
      exact ⟨h1, others ht (.inr h2)⟩
    | answer pre post id t o a now c n ht hty hrun =>
      obtain ⟨h1, h2, h3⟩ := answer_run T I.run hn0 (I.claim ⟨id, .ext t, o⟩ (by rw [ht]; simp)) hty hrun
      exact ⟨h1, adv (others ht h3) (h2 hn)⟩
    | answerTrap pre post id t o a now e c ht _ _ hc =>
      obtain ⟨h1, h2⟩ := cleanup_run hr I.run (p := ⟨id, .ext t, o⟩) (by rw [ht]; simp) hc
      exact ⟨h1, others ht (.inr h2)⟩
    | killExt pre post id t o c ht hc =>
      obtain ⟨h1, h2⟩ := cleanup_run hr I.run (p := ⟨id, .ext t, o⟩) (by rw [ht]; simp) hc
      exact ⟨h1, others ht (.inr h2)⟩
    | foreign call _ => exact ⟨I.run, I.claim⟩
    | upgrade arg log s ht hp =>
      refine ⟨?_, fun p hp => ?_⟩
      · have hsync : Run (w.mem.m.log ++ [.syncedToBlock w.mem.m.st.lastScrapedBlockNumber]) w.mem.m.st := by
          have := Run.event _ _ (.syncedToBlock w.mem.m.st.lastScrapedBlockNumber) w.mem.m.st I.run rfl (by simp [applyEvent])
          exact this
        show Run log s
        unfold postUpgrade at hp
        split at hp
        · cases hp
        · simp only [Res.bind_ok, Res.pure_ok, Prod.mk.injEq] at hp
          obtain ⟨s1, h1, s2, h2, rfl, rfl⟩ := hp
          exact .event _ _ _ _ (.restart _ _ _ hsync h1) trivial h2
        · simp only [Res.bind_ok, Res.pure_ok, Prod.mk.injEq] at hp
          obtain ⟨s1, h1, rfl, rfl⟩ := hp
          exact .restart _ _ _ hsync h1
      · have : p ∈ w.tasks := hp
        rw [ht] at this; cases this

/-- The minter's log and state, in any reachable world, are those of an execution of the canister. -/
theorem run_of_reachable {w : World} (h : Reachable w) (hn : NonceNeverLowered w.mem.m.log) : Run w.mem.m.log w.mem.m.st :=
  (runInv h hn).run

end
end EvmMinter
