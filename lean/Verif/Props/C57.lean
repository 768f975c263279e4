import Verif.Spec.Outgoing
import Verif.Props.C33
import Verif.Props.C43
import Verif.Props.C55
/-!
# C57: whatever is signed or sent has been paid for
-/

namespace EvmMinter
open Spec

section
variable [Keccak]

/-- The transactions given out are recorded in the log. -/
def Task.FromLog (log : List Event) : Task → Prop
  | .ext (.retrieveSign _ batch) => ∀ i tx, (i, tx) ∈ batch → ∃ e ∈ log, recordedFor e = some (i, tx)
  | .ext (.retrieveSend batch) => ∀ x ∈ batch, ∃ i, .signedTransaction i x ∈ log
  | _ => True

def Next.FromLog (log : List Event) : Next → Prop
  | .await t => t.FromLog log
  | .finish _ => True

omit [Keccak] in
theorem Task.FromLog.mono {log log' : List Event} (h : ∀ e ∈ log, e ∈ log') {t : Task} (hf : t.FromLog log) : t.FromLog log' := by
  cases t with
  | ledger t => trivial
  | ext t =>
    cases t <;> try trivial
    · intro i tx hx
      obtain ⟨e, h1, h2⟩ := hf i tx hx
      exact ⟨e, h e h1, h2⟩
    · intro x hx
      obtain ⟨i, h1⟩ := hf x hx
      exact ⟨i, h _ h1⟩

omit [Keccak] in
theorem Task.fromLog_of_running {log : List Event} {t : Task} (h : TaskType.retrieveEth ∉ t.running) : t.FromLog log := by
  cases t with
  | ledger t => trivial
  | ext t => cases t <;> first | trivial | (simp [Task.running] at h)

omit [Keccak] in
theorem Next.fromLog_of_running {log : List Event} {n : Next} (h : TaskType.retrieveEth ∉ n.running) : n.FromLog log := by
  cases n with
  | finish r => trivial
  | await t => exact Task.fromLog_of_running h

theorem retrieveSend_fromLog {c c' : Mem} {count : Option TransactionCount} {n : Next} (h : c.retrieveSend count = .ok (c', n))
    (hr : Run c.m.log c.m.st) (hn : NonceNeverLowered c.m.log) : n.FromLog c.m.log := by
  have fin : c.retrieveFinalize.2.FromLog c.m.log := by unfold Mem.retrieveFinalize; split <;> trivial
  unfold Mem.retrieveSend at h
  split at h
  · simp only [Except.ok.injEq] at h
    rw [h] at fin; exact fin
  · rename_i cnt
    simp only [Res.bind_ok] at h
    obtain ⟨b, hb, h⟩ := h
    split at h
    · simp only [Res.pure_ok] at h
      rw [h] at fin; exact fin
    · cases h
      intro x hx
      obtain ⟨all, h1, _, h3⟩ := C43_send hr hn cnt 5
      rw [hb] at h1; cases h1
      obtain ⟨_, i, l, rs, hl, hx⟩ := (h3 x).1 (List.mem_of_mem_take hx)
      exact (run_txInv hr hn).2.1.sentLog _ _ _ _ (MKM.getEntry_eq.1 hl) (List.mem_of_getLast? hx)

theorem answer_fromLog {c c' : Mem} {t : ExtTask} {a : ExtAnswer} {now : Nat} {n : Next}
    (hR : Run c'.m.log c'.m.st) (hn : NonceNeverLowered c'.m.log) (hclaim : n.SendClaim c'.m.st)
    (h : t.resume c now a = some (.ok (c', n))) : n.FromLog c'.m.log := by
  have fin : ∀ (c : Mem) (l : List Event), c.retrieveFinalize.2.FromLog l := by
    intro c s; unfold Mem.retrieveFinalize; split <;> trivial
  unfold ExtTask.resume at h
  split at h <;> simp only [Option.some.injEq, reduceCtorEq] at h
  · simp only [Res.bind_ok, Res.pure_ok] at h
    obtain ⟨w, hw, h⟩ := h
    unfold Mem.scraperStep at h
    simp only at h
    split at h <;> (cases h; trivial)
  · simp only [Res.bind_ok, Res.pure_ok] at h
    obtain ⟨w, hw, h⟩ := h
    unfold Mem.scraperStep at h
    simp only at h
    split at h <;> (cases h; trivial)
  · cases h; trivial
  · unfold Mem.onRetrieveGas at h
    split at h <;> (cases h; trivial)
  · simp only [Mem.retrieveCreate, Res.bind_ok] at h
    obtain ⟨m1, h1, m2, h2, b, hb, h⟩ := h
    split at h
    · have hm := Mem.retrieveSend_m h
      rw [hm] at hR hn
      have := retrieveSend_fromLog h hR hn
      rw [← hm] at this
      exact this
    · cases h
      intro i tx hx
      obtain ⟨c, h1, rfl⟩ := hclaim.2 i tx hx
      exact (run_logged hR hn).1 _ _ _ (MKM.getEntry_eq.1 h1)
  · simp only [Mem.onSignatures, Res.bind_ok] at h
    obtain ⟨m1, h1, h⟩ := h
    have hm := Mem.retrieveSend_m h
    rw [hm] at hR hn
    have := retrieveSend_fromLog h hR hn
    rw [← hm] at this
    exact this
  · simp only [Except.ok.injEq] at h
    have h2 := fin c
    rw [h] at h2
    exact h2 _
  · unfold Mem.onFinalizedCount at h
    split at h
    · cases h; trivial
    · simp only [Res.bind_ok] at h
      obtain ⟨f, _, h⟩ := h
      split at h
      · simp only [Mem.onReceipts, Res.bind_ok, Res.pure_ok] at h
        obtain ⟨m, hm, h⟩ := h
        cases h; trivial
      · cases h; trivial
  · simp only [Mem.onReceipts, Res.bind_ok, Res.pure_ok] at h
    obtain ⟨m, hm, h⟩ := h
    cases h; trivial
  · rcases Mem.onErc20Gas_cases h with ⟨_, _, rfl⟩ | ⟨_, _, _, ⟨_, _, _, _, rfl⟩ | ⟨_, rfl⟩⟩ <;> trivial

theorem start_fromLog {c c' : Mem} {msg : Message} {now : Nat} {n : Next} (h : msg.run c now = .ok (c', n)) (l : List Event) :
    n.FromLog l := by
  cases msg <;> simp only [Message.run] at h
  case mint =>
    unfold Mem.startMint at h
    split at h
    · cases h; trivial
    · rcases Mem.mintLoop_next h with rfl | ⟨_, _, _, _, _, _, rfl⟩ <;> trivial
  case reimbursement =>
    unfold Mem.startReimbursement at h
    split at h
    · cases h; trivial
    · rcases Mem.reimburseLoop_next h with rfl | ⟨_, _, _, _, rfl⟩ <;> trivial
  case retrieve g =>
    unfold Mem.startRetrieve at h
    split at h
    · cases h; trivial
    · split at h
      · cases h; trivial
      · split at h
        · cases h; trivial
        · split at h <;> (cases h; trivial)
  case scrape => split at h <;> (cases h; trivial)
  case gas => split at h <;> (cases h; trivial)
  case withdrawNative =>
    obtain ⟨c1, _, h⟩ := Mem.startNative_cases h
    rcases h with ⟨_, rfl, rfl⟩ | ⟨_, _, _, _, rfl, ⟨_, _, _, _, rfl⟩ | ⟨_, rfl⟩⟩ <;> trivial
  case withdrawErc20 =>
    have gas : ∀ {c c' : Mem} {q : Erc20Call} {g : Option GasFeeEstimate} {now : Nat} {n : Next},
        c.onErc20Gas q g now = .ok (c', n) → n.FromLog l := by
      intro c c' q g now n h
      rcases Mem.onErc20Gas_cases h with ⟨_, _, rfl⟩ | ⟨_, _, _, ⟨_, _, _, _, rfl⟩ | ⟨_, rfl⟩⟩ <;> trivial
    obtain ⟨c1, _, h⟩ := Mem.startErc20_cases h
    rcases h with ⟨_, rfl, rfl⟩ | ⟨_, _, _, _, _, ⟨_, _, h⟩ | ⟨_, h⟩ | ⟨_, h, rfl⟩⟩
    · trivial
    · exact gas h
    · exact gas h
    · trivial
  case addToken =>
    simp only [Res.bind_ok, Res.pure_ok] at h
    obtain ⟨x, _, h⟩ := h
    cases h; trivial

theorem fromLog {w : World} (h : Reachable w) (hn : NonceNeverLowered w.mem.m.log) : ∀ p ∈ w.tasks, p.task.FromLog w.mem.m.log := by
  induction h with
  | init id a s blocks hs hb => exact fun p hp => by cases hp
  | step w w' hr hs ih =>
    have G := Step.grows hr hs
    have hn0 : NonceNeverLowered w.mem.m.log := by
      obtain ⟨es, he⟩ := G.log
      rw [he] at hn
      exact nonceNeverLowered_prefix hn
    have I := fun p hp => (ih hn0 p hp).mono G.mem_log
    have J := runInv (.step _ _ hr hs) hn
    clear ih
    have others : ∀ {pre post : List Pending} {p : Pending} {l : List Event}, w.tasks = pre ++ p :: post →
        (∀ p ∈ w.tasks, p.task.FromLog l) → ∀ q ∈ pre ++ post, q.task.FromLog l := by
      intro pre post p l ht I q hq
      refine I q ?_
      rw [ht]
      rcases List.mem_append.1 hq with hq | hq
      · simp [hq]
      · simp [hq]
    have adv : ∀ {pre post : List Pending} {id : Nat} {n : Next} {s : List Event}, (∀ q ∈ pre ++ post, q.task.FromLog s) → n.FromLog s →
        ∀ q ∈ pre ++ n.pending id ++ post, q.task.FromLog s := by
      intro pre post id n s h1 h2 q hq
      simp only [List.mem_append] at hq
      rcases hq with (hq | hq) | hq
      · exact h1 q (by simp [hq])
      · cases n with
        | finish r => cases hq
        | await t =>
          simp only [Next.pending, List.mem_singleton] at hq
          subst hq; exact h2
      · exact h1 q (by simp [hq])
    have ledger : ∀ {pre post : List Pending} {id : Nat} {t : LedgerTask} {a a' : Option LedgerAnswer} {l : List Event},
        w.tasks = pre ++ ⟨id, .ledger t, a⟩ :: post → (∀ p ∈ w.tasks, p.task.FromLog l) →
        ∀ q ∈ pre ++ ⟨id, .ledger t, a'⟩ :: post, q.task.FromLog l := by
      intro pre post id t a a' l ht I q hq
      rcases List.mem_append.1 hq with hq | hq
      · exact I q (by rw [ht]; simp [hq])
      · rcases List.mem_cons.1 hq with rfl | hq
        · trivial
        · exact I q (by rw [ht]; simp [hq])
    cases hs with
    | start msg now c n hty hrun =>
      exact adv (pre := w.tasks) (post := []) (by rw [List.append_nil]; exact I) (start_fromLog hrun _)
    | startTrap msg now e _ _ => simpa [World.drop, World.begin] using I
    | execute pre post id t ht _ => exact ledger ht I
    | refuse pre post id t e ht _ => exact ledger ht I
    | reject pre post id t ht => exact ledger ht I
    | deliver pre post id t a now c n ht hrun =>
      refine adv (others ht I) (Next.fromLog_of_running fun hh => ?_)
      have := (LedgerTask.resume_locks hrun).run _ hh
      cases t <;> simp [Task.running] at this
    | deliverTrap pre post id t a now e c ht _ hc => exact others ht I
    | kill pre post id t a c ht hc => exact others ht I
    | answer pre post id t o a now c n ht hty hrun =>
      refine adv (others ht I) (answer_fromLog J.run hn ?_ hrun)
      exact (answer_run (tracks hr) (run_of_reachable hr hn0) hn0 ((runInv hr hn0).claim ⟨id, .ext t, o⟩ (by rw [ht]; simp)) hty hrun).2.1 hn
    | answerTrap pre post id t o a now e c ht _ _ hc => exact others ht I
    | killExt pre post id t o c ht hc => exact others ht I
    | foreign call _ => exact I
    | upgrade arg log s ht hp =>
      intro p hp
      have : p ∈ w.tasks := hp
      rw [ht] at this; cases this

/-- A recorded transaction belongs to the withdrawal it was recorded for. -/
theorem recordedFor_core {log : List Event} {s : State} (h : Run log s) (hn : NonceNeverLowered log) {e : Event} {i : LedgerBurnIndex} {tx : Tx}
    (he : e ∈ log) (ht : recordedFor e = some (i, tx)) : Core s.txs tx.nonce i tx.core := by
  have tl := (run_txInv h hn).2.1
  cases e <;> simp only [recordedFor, Option.some.injEq, Prod.mk.injEq, reduceCtorEq] at ht
  case createdTransaction => obtain ⟨rfl, rfl⟩ := ht; exact tl.core1 _ _ he
  case signedTransaction => obtain ⟨rfl, rfl⟩ := ht; exact signed_core h hn he
  case replacedTransaction =>
    obtain ⟨rfl, rfl⟩ := ht
    rename_i i tx
    obtain ⟨pre, post, s₁, s₂, rfl, hr, hem, ha, hr₂⟩ := run_mem h he (by rintro a hh; cases hh)
    obtain ⟨inv, tl₁, _⟩ := run_txInv hr (nonceNeverLowered_prefix hn)
    obtain ⟨l, last, g, hg, hge, hlast, hre⟩ := hem
    rw [MKM.getEntry_eq] at hge
    obtain ⟨tx₀, h1, h2, h3⟩ := tl₁.core3 _ _ _ (.inr (.inl ⟨l, last, hge, List.mem_of_getLast? hlast, rfl⟩))
    have hc := tl.core1 i tx₀ (List.mem_append_left _ h1)
    have hcore : tx.core = tx₀.core := by
      obtain ⟨j, hj⟩ := tl.core2 _ he tx rfl
      rw [h2] at hc
      exact (Core.unique (run_txInv h hn).1 hj hc).2
    rw [h2] at hc
    rw [hcore]
    exact hc

/-- Every transaction recorded for a withdrawal is paid for by its burn. -/
theorem recorded_paid {w : World} (h : Reachable w) (hn : NonceNeverLowered w.mem.m.log) (hb : BurnsSmall w.mem.m.log) {e : Event}
    {i : LedgerBurnIndex} {tx : Tx} (he : e ∈ w.mem.m.log) (ht : recordedFor e = some (i, tx)) :
    w.PaidBy i tx ∧ tx.chainId = w.mem.m.st.evmNetwork.chainId ∧ tx.accessList = [] ∧ tx.maxPriorityFeePerGas ≤ tx.maxFeePerGas := by
  have hR := run_of_reachable h hn
  obtain ⟨r, h1, h2, h3⟩ := recorded_sound hR hn he ht
  refine ⟨?_, h3.chain, h3.access, h3.prio⟩
  have hbd := run_bounded hR h1
  cases r with
  | native q =>
    obtain ⟨b, k1, k2, k3⟩ := C49_truthful h h1
    have hp : NativeSound q tx := h3.pay
    subst h2
    exact .inl ⟨b, _, k1, by rw [k2, hp.amount (hb.1 q h1)], by rw [k3, hp.dest], hp.data⟩
  | erc20 q =>
    obtain ⟨⟨b, sym, k0, k1, k2, k3⟩, b', k4, k5, k6⟩ := C49_truthful h h1
    have hp : Erc20Sound q tx := h3.pay
    subst h2
    exact .inr ⟨b, b', _, _, _, _, _, _, sym, by rw [hp.dest]; exact k0, k1, k2, k3, k4, k5, k6, hp.fee (hb.2 q h1), hp.amount,
      by rw [hp.data]; rfl, hbd.2.2, hbd.1⟩

/-- **C57**: in every execution (unless an upgrade lowers the next nonce), every transaction that the minter is having signed
or is sending is recorded in its log for some burn on the native ledger that pays for it, is for the minter's chain, and any
other transaction ever recorded has the same nonce if and only if it is for the same burn; so of all transactions that were
signed for a burn, the chain takes at most one. -/
theorem C57_outgoing_paid {w : World} (h : Reachable w) (hn : NonceNeverLowered w.mem.m.log) (hb : BurnsSmall w.mem.m.log) {p : Pending}
    (hp : p ∈ w.tasks) {tx : Tx} (htx : tx ∈ p.task.outgoing) :
    ∃ i, (∃ e ∈ w.mem.m.log, recordedFor e = some (i, tx)) ∧ w.PaidBy i tx ∧ tx.chainId = w.mem.m.st.evmNetwork.chainId ∧
      ∀ e ∈ w.mem.m.log, ∀ j tx', recordedFor e = some (j, tx') → (tx'.nonce = tx.nonce ↔ j = i) := by
  have hf := fromLog h hn p hp
  have hR := run_of_reachable h hn
  have key : ∃ i, ∃ e ∈ w.mem.m.log, recordedFor e = some (i, tx) := by
    obtain ⟨id, t, a⟩ := p
    cases t with
    | ledger t => cases htx
    | ext t =>
      cases t <;> simp only [Task.outgoing, List.not_mem_nil] at htx
      case retrieveSign count batch =>
        obtain ⟨⟨i, tx'⟩, hm, rfl⟩ := List.mem_map.1 htx
        exact ⟨i, hf i _ hm⟩
      case retrieveSend batch =>
        obtain ⟨x, hm, rfl⟩ := List.mem_map.1 htx
        obtain ⟨i, hi⟩ := hf x hm
        exact ⟨i, _, hi, rfl⟩
  obtain ⟨i, e, he, ht⟩ := key
  obtain ⟨k1, k2, _⟩ := recorded_paid h hn hb he ht
  refine ⟨i, ⟨e, he, ht⟩, k1, k2, fun e' he' j tx' ht' => ?_⟩
  have c1 := recordedFor_core hR hn he ht
  have c2 := recordedFor_core hR hn he' ht'
  have inv := (run_txInv hR hn).1
  constructor
  · intro hh
    rw [hh] at c2
    exact (Core.unique inv c2 c1).1
  · rintro rfl
    exact Core.unique_nonce inv c2 c1

/-- **C57**, for what reaches the network: a transaction is sent only after its signature was recorded. -/
theorem C57_recorded_before_sent {w : World} (h : Reachable w) (hn : NonceNeverLowered w.mem.m.log) {id : Nat} {batch : List SignedTx}
    {a : Option LedgerAnswer} (hp : ⟨id, .ext (.retrieveSend batch), a⟩ ∈ w.tasks) {x : SignedTx} (hx : x ∈ batch) :
    ∃ i, .signedTransaction i x ∈ w.mem.m.log :=
  fromLog h hn _ hp x hx

end

namespace Example
attribute [local instance] keccak

/-- Two transactions are being signed, and later sent. -/
theorem C57_example : (∃ w, Reachable w ∧ decide (w.tasks.map (fun p => p.task.outgoing) = [[nativeTx.tx, usdcTx.tx]] ∧
      w.mem.m.log.length = 10) = true) ∧
    ∃ w, Reachable w ∧ decide (w.tasks.map (fun p => p.task.outgoing) = [[nativeTx.tx, usdcTx.tx]] ∧ w.mem.m.log.length = 12) = true :=
  ⟨after_reachable (arg := initArg) (l := sending) (by decide +kernel),
    after_reachable (arg := initArg) (l := sending ++ [.answer 0 (.signatures [some sig, some sig]) 42]) (by decide +kernel)⟩

end Example
end EvmMinter
