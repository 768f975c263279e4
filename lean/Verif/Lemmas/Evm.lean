import Verif.Spec.Evm
import Verif.Props.C55
import Verif.Props.C57
import Verif.Props.C63
/-!
# The minter and the chain together: invariants
-/

namespace EvmMinter
open Spec Helper

section
variable [Keccak]

/-! ## What an answer makes the minter claim -/

/-- The minter recorded only events with property `P`. -/
def Adds (P : Event → Prop) (m m' : Minter) : Prop := ∃ es, m'.log = m.log ++ es ∧ ∀ e ∈ es, P e

omit [Keccak] in
theorem Adds.of_eq {P : Event → Prop} {m m' : Minter} (h : m' = m) : Adds P m m' := ⟨[], by simp [h]⟩

omit [Keccak] in
theorem Adds.trans {P : Event → Prop} {m m' m'' : Minter} (h : Adds P m m') (h' : Adds P m' m'') : Adds P m m'' := by
  obtain ⟨es, h1, h2⟩ := h
  obtain ⟨es', h3, h4⟩ := h'
  exact ⟨es ++ es', by rw [h3, h1, List.append_assoc], fun e he => (List.mem_append.1 he).elim (h2 e) (h4 e)⟩

omit [Keccak] in
theorem Adds.mono {P Q : Event → Prop} {m m' : Minter} (hpq : ∀ e, P e → Q e) (h : Adds P m m') : Adds Q m m' := by
  obtain ⟨es, h1, h2⟩ := h
  exact ⟨es, h1, fun e he => hpq e (h2 e he)⟩

theorem Grew.adds {o : Origin} {m m' : Minter} (h : Grew o m m') : Adds (fun e => e.origin = o) m m' := h.ext

theorem Adds.processEvent {P : Event → Prop} {m m' : Minter} {e : Event} (he : P e) (h : m.processEvent e = .ok m') : Adds P m m' := by
  simp only [Minter.processEvent, Res.bind_ok, Res.pure_ok] at h
  obtain ⟨s, hs, rfl⟩ := h
  exact ⟨[e], rfl, by simpa using he⟩

theorem Adds.processEvents {P : Event → Prop} {l : List Event} (hl : ∀ e ∈ l, P e) : ∀ {m m' : Minter},
    m.processEvents l = .ok m' → Adds P m m' := by
  induction l with
  | nil => intro m m' h; cases h; exact .of_eq rfl
  | cons e t ih =>
    intro m m' h
    simp only [Minter.processEvents, Res.bind_ok] at h
    obtain ⟨m1, h1, h2⟩ := h
    exact (Adds.processEvent (hl e (by simp)) h1).trans (ih (fun e he => hl e (by simp [he])) h2)

theorem Adds.resubmit {P : Event → Prop} (hP : ∀ i tx, P (.replacedTransaction i tx)) {m m' : Minter} {count : Option TransactionCount}
    {g : GasFeeEstimate} (h : m.resubmitBatch count g = .ok m') : Adds P m m' := by
  unfold Minter.resubmitBatch at h
  split at h
  · cases h; exact .of_eq rfl
  · split at h
    · cases h; exact .of_eq rfl
    · simp only [Res.bind_ok] at h
      obtain ⟨l, _, h⟩ := h
      refine Adds.processEvents (fun e he => ?_) h
      obtain ⟨x, _, hx⟩ := List.mem_filterMap.1 he
      split at hx
      · cases hx; exact hP _ _
      · cases hx

theorem Adds.create {P : Event → Prop} (hP : ∀ i tx, P (.createdTransaction i tx)) {g : GasFeeEstimate} {l : List Request} :
    ∀ {m m' : Minter}, m.createLoop g l = .ok m' → Adds P m m' := by
  induction l with
  | nil => intro m m' h; cases h; exact .of_eq rfl
  | cons e t ih =>
    intro m m' h
    simp only [Minter.createLoop, Res.bind_ok] at h
    obtain ⟨m1, h1, h2⟩ := h
    refine Adds.trans ?_ (ih h2)
    simp only [Minter.createOne, Res.bind_ok] at h1
    obtain ⟨x, _, h1⟩ := h1
    split at h1
    · exact Adds.processEvent (hP _ _) h1
    · simp only [Res.bind_ok, Res.pure_ok] at h1
      obtain ⟨t, ht, rfl⟩ := h1
      exact ⟨[], by simp⟩

theorem Adds.signed {P : Event → Prop} (hP : ∀ i tx, P (.signedTransaction i tx)) {m m' : Minter}
    {l : List (LedgerBurnIndex × Tx × Option Signature)} (h : m.recordSigned l = .ok m') : Adds P m m' := by
  refine Adds.processEvents (fun e he => ?_) h
  obtain ⟨x, _, hx⟩ := List.mem_filterMap.1 he
  rw [Option.map_eq_some_iff] at hx
  obtain ⟨s, _, rfl⟩ := hx
  exact hP _ _

omit [Keccak] in
theorem collectReceipts_mem {l : List ((Hash × LedgerBurnIndex) × Minter.ReceiptResult)} :
    ∀ {acc m : FMap LedgerBurnIndex Receipt}, Minter.collectReceipts acc l = some m → ∀ i r, m.get i = some r →
      acc.get i = some r ∨ .ok (some r) ∈ l.map Prod.snd := by
  induction l with
  | nil => intro acc m h i r hr; cases h; exact .inl hr
  | cons x t ih =>
    intro acc m h i r hr
    obtain ⟨⟨hash, j⟩, y⟩ := x
    cases y with
    | error e => cases h
    | ok y =>
      cases y with
      | none =>
        rcases ih h i r hr with h1 | h1
        · exact .inl h1
        · exact .inr (by simp [h1])
      | some r' =>
        simp only [Minter.collectReceipts] at h
        split at h
        · cases h
        · rcases ih h i r hr with h1 | h1
          · rw [FMap.get_insert] at h1
            split at h1
            · cases h1; exact .inr (by simp)
            · exact .inl h1
          · exact .inr (by simp [h1])

theorem Adds.receipts {m m' : Minter} {f : FMap Hash LedgerBurnIndex} {l : List Minter.ReceiptResult}
    (h : m.recordReceipts f l = .ok m') : Adds (fun e => ∃ i r, e = .finalizedTransaction i r ∧ .ok (some r) ∈ l) m m' := by
  unfold Minter.recordReceipts at h
  split at h
  · cases h; exact .of_eq rfl
  · rename_i rs hrs
    simp only [Res.bind_ok] at h
    obtain ⟨_, _, h⟩ := h
    refine Adds.processEvents (fun e he => ?_) h
    obtain ⟨x, hx, rfl⟩ := List.mem_map.1 he
    refine ⟨x.1, x.2, rfl, ?_⟩
    rcases collectReceipts_mem hrs x.1 x.2 (FMap.mem_toList.1 hx) with h1 | h1
    · cases h1
    · obtain ⟨y, hy, hy'⟩ := List.mem_map.1 h1
      rw [← hy']
      exact (List.of_mem_zip hy).2

theorem Adds.answer {m m' : Minter} {r : BlockRange} {a : LogsAnswer} (h : m.onAnswer r a = .ok m') :
    Adds (fun e => (∀ i r, e ≠ .finalizedTransaction i r) ∧ ∀ d, e.deposit? = some d →
      ∃ l, a = .logs l ∧ ∃ x ∈ l, parseLog x = .ok (.ok d)) m m' := by
  cases a with
  | failed => cases h; exact .of_eq rfl
  | tooLarge =>
    simp only [Minter.onAnswer] at h
    split at h
    · simp only [Res.bind_ok, Res.pure_ok] at h
      obtain ⟨m1, h1, rfl⟩ := h
      exact Adds.trans (m' := m1) (Adds.processEvent ⟨by rintro _ _ ⟨⟩, by rintro _ ⟨⟩⟩ h1) ⟨[], by simp [Minter.setScraped]⟩
    · cases h; exact .of_eq rfl
  | logs l =>
    simp only [Minter.onAnswer, Res.bind_ok, Res.pure_ok, Minter.registerDeposits] at h
    obtain ⟨x, hx, m1, ⟨m2, h2, h3⟩, rfl⟩ := h
    obtain ⟨f, hf, hp⟩ := parseAllLogs_eq l
    rw [hp, Except.ok.injEq] at hx
    subst hx
    refine Adds.trans (m' := m1) (Adds.trans (Adds.processEvents (fun e he => ?_) h2) (Adds.processEvents (fun e he => ?_) h3))
      ⟨[], by simp [Minter.setScraped]⟩
    · obtain ⟨d, hd, rfl⟩ := List.mem_map.1 he
      refine ⟨?_, fun d' hd' => ⟨l, rfl, ?_⟩⟩
      · intro i r hh; cases d <;> cases hh
      have : d' = d := by cases d <;> (cases hd'; rfl)
      subst this
      obtain ⟨x, hx, hxd⟩ := List.mem_filterMap.1 hd
      refine ⟨x, hx, ?_⟩
      rw [hf x]
      cases hfx : f x with
      | ok y => rw [hfx] at hxd; cases hxd; rfl
      | error y => rw [hfx] at hxd; cases hxd
    · obtain ⟨x, _, hx⟩ := List.mem_filterMap.1 he
      cases x <;> simp only [reduceCtorEq, Option.some.injEq] at hx
      subst hx
      exact ⟨by rintro _ _ ⟨⟩, by rintro _ ⟨⟩⟩

/-- A claim that the minter records after an answer is in the answer. -/
def ExtAnswer.Supports (a : ExtAnswer) (e : Event) : Prop :=
  (∀ d, e.deposit? = some d → ∃ l, a = .logs (.logs l) ∧ ∃ x ∈ l, parseLog x = .ok (.ok d)) ∧
  ∀ i r, e = .finalizedTransaction i r → ∃ l, a = .receipts l ∧ .ok (some r) ∈ l

theorem ExtTask.resume_supported {c c' : Mem} {t : ExtTask} {a : ExtAnswer} {now : Nat} {n : Next}
    (h : t.resume c now a = some (.ok (c', n))) : Adds a.Supports c.m c'.m := by
  unfold ExtTask.resume at h
  split at h <;> simp only [Option.some.injEq, reduceCtorEq] at h
  · simp only [Res.bind_ok, Res.pure_ok] at h
    obtain ⟨w, hw, h⟩ := h
    simp only [Mem.scraperStep] at h
    have hm : c'.m = w.m := by split at h <;> (cases h; rfl)
    rw [hm]
    unfold Scraper.onBlock at hw
    simp only [] at hw
    split at hw
    · simp only [Res.bind_ok, Res.pure_ok] at hw
      obtain ⟨_, _, rfl⟩ := hw
      exact .of_eq rfl
    · split at hw <;> (cases hw; exact .of_eq rfl)
  · simp only [Res.bind_ok, Res.pure_ok] at h
    obtain ⟨w, hw, h⟩ := h
    simp only [Mem.scraperStep] at h
    have hm : c'.m = w.m := by split at h <;> (cases h; rfl)
    rw [hm]
    simp only [Scraper.onLogs, Res.bind_ok, Res.pure_ok] at hw
    obtain ⟨m, hm', _, _, rfl⟩ := hw
    refine (Adds.answer hm').mono ?_
    rintro e ⟨h1, h2⟩
    refine ⟨fun d hd => ?_, fun i r hh => absurd hh (h1 i r)⟩
    obtain ⟨l, rfl, hx⟩ := h2 d hd
    exact ⟨l, rfl, hx⟩
  · cases h; exact .of_eq rfl
  · simp only [Except.ok.injEq, Mem.onRetrieveGas] at h
    split at h <;> (cases h; exact .of_eq rfl)
  · simp only [Mem.retrieveCreate, Res.bind_ok] at h
    obtain ⟨m1, h1, m2, h2, _, _, h⟩ := h
    refine (Adds.resubmit ?_ h1).trans ((Adds.create ?_ h2).trans (.of_eq ?_))
    · intro i tx; exact ⟨by rintro _ ⟨⟩, by rintro _ _ ⟨⟩⟩
    · intro i tx; exact ⟨by rintro _ ⟨⟩, by rintro _ _ ⟨⟩⟩
    · split at h
      · exact Mem.retrieveSend_m h
      · cases h; rfl
  · simp only [Mem.onSignatures, Res.bind_ok] at h
    obtain ⟨m1, h1, h⟩ := h
    refine (Adds.signed ?_ h1).trans (.of_eq (Mem.retrieveSend_m h))
    intro i tx; exact ⟨by rintro _ ⟨⟩, by rintro _ _ ⟨⟩⟩
  · simp only [Except.ok.injEq] at h
    exact .of_eq ((congrArg (fun x => x.1.m) h).symm.trans (Mem.retrieveFinalize_m _))
  · unfold Mem.onFinalizedCount at h
    split at h
    · cases h; exact .of_eq rfl
    · simp only [Res.bind_ok] at h
      obtain ⟨_, _, h⟩ := h
      split at h
      · simp only [Mem.onReceipts, Res.bind_ok, Res.pure_ok] at h
        obtain ⟨m1, h1, h⟩ := h
        cases h
        refine Adds.mono ?_ (Adds.receipts h1)
        rintro e ⟨i, r, rfl, hr⟩
        cases hr
      · cases h; exact .of_eq rfl
  · simp only [Mem.onReceipts, Res.bind_ok, Res.pure_ok] at h
    obtain ⟨m1, h1, h⟩ := h
    cases h
    refine Adds.mono ?_ (Adds.receipts h1)
    rintro e ⟨i, r, rfl, hr⟩
    exact ⟨by rintro _ ⟨⟩, by rintro _ _ ⟨⟩; exact ⟨_, rfl, hr⟩⟩
  · have := Mem.onErc20Gas_m h
    exact .of_eq this

/-! ## Logs and deposits -/

omit [Keccak] in
theorem principalOf_word {p : Principal} (hc : Creditable p) : principalOf (principalWord p) = some p := by
  have h1 : p.bytes.length ≤ 29 := hc.2.1
  have e : (⟨((principalWord p).drop 1).take ((principalWord p).headD 0).toNat⟩ : Principal) = p := by
    cases p with
    | mk b =>
      simp only at h1
      have h2 : (UInt8.ofNat b.length).toNat = b.length := by
        rw [UInt8.toNat_ofNat', Nat.mod_eq_of_lt (by omega)]
      simp only [principalWord, List.cons_append, List.drop_succ_cons, List.drop_zero, List.headD_cons, h2, List.take_left]
  unfold principalOf
  simp only [e]
  rw [if_pos ⟨hc, trivial⟩]

omit [Keccak] in
theorem principalOf_some {x : Bytes} {p : Principal} (h : principalOf x = some p) : Creditable p ∧ x = principalWord p := by
  unfold principalOf at h
  simp only [] at h
  split at h
  · rename_i hh
    cases h
    exact ⟨hh.1, hh.2.symm⟩
  · cases h

omit [Keccak] in
/-- What the minter decodes from a log of the chain is the deposit it stands for. -/
theorem parse_chainLog {e : LogEntry} {l : ChainLog} {d : Deposit} (hm : MinedLog e l.block l.src l.log) (ht : l.log.Typed)
    (hp : parseLog e = .ok (.ok d)) : l.deposit? = some d := by
  obtain ⟨x, b, src, p, hm', -, hc, hx, -⟩ := (C11_exact e d).1 hp
  have h1 : l.log.principal = x.principal := by
    have := hm.topics.symm.trans hm'.topics
    simp only [DepositLog.topics, List.cons.injEq] at this
    exact this.2.2.2.1
  have h2 : l.log.principal.1 = principalWord p := by rw [h1, hx]
  have h3 := (C11_exact e (l.log.deposit l.block l.src p)).2 ⟨l.log, l.block, l.src, p, hm, ht, hc, h2, rfl⟩
  rw [hp, Except.ok.injEq, Except.ok.injEq] at h3
  rw [ChainLog.deposit?, h2, principalOf_word hc, Option.map_some, h3]

/-! ## The invariant -/

/-- What holds of the minter and the chain together. -/
structure JointInv (minter : Address) (good : Address → Prop) (w : World) (v : Evm) : Prop where
  nonces : (v.mined.map fun f => f.signed.tx.nonce).Nodup
  below : ∀ f ∈ v.mined, f.signed.tx.nonce < v.nonce
  signed : ∀ x ∈ v.sent, ∃ i, .signedTransaction i x ∈ w.mem.m.log
  sent : ∀ f ∈ v.mined, f.signed ∈ v.sent
  gas : ∀ f ∈ v.mined, f.receipt.gasUsed ≤ f.signed.tx.gasLimit
  price : ∀ f ∈ v.mined, f.receipt.effectiveGasPrice ≤ f.signed.tx.maxFeePerGas
  hash : ∀ f ∈ v.mined, f.receipt.transactionHash = f.signed.hash
  typed : ∀ l ∈ v.logs, l.log.Emittable
  receipts : ∀ i r, .finalizedTransaction i r ∈ w.mem.m.log → ∃ f ∈ v.mined, f.receipt = r
  deposited : ∀ e ∈ w.mem.m.log, ∀ d, e.deposit? = some d → d ∈ v.chain.deposits
  native : v.chain.received ≤ v.acc.native minter + v.chain.spent
  tokens : ∀ c, good c → v.chain.receivedTokens c ≤ v.acc.tokens c minter + v.chain.spentTokens c

theorem Spec.Joint.reachable {minter helper : Address} {good : Address → Prop} {w : World} {v : Evm} (h : Joint minter helper good w v) :
    Reachable w := by
  induction h with
  | init id a s blocks acc nonce h1 h2 => exact .init id a s blocks h1 h2
  | minter w w' v _ hs _ ih => exact .step w w' ih hs
  | chain _ _ _ _ _ ih => exact ih
  | send _ _ _ _ _ ih => exact ih

/-- What a step records that claims something about the chain is true. -/
theorem told_claims {v : Evm} {w w' : World} (hT : ∀ l ∈ v.logs, l.log.Emittable) (ht : Told v w w') {e : Event} (he : e ∈ w'.since w) :
    (∀ d, e.deposit? = some d → d ∈ v.chain.deposits) ∧ ∀ i r, e = .finalizedTransaction i r → ∃ f ∈ v.mined, f.receipt = r := by
  rcases ht with h | ⟨pre, post, id, t, o, a, now, c, n, h1, h2, rfl, h3⟩
  · exact ⟨fun d hd => absurd (.inl ⟨d, hd⟩) (h e he), fun i r hr => absurd (.inr ⟨i, r, hr⟩) (h e he)⟩
  · obtain ⟨es, k1, k2⟩ := ExtTask.resume_supported h2
    have he' : e ∈ es := by
      have : (w.advance pre post id c n).since w = es := by
        show c.m.log.drop w.mem.m.log.length = es
        rw [k1, List.drop_left]
      rwa [this] at he
    obtain ⟨s1, s2⟩ := k2 e he'
    refine ⟨fun d hd => ?_, fun i r hr => ?_⟩
    · obtain ⟨l, rfl, x, hx, hp⟩ := s1 d hd
      obtain ⟨y, hy, hm⟩ := h3 x hx
      exact List.mem_filterMap.2 ⟨y, hy, parse_chainLog hm (hT y hy).1 hp⟩
    · obtain ⟨l, rfl, hl⟩ := s2 i r hr
      exact h3 r hl

omit [Keccak] in
/-- The deposit that a call of the helper contract stands for. -/
theorem deposit_credit {minter helper : Address} {good : Address → Prop} {env : Callees} {call : Call} {s s' : Accounts} {x : DepositLog}
    (hb : Behaved minter good env) (hs : call.sender ≠ minter) (h : Helper.deposit minter helper env call s = some (s', x))
    (b : BlockNumber) (src : EventSource) :
    s.native minter + (EvmChain.mk ([(⟨b, src, x⟩ : ChainLog)].filterMap ChainLog.deposit?) []).received ≤ s'.native minter ∧
    ∀ c, good c → s.tokens c minter + (EvmChain.mk ([(⟨b, src, x⟩ : ChainLog)].filterMap ChainLog.deposit?) []).receivedTokens c ≤
      s'.tokens c minter := by
  unfold EvmChain.received EvmChain.receivedTokens
  cases hp : principalOf x.principal.1 with
  | none =>
    have e1 : [(⟨b, src, x⟩ : ChainLog)].filterMap ChainLog.deposit? = [] := by
      simp [ChainLog.deposit?, hp]
    rw [e1]
    simp only [List.map_nil, List.sum_nil, Nat.add_zero]
    by_cases hv : 0 < call.value
    · obtain ⟨g1, -, -, g4, -⟩ := C63_native hv hs h
      exact ⟨by omega, fun c _ => by rw [g4]; exact Nat.le_refl _⟩
    · by_cases hg : good call.token
      · obtain ⟨g1, -, -, g4, g5, -⟩ := C63_token (by omega) hb hg hs h
        refine ⟨by rw [g5]; exact Nat.le_refl _, fun c hc => ?_⟩
        by_cases hct : c = call.token
        · subst hct; omega
        · rw [g4 c hct]; exact Nat.le_refl _
      · obtain ⟨g1, -⟩ := C63_any_token (by omega) h
        have := hb.other _ _ _ _ _ _ hg g1
        exact ⟨this.native, this.tokens⟩
  | some p =>
    have e1 : [(⟨b, src, x⟩ : ChainLog)].filterMap ChainLog.deposit? = [x.deposit b src p] := by
      simp [ChainLog.deposit?, hp]
    rw [e1]
    simp only [List.map_cons, List.map_nil, List.sum_cons, List.sum_nil, Nat.add_zero]
    by_cases hv : 0 < call.value
    · obtain ⟨g1, -, -, g4, rfl⟩ := C63_native hv hs h
      simp only [DepositLog.deposit, if_true]
      exact ⟨by omega, fun c _ => by rw [g4]; exact Nat.le_refl _⟩
    · obtain ⟨g0, rfl⟩ := C63_any_token (by omega) h
      have hz : call.token ≠ 0 := by
        intro hz
        rw [hz, hb.zero] at g0; cases g0
      simp only [DepositLog.deposit, if_neg hz]
      by_cases hg : good call.token
      · obtain ⟨g1, -, -, g4, g5, -⟩ := C63_token (by omega) hb hg hs h
        refine ⟨by rw [g5]; exact Nat.le_refl _, fun c hc => ?_⟩
        split
        · rename_i hct; subst hct; omega
        · rename_i hct
          rw [g4 c (Ne.symm hct)]; exact Nat.le_refl _
      · have hh := hb.other _ _ _ _ _ _ hg g0
        refine ⟨hh.native, fun c hc => ?_⟩
        rw [if_neg (by rintro rfl; exact hg hc)]
        exact hh.tokens c hc

/-- A transaction that the minter signed moves no other tokens than it says. -/
theorem effect_tokens {minter : Address} {good : Address → Prop} {f : FinalizedTx} {s s' : Accounts} {net : EvmNetwork} {r : Request}
    (hE : Effect minter good f s s') (hS : Sound net r f.signed.tx) (hB : r.Bounded) {c : Address} (hc : good c) :
    s.tokens c minter ≤ s'.tokens c minter + tokensSent c f := by
  by_cases h1 : f.signed.tx.destination ≠ c ∨ f.receipt.status = .failure ∨ f.signed.tx.data = []
  · exact Nat.le_trans (hE.others c hc h1) (Nat.le_add_right _ _)
  · have h1 : f.signed.tx.destination = c ∧ f.receipt.status = .success ∧ f.signed.tx.data ≠ [] := by
      refine ⟨Classical.byContradiction fun h => h1 (.inl h), ?_, fun h => h1 (.inr (.inr h))⟩
      cases hst : f.receipt.status with
      | success => rfl
      | failure => exact absurd (.inr (.inl hst)) h1
    have hp := hS.pay
    cases r with
    | native q => exact absurd hp.data h1.2.2
    | erc20 q =>
      have hv : q.withdrawalAmount < 2 ^ 256 := hB.1
      have hd : f.signed.tx.data = transferCall q.destination q.withdrawalAmount := hp.data
      have := hE.token c _ _ hc hv hd
      have e2 : (transferCall q.destination q.withdrawalAmount).drop 36 = toBE 32 q.withdrawalAmount := by
        unfold transferCall
        rw [List.drop_append_of_le_length (by simp [length_toBE])]
        rw [List.drop_of_length_le (by simp [length_toBE])]
        rfl
      have e3 : beNat (toBE 32 q.withdrawalAmount) = q.withdrawalAmount := by
        rw [beNat_toBE, Nat.mod_eq_of_lt (by simpa using hv)]
      simp only [tokensSent, h1.2.1, h1.1, hd, true_and]
      rw [if_pos (by rw [← hd]; exact h1.2.2), e2, e3]
      exact this

theorem jointInv {minter helper : Address} {good : Address → Prop} {w : World} {v : Evm} (h : Joint minter helper good w v)
    (hn : NonceNeverLowered w.mem.m.log) : JointInv minter good w v := by
  induction h with
  | init id a s blocks acc nonce h1 h2 =>
    refine ⟨List.nodup_nil, ?_, ?_, ?_, ?_, ?_, ?_, ?_, ?_, ?_, ?_, ?_⟩
    all_goals first
      | (intro x hx; cases hx; done)
      | skip
    · intro i r hr
      simp only [World.initial, List.mem_singleton] at hr
      cases hr
    · intro e he d hd
      simp only [World.initial, List.mem_singleton] at he
      subst he; cases hd
    · exact Nat.zero_le _
    · intro c _; exact Nat.zero_le _
  | minter w w' v hj hs ht ih =>
    obtain ⟨es, he⟩ := (Step.grows hj.reachable hs).log
    have I := ih (nonceNeverLowered_prefix (he ▸ hn))
    have hsince : w'.since w = es := by rw [World.since, he, List.drop_left]
    refine ⟨I.nonces, I.below, fun x hx => ?_, I.sent, I.gas, I.price, I.hash, I.typed, fun i r hr => ?_, fun e hm d hd => ?_, I.native,
      I.tokens⟩
    · obtain ⟨i, hi⟩ := I.signed x hx
      exact ⟨i, he ▸ List.mem_append_left _ hi⟩
    · rw [he] at hr
      rcases List.mem_append.1 hr with hr | hr
      · exact I.receipts i r hr
      · exact (told_claims I.typed ht (hsince ▸ hr)).2 i r rfl
    · rw [he] at hm
      rcases List.mem_append.1 hm with hm | hm
      · exact I.deposited e hm d hd
      · exact (told_claims I.typed ht (hsince ▸ hm)).1 d hd
  | send w v x hj hx ih =>
    have I := ih hn
    refine ⟨I.nonces, I.below, fun y hy => ?_, fun f hf => List.mem_append_left _ (I.sent f hf), I.gas, I.price, I.hash, I.typed,
      I.receipts, I.deposited, I.native, I.tokens⟩
    rcases List.mem_append.1 hy with hy | hy
    · exact I.signed y hy
    · rw [List.mem_singleton] at hy
      subst hy
      obtain ⟨id, batch, a, h1, h2⟩ := hx
      exact C57_recorded_before_sent hj.reachable hn h1 h2
  | chain w v v' hj hs ih =>
    have I := ih hn
    cases hs with
    | other s hh =>
      exact ⟨I.nonces, I.below, I.signed, I.sent, I.gas, I.price, I.hash, I.typed, I.receipts, I.deposited,
        Nat.le_trans I.native (Nat.add_le_add_right hh.native _),
        fun c hc => Nat.le_trans (I.tokens c hc) (Nat.add_le_add_right (hh.tokens c hc) _)⟩
    | deposit env call s x b src hb ht hne hd =>
      obtain ⟨g1, g2⟩ := deposit_credit hb hne hd b src
      refine ⟨I.nonces, I.below, I.signed, I.sent, I.gas, I.price, I.hash, fun l hl => ?_, I.receipts, fun e he d hd' => ?_, ?_,
        fun c hc => ?_⟩
      · rcases List.mem_append.1 hl with hl | hl
        · exact I.typed l hl
        · rw [List.mem_singleton] at hl
          subst hl
          exact C63_emittable hb ht hd
      · have := I.deposited e he d hd'
        simp only [Evm.chain, List.filterMap_append]
        exact List.mem_append_left _ this
      · have := I.native
        simp only [Evm.chain, EvmChain.received, EvmChain.spent, List.filterMap_append, List.map_append, List.sum_append] at this g1 ⊢
        omega
      · have := I.tokens c hc
        have g2 := g2 c hc
        simp only [Evm.chain, EvmChain.receivedTokens, EvmChain.spentTokens, List.filterMap_append, List.map_append,
          List.sum_append] at this g2 ⊢
        omega
    | mine f s h1 h2 h3 h4 h5 h6 =>
      have R := run_of_reachable hj.reachable hn
      obtain ⟨i, hi⟩ := I.signed _ h1
      obtain ⟨r, hr, -, hS⟩ := recorded_sound R hn hi rfl
      refine ⟨?_, ?_, I.signed, ?_, ?_, ?_, ?_, I.typed, ?_, I.deposited, ?_, fun c hc => ?_⟩
      · simp only [List.map_append, List.map_cons, List.map_nil]
        rw [List.nodup_append]
        refine ⟨I.nonces, by simp, fun a ha b hb => ?_⟩
        rw [List.mem_singleton] at hb
        obtain ⟨g, hg, rfl⟩ := List.mem_map.1 ha
        have := I.below g hg
        womega
      · intro g hg
        show g.signed.tx.nonce < v.nonce + 1
        rcases List.mem_append.1 hg with hg | hg
        · have := I.below g hg; womega
        · rw [List.mem_singleton] at hg; subst hg; womega
      · intro g hg
        rcases List.mem_append.1 hg with hg | hg
        · exact I.sent g hg
        · rw [List.mem_singleton] at hg; subst hg; exact h1
      · intro g hg
        rcases List.mem_append.1 hg with hg | hg
        · exact I.gas g hg
        · rw [List.mem_singleton] at hg; subst hg; exact h3
      · intro g hg
        rcases List.mem_append.1 hg with hg | hg
        · exact I.price g hg
        · rw [List.mem_singleton] at hg; subst hg; exact h4
      · intro g hg
        rcases List.mem_append.1 hg with hg | hg
        · exact I.hash g hg
        · rw [List.mem_singleton] at hg; subst hg; exact h5
      · intro i r hr
        obtain ⟨g, hg, hh⟩ := I.receipts i r hr
        exact ⟨g, List.mem_append_left _ hg, hh⟩
      · have := I.native
        have hE := h6.native
        simp only [Evm.chain, EvmChain.received, EvmChain.spent, List.map_append, List.map_cons, List.map_nil, List.sum_append,
          List.sum_cons, List.sum_nil] at this ⊢
        omega
      · have := I.tokens c hc
        have hE := effect_tokens h6 hS (run_bounded R hr) hc
        simp only [Evm.chain, EvmChain.receivedTokens, EvmChain.spentTokens, List.map_append, List.map_cons, List.map_nil,
          List.sum_append, List.sum_cons, List.sum_nil] at this ⊢
        omega

/-- The chain agrees with what the minter has recorded. -/
theorem joint_agrees {minter helper : Address} {good : Address → Prop} {w : World} {v : Evm} (h : Joint minter helper good w v)
    (hn : NonceNeverLowered w.mem.m.log) (hc : NoCollision w.mem.m.log) : v.chain.Agrees w.mem.m.log := by
  have I := jointInv h hn
  exact ⟨I.nonces, fun f hf => I.signed _ (I.sent f hf), I.gas, I.price, I.hash, hc, I.receipts, I.deposited⟩

end
end EvmMinter
