import Verif.Lemmas.Resume
import Verif.Lemmas.Known
import Verif.Spec.Truth
/-!
# The records of a message and the blocks it made
-/

namespace EvmMinter
open Spec

/-- Block `i` of ledger `l` was made by task `t` of message `id`. -/
def MadeBy (w : World) (l : Principal) (i : Nat) (id : Nat) (t : LedgerTask) : Prop :=
  w.blockAt l i = some ⟨t.call w.mem.id, some (id, t)⟩ ∧ (t.call w.mem.id).ledger = l ∧ i < 2 ^ 64

/-- The request for an ERC-20 withdrawal whose burns are in blocks `n` and `i`. -/
def Erc20Charged.request (q : Erc20Charged) (now n i : Nat) : Erc20Request :=
  ⟨q.txFee, q.amount, q.destination, n, q.token.erc20ContractAddress, q.token.erc20LedgerId, i, q.caller, none, now⟩

/-- The event was recorded by message `id` on account of blocks that it made. -/
def Event.Backed (w : World) (id : Nat) : Event → Prop
  | .mintedNative src i => ∃ env e sym a rest, (Deposit.native e).source = src ∧
      MadeBy w w.mem.m.st.nativeLedgerId i id (.mintUser env (.native e) sym w.mem.m.st.nativeLedgerId a rest)
  | .mintedErc20 src i sym c => ∃ env e l a rest, (Deposit.erc20 e).source = src ∧ e.erc20ContractAddress = c ∧
      w.mem.m.st.erc20Tokens.Has l c sym ∧ MadeBy w l i id (.mintUser env (.erc20 e) sym l a rest)
  | .acceptedNativeWithdrawalRequest r => ∃ (q : NativeCall) (now : Nat),
      r = ⟨r.withdrawalAmount, q.destination, r.ledgerBurnIndex, q.caller, none, some now⟩ ∧
      MadeBy w w.mem.m.st.nativeLedgerId r.ledgerBurnIndex id (.nativeBurn q w.mem.m.st.nativeLedgerId r.withdrawalAmount now)
  | .acceptedErc20WithdrawalRequest r => ∃ (q : Erc20Charged) (now : Nat),
      r = q.request now r.nativeLedgerBurnIndex r.erc20LedgerBurnIndex ∧
      w.mem.m.st.erc20Tokens.Has r.erc20LedgerId r.erc20ContractAddress q.token.symbol ∧
      MadeBy w w.mem.m.st.nativeLedgerId r.nativeLedgerBurnIndex id (.erc20NativeBurn q now) ∧
      MadeBy w r.erc20LedgerId r.erc20LedgerBurnIndex id (.erc20TokenBurn q now r.nativeLedgerBurnIndex)
  | .failedErc20WithdrawalRequest r => ∃ (q : Erc20Charged) (now : Nat),
      r = ⟨r.ledgerBurnIndex, r.reimbursedAmount, q.caller, none, none⟩ ∧ 0 < r.reimbursedAmount ∧ r.reimbursedAmount ≤ q.txFee ∧
      MadeBy w w.mem.m.st.nativeLedgerId r.ledgerBurnIndex id (.erc20NativeBurn q now)
  | .reimbursedNativeWithdrawal q => ∃ n r rest, q = ⟨q.reimbursedInBlock, r.ledgerBurnIndex, r.reimbursedAmount, r.transactionHash⟩ ∧
      MadeBy w w.mem.m.st.nativeLedgerId q.reimbursedInBlock id (.reimburse (.native n) r w.mem.m.st.nativeLedgerId rest)
  | .reimbursedErc20Withdrawal n l q => ∃ b r rest, q = ⟨q.reimbursedInBlock, r.ledgerBurnIndex, r.reimbursedAmount, r.transactionHash⟩ ∧
      MadeBy w l q.reimbursedInBlock id (.reimburse (.erc20 n l b) r l rest)
  | .quarantinedReimbursement x => KnownReimb w.mem.m.log x
  | _ => True

/-- The token of an ERC-20 withdrawal is supported, and its fee is paid on the native ledger. -/
def Erc20Call.Ok (w : World) (q : Erc20Call) : Prop :=
  q.nativeLedger = w.mem.m.st.nativeLedgerId ∧
    w.mem.m.st.erc20Tokens.Has q.token.erc20LedgerId q.token.erc20ContractAddress q.token.symbol

/-- What a suspended task of message `id` relies on. -/
def LedgerTask.Ok (w : World) (id : Nat) : LedgerTask → Prop
  | .mintUser _ _ _ _ _ _ => True
  | .mintFee env d sym l _ block rest => ∃ a, MadeBy w l block id (.mintUser env d sym l a rest)
  | .reimburse x r l rest => l = w.mem.reimbursementLedger x ∧ ∀ y ∈ (x, r) :: rest, KnownReimb w.mem.m.log y.1
  | .nativeFee _ l _ _ | .nativeBurn _ l _ _ | .nativeRefund _ l _ _ => l = w.mem.m.st.nativeLedgerId
  | .erc20Fee q _ | .erc20NativeBurn q _ | .erc20Refund q _ _ => q.Ok w
  | .erc20TokenBurn q now ni => q.Ok w ∧ MadeBy w w.mem.m.st.nativeLedgerId ni id (.erc20NativeBurn q now)

def Task.Ok (w : World) (id : Nat) : Task → Prop
  | .ledger t => t.Ok w id
  | .ext (.erc20Gas q) => q.Ok w
  | .ext _ => True

def Progress.Ok (w : World) (id : Nat) : Progress → Prop
  | .waiting t _ => t.Ok w id
  | .done _ => True

section
variable [Keccak]

/-- The first part of a message records nothing, unless it adds a token. -/
theorem Message.run_news {c c' : Mem} {msg : Message} {now : Nat} {n : Next} (h : msg.run c now = .ok (c', n)) :
    c'.m = c.m ∨ ∃ caller arg t, msg = .addToken caller arg ∧ news c c' = [.addedErc20Token t] ∧ n = .finish none := by
  cases msg <;> simp only [Message.run] at h
  case mint =>
    left
    unfold Mem.startMint at h
    split at h
    · cases h; rfl
    · rename_i h1
      exact (Mem.mintLoop_m h).trans (Mem.acquire_m h1)
  case reimbursement =>
    left
    unfold Mem.startReimbursement at h
    split at h
    · cases h; rfl
    · rename_i h1
      exact (Mem.reimburseLoop_m h).trans (Mem.acquire_m h1)
  case retrieve =>
    left
    unfold Mem.startRetrieve at h
    split at h
    · cases h; rfl
    · rename_i h1
      refine Eq.trans ?_ (Mem.acquire_m h1)
      split at h
      · cases h; rfl
      · split at h
        · cases h; rfl
        · split at h
          · cases h; rfl
          · rename_i h2
            cases h
            exact Mem.acquire_m h2
  case scrape =>
    left
    split at h
    · cases h; rfl
    · rename_i h1
      cases h
      have := Mem.acquire_m h1
      exact this
  case gas =>
    left
    split at h
    · cases h; rfl
    · rename_i h1
      cases h
      exact Mem.acquire_m h1
  case withdrawNative =>
    left
    obtain ⟨c1, h1, h⟩ := Mem.startNative_cases h
    have hm := Mem.lockCaller_m h1
    rcases h with ⟨_, rfl, _⟩ | ⟨_, _, _, _, rfl, _⟩
    · exact hm
    · exact hm
  case withdrawErc20 =>
    left
    obtain ⟨c1, h1, h⟩ := Mem.startErc20_cases h
    have hm := Mem.lockCaller_m h1
    rcases h with ⟨_, rfl, _⟩ | ⟨_, _, _, _, _, ⟨_, _, h⟩ | ⟨_, h⟩ | ⟨_, h, _⟩⟩
    · exact hm
    · exact (Mem.onErc20Gas_m h).trans hm
    · exact (Mem.onErc20Gas_m h).trans hm
    · exact (Mem.acquire_m h).trans hm
  case addToken caller arg =>
    right
    simp only [Res.bind_ok, Res.pure_ok, addErc20Token] at h
    obtain ⟨x, ⟨_, _, _, _, t, _, s', hs, rfl⟩, h⟩ := h
    cases h
    exact ⟨caller, arg, t, rfl, by simp [news], rfl⟩

/-- Cleaning up records at most that something is quarantined. -/
theorem Task.cleanup_news {c c' : Mem} {t : Task} (h : t.cleanup c = .ok c') :
    news c c' = [] ∨ (∃ src, news c c' = [.quarantinedDeposit src]) ∨
      ∃ x r l rest, t = .ledger (.reimburse x r l rest) ∧ news c c' = [.quarantinedReimbursement x] := by
  cases t with
  | ledger t =>
    cases t <;> simp only [Task.cleanup, Res.bind_ok, Res.pure_ok, Except.ok.injEq] at h
    case mintUser => obtain ⟨c1, h1, rfl⟩ := h; exact .inr (.inl ⟨_, (news_eq (c' := c1) rfl).trans (news_process h1)⟩)
    case mintFee => obtain ⟨c1, h1, rfl⟩ := h; exact .inr (.inl ⟨_, (news_eq (c' := c1) rfl).trans (news_process h1)⟩)
    case reimburse => obtain ⟨c1, h1, rfl⟩ := h; exact .inr (.inr ⟨_, _, _, _, rfl, (news_eq (c' := c1) rfl).trans (news_process h1)⟩)
    all_goals (subst h; exact .inl (news_same rfl))
  | ext t =>
    left
    cases t <;> simp only [Task.cleanup, Except.ok.injEq] at h <;> (subst h; exact news_same rfl)

omit [Keccak] in
theorem Mem.retrieveFinalize_next (c : Mem) : (∃ t, c.retrieveFinalize.2 = .await (.ext t) ∧ ∀ q, t ≠ .erc20Gas q) ∨
    c.retrieveFinalize.2 = .finish none := by
  unfold Mem.retrieveFinalize
  split
  · exact .inr rfl
  · exact .inl ⟨_, rfl, fun _ h => by cases h⟩

omit [Keccak] in
theorem Mem.retrieveSend_next {c c' : Mem} {count : Option TransactionCount} {n : Next} (h : c.retrieveSend count = .ok (c', n)) :
    (∃ t, n = .await (.ext t) ∧ ∀ q, t ≠ .erc20Gas q) ∨ n = .finish none := by
  unfold Mem.retrieveSend at h
  split at h
  · simp only [Except.ok.injEq] at h
    have := c.retrieveFinalize_next
    rwa [h] at this
  · simp only [Res.bind_ok] at h
    obtain ⟨b, _, h⟩ := h
    split at h
    · simp only [Res.pure_ok] at h
      have := c.retrieveFinalize_next
      rwa [h] at this
    · cases h; exact .inl ⟨_, rfl, fun _ h => by cases h⟩

/-- The tasks that wait for other canisters, except for the endpoint, never wait for a ledger and do not reply. -/
theorem ExtTask.resume_next {c c' : Mem} {t : ExtTask} {a : ExtAnswer} {now : Nat} {n : Next}
    (h : t.resume c now a = some (.ok (c', n))) :
    (∃ q g, t = .erc20Gas q ∧ (c.release .refreshGasFeeEstimate).onErc20Gas q g now = .ok (c', n) ∧ a = .gas g) ∨
      ((∀ q, t ≠ .erc20Gas q) ∧ ((∃ t', n = .await (.ext t') ∧ ∀ q, t' ≠ .erc20Gas q) ∨ n = .finish none)) := by
  unfold ExtTask.resume at h
  have scr : ∀ (w : Scraper), (∃ t', (c.scraperStep w).2 = .await (.ext t') ∧ ∀ q, t' ≠ .erc20Gas q) ∨ (c.scraperStep w).2 = .finish none := by
    intro w
    unfold Mem.scraperStep
    split
    · exact .inl ⟨_, rfl, fun _ h => by cases h⟩
    · exact .inr rfl
  split at h <;> simp only [Option.some.injEq, reduceCtorEq] at h
  · simp only [Res.bind_ok, Res.pure_ok] at h
    obtain ⟨w, _, h⟩ := h
    have := scr w
    rw [h] at this
    exact .inr ⟨fun _ h => (by cases h), this⟩
  · simp only [Res.bind_ok, Res.pure_ok] at h
    obtain ⟨w, _, h⟩ := h
    have := scr w
    rw [h] at this
    exact .inr ⟨fun _ h => (by cases h), this⟩
  · cases h; exact .inr ⟨fun _ h => (by cases h), .inr rfl⟩
  · refine .inr ⟨fun _ h => (by cases h), ?_⟩
    unfold Mem.onRetrieveGas at h
    split at h
    · cases h; exact .inr rfl
    · cases h; exact .inl ⟨_, rfl, fun _ h => by cases h⟩
  · refine .inr ⟨fun _ h => (by cases h), ?_⟩
    simp only [Mem.retrieveCreate, Res.bind_ok] at h
    obtain ⟨_, _, _, _, _, _, h⟩ := h
    split at h
    · exact Mem.retrieveSend_next h
    · cases h; exact .inl ⟨_, rfl, fun _ h => by cases h⟩
  · refine .inr ⟨fun _ h => (by cases h), ?_⟩
    simp only [Mem.onSignatures, Res.bind_ok] at h
    obtain ⟨_, _, h⟩ := h
    exact Mem.retrieveSend_next h
  · refine .inr ⟨fun _ h => (by cases h), ?_⟩
    have := c.retrieveFinalize_next
    simp only [Except.ok.injEq] at h
    rwa [h] at this
  · refine .inr ⟨fun _ h => (by cases h), ?_⟩
    unfold Mem.onFinalizedCount at h
    split at h
    · cases h; exact .inr rfl
    · simp only [Res.bind_ok] at h
      obtain ⟨f, _, h⟩ := h
      split at h
      · simp only [Mem.onReceipts, Res.bind_ok, Res.pure_ok] at h
        obtain ⟨_, _, h⟩ := h
        cases h; exact .inr rfl
      · cases h; exact .inl ⟨_, rfl, fun _ h => by cases h⟩
  · refine .inr ⟨fun _ h => (by cases h), ?_⟩
    simp only [Mem.onReceipts, Res.bind_ok, Res.pure_ok] at h
    obtain ⟨_, _, h⟩ := h
    cases h; exact .inr rfl
  · exact .inl ⟨_, _, rfl, h, rfl⟩

omit [Keccak] in
theorem Mem.mintLoop_next {c c' : Mem} {env : MintEnv} {l : List Deposit} {n : Next} (h : c.mintLoop env l = .ok (c', n)) :
    n = .finish none ∨ ∃ d sym ledger a rest, l = d :: rest ∧ n = .await (.ledger (.mintUser env d sym ledger a rest)) := by
  cases l with
  | nil => cases h; exact .inl rfl
  | cons d t =>
    simp only [Mem.mintLoop, Res.bind_ok, Res.pure_ok, Prod.mk.injEq] at h
    obtain ⟨x, _, a, _, rfl, rfl⟩ := h
    exact .inr ⟨d, x.1, x.2, a, t, rfl, rfl⟩

omit [Keccak] in
theorem Mem.reimburseLoop_next {c c' : Mem} {l : List (ReimbIndex × ReimbRequest)} {n : Next} (h : c.reimburseLoop l = .ok (c', n)) :
    n = .finish none ∨ ∃ x r rest, l = (x, r) :: rest ∧ n = .await (.ledger (.reimburse x r (c.reimbursementLedger x) rest)) := by
  cases l with
  | nil => cases h; exact .inl rfl
  | cons d t => cases h; exact .inr ⟨_, _, _, rfl, rfl⟩

omit [Keccak] in
theorem Grows.reimbursementLedger {w w' : World} (h : Grows w w') (x : ReimbIndex) :
    w'.mem.reimbursementLedger x = w.mem.reimbursementLedger x := by
  cases x with
  | native n => exact h.nativeLedger
  | erc20 n l b => rfl

omit [Keccak] in
theorem Grows.mem_log {w w' : World} (h : Grows w w') : ∀ e ∈ w.mem.m.log, e ∈ w'.mem.m.log := by
  obtain ⟨es, he⟩ := h.log
  intro e h
  rw [he]
  exact List.mem_append_left _ h

/-- A finished call made the block it is told about. -/
theorem Before.madeBy {W w : World} (h : Before W w) {id : Nat} {t : LedgerTask} {i : Nat}
    (hm : ⟨id, .ledger t, some (.block i)⟩ ∈ w.tasks) : MadeBy W (t.call W.mem.id).ledger i id t := by
  obtain ⟨h1, h2⟩ := (answerInv h.reachable).block hm rfl rfl
  have h2 := h.grows.blockAt h2
  rw [← h.grows.id] at h2
  exact ⟨h2, rfl, h1⟩

theorem Before.claim {W w : World} (h : Before W w) {id : Nat} {t : LedgerTask} {a : Option LedgerAnswer}
    (hm : ⟨id, .ledger t, a⟩ ∈ w.tasks) (hd : t.deposit.isSome = true) : MintClaim w.mem t :=
  (mintInv h.reachable).claim (p := ⟨id, .ledger t, a⟩) (List.mem_filter.2 ⟨hm, by simp [Pending.minting, Task.deposit, hd]⟩) rfl

/-- The record of a mint whose block was made. -/
theorem Before.minted {W w : World} (h : Before W w) {id : Nat} {env : MintEnv} {d : Deposit} {sym : String} {l : Principal} {a i : Nat}
    {rest rest' : List Deposit} (hq : MintQueue w.mem.m.st env rest') (ht : w.mem.mintTarget env d = .ok (sym, l))
    (hb : MadeBy W l i id (.mintUser env d sym l a rest)) : (d.mintedEvent sym i).Backed W id := by
  cases d with
  | native e =>
    simp only [Mem.mintTarget, Except.ok.injEq, Prod.mk.injEq] at ht
    obtain ⟨rfl, rfl⟩ := ht
    have : env.ledger = W.mem.m.st.nativeLedgerId := by rw [hq.ledger, h.grows.nativeLedger]
    rw [this] at hb
    exact ⟨env, e, _, a, rest, rfl, hb⟩
  | erc20 e =>
    simp only [Mem.mintTarget, Res.bind_ok, Res.expect_ok, Res.pure_ok, Prod.mk.injEq] at ht
    obtain ⟨⟨l', sym'⟩, h1, rfl, rfl⟩ := ht
    exact ⟨env, e, _, a, rest, rfl, rfl,
      h.grows.tokens ((DMKM.getEntryAlt_eq (registry_of_tracks (tracks h.reachable)).wf).1 h1), hb⟩

omit [Keccak] in
theorem erc20ReimbursedAmount_le (f t : Wei) (e : LedgerError) : erc20ReimbursedAmount f t e ≤ f := by
  unfold erc20ReimbursedAmount
  split
  · exact Nat.le_refl _
  · cases h : csub f t with
    | none => exact Nat.zero_le _
    | some x =>
      simp only [Option.getD_some]
      have := csub_eq_some.1 h
      womega

omit [Keccak] in
theorem Erc20Call.Ok.mono {w w' : World} (G : Grows w w') {q : Erc20Call} (h : q.Ok w) : q.Ok w' :=
  ⟨h.1.trans G.nativeLedger.symm, G.tokens h.2⟩

/-- `withdraw_erc20` after the estimate waits for a ledger with the same call, or ends. -/
theorem Erc20Call.Ok.gas {W : World} {c c' : Mem} {q : Erc20Call} {g : Option GasFeeEstimate} {now : Nat} {n : Next} {id : Nat}
    (hq : q.Ok W) (hr : c.onErc20Gas q g now = .ok (c', n)) : n.status.Ok W id := by
  rcases Mem.onErc20Gas_cases hr with ⟨_, _, rfl⟩ | ⟨g', _, _, ⟨fee, t, _, _, rfl⟩ | ⟨_, rfl⟩⟩
  · trivial
  · exact hq
  · exact hq

/-- A message waits for what it should, and its records are backed by its blocks. -/
theorem Thread.backed {W : World} {id : Nat} {msg : Message} {bl : List Block} {ev : List Event} {st : Progress}
    (h : Thread W id msg bl ev st) : st.Ok W id ∧ ∀ e ∈ ev, e.Backed W id := by
  have app : ∀ {ev ev' : List Event}, (∀ e ∈ ev, e.Backed W id) → (∀ e ∈ ev', e.Backed W id) → ∀ e ∈ ev ++ ev', e.Backed W id := by
    intro ev ev' h1 h2 e he
    rcases List.mem_append.1 he with he | he
    · exact h1 e he
    · exact h2 e he
  have one : ∀ {c c' : Mem} {e : Event}, news c c' = [e] → e.Backed W id → ∀ e ∈ news c c', e.Backed W id := by
    intro c c' e h1 h2 e' he
    rw [h1, List.mem_singleton] at he
    exact he ▸ h2
  have none' : ∀ {c c' : Mem}, c'.m = c.m → ∀ e ∈ news c c', e.Backed W id := by
    intro c c' hm e he
    rw [news_same hm] at he; cases he
  have clean : ∀ {c c' : Mem} {t : Task}, t.Ok W id → t.cleanup c = .ok c' → ∀ e ∈ news c c', e.Backed W id := by
    intro c c' t ok hc e he
    rcases Task.cleanup_news hc with h | ⟨_, h⟩ | ⟨x, r, l, rest, rfl, h⟩ <;> rw [h] at he <;>
      simp only [List.not_mem_nil, List.mem_singleton] at he <;> subst he
    · trivial
    · exact ok.2 (x, r) (by simp)
  induction h with
  | start w now c n hb hn hty hr =>
    refine ⟨?_, fun e he => ?_⟩
    · cases msg <;> simp only [Message.run] at hr
      case mint =>
        unfold Mem.startMint at hr
        split at hr
        · cases hr; trivial
        · rcases Mem.mintLoop_next hr with rfl | ⟨d, sym, l, a, rest, _, rfl⟩ <;> trivial
      case reimbursement =>
        unfold Mem.startReimbursement at hr
        split at hr
        · cases hr; trivial
        · rename_i c1 h1
          rcases Mem.reimburseLoop_next hr with rfl | ⟨x, r, rest, hl, rfl⟩
          · trivial
          · refine ⟨?_, fun y hy => ?_⟩
            · rw [hb.grows.reimbursementLedger]
              unfold Mem.reimbursementLedger
              rw [Mem.acquire_m h1]
            · rw [← hl, Mem.acquire_m h1] at hy
              exact ((known_of_tracks (tracks hb.reachable)).requests (FMap.mem_toList.1 hy)).2.mono hb.grows.mem_log
      case retrieve =>
        unfold Mem.startRetrieve at hr
        split at hr
        · cases hr; trivial
        · split at hr
          · cases hr; trivial
          · split at hr
            · cases hr; trivial
            · split at hr <;> (cases hr; trivial)
      case scrape => split at hr <;> (cases hr; trivial)
      case gas => split at hr <;> (cases hr; trivial)
      case withdrawNative =>
        obtain ⟨c1, h1, h⟩ := Mem.startNative_cases hr
        rcases h with ⟨_, rfl, rfl⟩ | ⟨_, _, _, _, rfl, ⟨_, _, _, _, rfl⟩ | ⟨_, rfl⟩⟩
        · trivial
        · exact hb.grows.nativeLedger.symm
        · exact hb.grows.nativeLedger.symm
      case withdrawErc20 caller amount ledger recipient cached =>
        obtain ⟨c1, h1, h⟩ := Mem.startErc20_cases hr
        rcases h with ⟨_, rfl, rfl⟩ | ⟨dest, token, _, _, hk, h⟩
        · trivial
        · have hok : (⟨caller, amount, dest, token, w.mem.m.st.nativeLedgerTransferFee, w.mem.m.st.nativeLedgerId⟩ : Erc20Call).Ok W := by
            refine ⟨hb.grows.nativeLedger.symm, hb.grows.tokens ?_⟩
            simp only [State.findErc20TokenByLedgerId, Option.map_eq_some_iff] at hk
            obtain ⟨x, hx, rfl⟩ := hk
            exact (DMKM.getEntry_eq (registry_of_tracks (tracks hb.reachable)).wf).1 hx
          rcases h with ⟨_, _, h⟩ | ⟨_, h⟩ | ⟨_, h, rfl⟩
          · exact hok.gas h
          · exact hok.gas h
          · exact hok
      case addToken caller arg =>
        simp only [Res.bind_ok, Res.pure_ok] at hr
        obtain ⟨x, _, h⟩ := hr
        cases h; trivial
    · rcases Message.run_news hr with h | ⟨_, _, t, _, h, _⟩
      · exact none' h e he
      · rw [h, List.mem_singleton] at he
        subst he; trivial
  | startTrap w now e hb hn hty hr => exact ⟨trivial, fun e he => by cases he⟩
  | execute w bl ev t _ hb hm hh h0 h1 ih => exact ih
  | refuse w bl ev t e _ hb hm hr ih => exact ih
  | reject w bl ev t _ hb hm ih => exact ih
  | deliver w bl ev t a now c n hT hb hm hr ih =>
    obtain ⟨ok, ih⟩ := ih
    clear hT
    suffices n.status.Ok W id ∧ ∀ e ∈ news w.mem c, e.Backed W id from ⟨this.1, app ih this.2⟩
    cases t <;> simp only [LedgerTask.resume] at hr
    case mintUser env d sym l amount rest =>
      obtain ⟨k1, k2, k3⟩ := hb.claim hm rfl
      rcases Mem.onMintUser_cases hr with ⟨i, fee, e, rfl, hi, rfl, hf, rfl, rfl⟩ | ⟨i, c1, rfl, hi, _, hp, hl⟩ | ⟨_, hl⟩
      · exact ⟨⟨amount, hb.madeBy hm⟩, none' rfl⟩
      · refine ⟨?_, one ((news_eq (Mem.mintLoop_m hl)).trans (news_process hp)) (hb.minted k1 k2 (hb.madeBy hm))⟩
        rcases Mem.mintLoop_next hl with rfl | ⟨_, _, _, _, _, _, rfl⟩ <;> trivial
      · refine ⟨?_, none' (Mem.mintLoop_m hl)⟩
        rcases Mem.mintLoop_next hl with rfl | ⟨_, _, _, _, _, _, rfl⟩ <;> trivial
    case mintFee env d sym l fee block rest =>
      obtain ⟨k1, k2, k3⟩ := hb.claim hm rfl
      obtain ⟨amount, hmade⟩ := ok
      simp only [Mem.mintRecord, Res.bind_ok] at hr
      obtain ⟨c1, hp, hl⟩ := hr
      refine ⟨?_, one ((news_eq (Mem.mintLoop_m hl)).trans (news_process hp)) (hb.minted k1 k2 hmade)⟩
      rcases Mem.mintLoop_next hl with rfl | ⟨_, _, _, _, _, _, rfl⟩ <;> trivial
    case reimburse x r l rest =>
      have next : ∀ {c1 : Mem}, c1.m.st.nativeLedgerId = w.mem.m.st.nativeLedgerId → c1.reimburseLoop rest = .ok (c, n) → n.status.Ok W id := by
        intro c1 h1 hl
        rcases Mem.reimburseLoop_next hl with rfl | ⟨x', r', rest', hl', rfl⟩
        · trivial
        · refine ⟨?_, fun y hy => ok.2 y (by rw [hl']; simp only [List.mem_cons] at hy ⊢; exact .inr hy)⟩
          rw [hb.grows.reimbursementLedger]
          cases x' <;> simp [Mem.reimbursementLedger, h1]
      rcases Mem.onReimburse_cases hr with ⟨i, c1, rfl, hi, hp, hl⟩ | ⟨_, hl⟩
      · obtain ⟨s, hs, rfl⟩ := Mem.process_iff.1 hp
        refine ⟨next (congrArg FixedConfig.nativeLedgerId (applyEvent_frame hs).1) hl,
          one ((news_eq (Mem.reimburseLoop_m hl)).trans (news_process hp)) ?_⟩
        have hmade := hb.madeBy hm
        have ok : l = _ := ok.1
        subst ok
        cases x with
        | native k => exact ⟨k, r, rest, rfl, hmade⟩
        | erc20 k l b => exact ⟨b, r, rest, rfl, hmade⟩
      · exact ⟨next rfl hl, none' (Mem.reimburseLoop_m hl)⟩
    case nativeFee q l fee t =>
      rcases Mem.onNativeFee_cases hr with ⟨i, amount, _, _, _, rfl, rfl⟩ | ⟨_, e, rfl, rfl⟩
      · exact ⟨hb.grows.nativeLedger.symm, none' rfl⟩
      · exact ⟨trivial, none' rfl⟩
    case nativeBurn q l amount at' =>
      rcases Mem.onNativeBurn_cases hr with ⟨i, c1, rfl, hi, hp, rfl, rfl⟩ | ⟨_, e, fee, _, rfl, rfl⟩ | ⟨_, _, e, rfl, rfl⟩
      · refine ⟨trivial, one ((news_eq (c' := c1) rfl).trans (news_process hp)) ?_⟩
        have ok : l = _ := ok
        subst ok
        exact ⟨q, at', rfl, hb.madeBy hm⟩
      · exact ⟨ok, none' rfl⟩
      · exact ⟨trivial, none' rfl⟩
    case nativeRefund q l amount e =>
      obtain ⟨e', rfl, rfl⟩ := Mem.onNativeRefund_cases hr
      exact ⟨trivial, none' rfl⟩
    case erc20Fee q t =>
      rcases Mem.onErc20Fee_cases hr with ⟨i, _, _, rfl, rfl⟩ | ⟨_, e, rfl, rfl⟩
      · exact ⟨ok, none' rfl⟩
      · exact ⟨trivial, none' rfl⟩
    case erc20NativeBurn q at' =>
      rcases Mem.onErc20NativeBurn_cases hr with ⟨i, rfl, _, rfl, rfl⟩ | ⟨_, e, hf⟩
      · refine ⟨⟨ok, ?_⟩, none' rfl⟩
        have := hb.madeBy hm
        rwa [show (LedgerTask.call W.mem.id (.erc20NativeBurn q at')).ledger = W.mem.m.st.nativeLedgerId from ok.1] at this
      · rcases Mem.erc20Fail_cases w.mem q (.nativeLedgerError e) with ⟨fee, _, h1⟩ | ⟨_, h1⟩ <;> rw [h1] at hf <;> cases hf
        · exact ⟨ok, none' rfl⟩
        · exact ⟨trivial, none' rfl⟩
    case erc20TokenBurn q at' ni =>
      obtain ⟨ok, hni⟩ := ok
      rcases Mem.onErc20TokenBurn_cases hr with ⟨i, c1, rfl, hi, hp, rfl, rfl⟩ | ⟨_, e, c1, _, hc, hf⟩
      · exact ⟨trivial, one ((news_eq (c' := c1) rfl).trans (news_process hp)) ⟨q, at', rfl, ok.2, hni, hb.madeBy hm⟩⟩
      · have hnews : ∀ e ∈ news w.mem c1, e.Backed W id := by
          rcases hc with ⟨hpos, hp⟩ | ⟨_, rfl⟩
          · exact one (news_process hp) ⟨q, at', rfl, hpos, erc20ReimbursedAmount_le _ _ _, hni⟩
          · exact none' rfl
        have hcm : c.m = c1.m := by
          have := Mem.erc20Fail_m c1 q (.erc20LedgerError ni e)
          rw [hf] at this; exact this
        rw [news_eq hcm]
        refine ⟨?_, hnews⟩
        rcases Mem.erc20Fail_cases c1 q (.erc20LedgerError ni e) with ⟨fee, _, h1⟩ | ⟨_, h1⟩ <;> rw [h1] at hf <;> cases hf
        · exact ok
        · trivial
    case erc20Refund q amount e =>
      obtain ⟨rfl, rfl⟩ := Mem.onErc20Refund_cases hr
      exact ⟨trivial, none' rfl⟩
  | deliverTrap w bl ev t a now e c _ hb hm hr hc ih => exact ⟨trivial, app ih.2 (clean (t := .ledger t) ih.1 hc)⟩
  | kill w bl ev t a c _ hb hm hc ih => exact ⟨trivial, app ih.2 (clean (t := .ledger t) ih.1 hc)⟩
  | answer w bl ev t o a now c n _ hb hm ht hr ih =>
    obtain ⟨ok, ih⟩ := ih
    rcases ExtTask.resume_next hr with ⟨q, g, rfl, hq, _⟩ | ⟨hne, hn⟩
    · exact ⟨Erc20Call.Ok.gas ok hq, app ih (none' ((Mem.onErc20Gas_m hq).trans rfl))⟩
    · refine ⟨?_, app ih fun e he => ?_⟩
      · rcases hn with ⟨t', rfl, hne'⟩ | rfl
        · cases t' <;> first | trivial | exact absurd rfl (hne' _)
        · trivial
      · obtain ⟨es, h1, h2⟩ := (ExtTask.resume_grew hr).ext
        have : e ∈ es := by
          simp only [news, h1, List.drop_left] at he; exact he
        have ho := h2 e this
        cases e <;> first | trivial | (exfalso; cases t <;> first | exact absurd rfl (hne _) | (simp [Event.origin, ExtTask.origin] at ho))
  | answerTrap w bl ev t o a now e c _ hb hm ht hr hc ih => exact ⟨trivial, app ih.2 (clean (t := .ext t) ih.1 hc)⟩
  | killExt w bl ev t o c _ hb hm hc ih => exact ⟨trivial, app ih.2 (clean (t := .ext t) ih.1 hc)⟩

/-- Every event that is not one of an installation or upgrade was recorded by a message. -/
theorem trace_log {w : World} (h : Reachable w) {e : Event} (he : e ∈ w.mem.m.log) (ho : e.origin ≠ .lifecycle) :
    ∃ id, (id, e) ∈ w.trace := by
  induction h with
  | init id a s blocks _ _ =>
    simp only [World.initial, List.mem_singleton] at he
    subst he; exact absurd rfl ho
  | step w w' hr hs ih =>
    have grow : ∀ {o : Origin} {c : Mem} (id : Nat), Grew o w.mem.m c.m → e ∈ c.m.log → ∃ id', (id', e) ∈ w.trace ++ newEvents id w.mem c := by
      intro o c id hg he
      obtain ⟨es, h1, _⟩ := hg.ext
      rw [h1] at he
      rcases List.mem_append.1 he with he | he
      · obtain ⟨i, hi⟩ := ih he
        exact ⟨i, List.mem_append_left _ hi⟩
      · refine ⟨id, List.mem_append_right _ ?_⟩
        simp only [newEvents, h1, List.drop_left, List.mem_map]
        exact ⟨e, he, rfl⟩
    cases hs with
    | start msg now c n _ hr => exact grow _ (Message.run_grew hr) he
    | startTrap msg now e _ hr => exact grow _ (Grew.refl .mint _) he
    | execute pre post id t ht _ => exact ih he
    | refuse pre post id t e ht _ => exact ih he
    | reject pre post id t ht => exact ih he
    | deliver pre post id t a now c n ht hr => exact grow _ (LedgerTask.resume_grew hr) he
    | deliverTrap pre post id t a now e c ht hr hc => exact grow _ (Task.cleanup_grew hc) he
    | kill pre post id t a c ht hc => exact grow _ (Task.cleanup_grew hc) he
    | answer pre post id t o a now c n ht _ hr => exact grow _ (ExtTask.resume_grew hr) he
    | answerTrap pre post id t o a now e c ht _ hr hc => exact grow _ (Task.cleanup_grew hc) he
    | killExt pre post id t o c ht hc => exact grow _ (Task.cleanup_grew hc) he
    | foreign call _ => exact ih he
    | upgrade arg log s ht hp =>
      obtain ⟨_, es, h1, h2⟩ := postUpgrade_grew hp
      have he : e ∈ log := he
      rw [h1] at he
      rcases List.mem_append.1 he with he | he
      · exact ih he
      · exact absurd (h2 e he) ho

/-- The recorder of an event was started. -/
theorem trace_started {w : World} (h : Reachable w) {x : Nat × Event} (hx : x ∈ w.trace) : ∃ msg, (x.1, msg) ∈ w.started := by
  have h1 := (freshInv h).trace x hx
  have h2 : x.1 ∈ w.started.map (·.1) := by rw [(idInv h).started]; exact List.mem_range.2 h1
  obtain ⟨y, hy, h3⟩ := List.mem_map.1 h2
  exact ⟨y.2, by rw [← h3]; exact hy⟩

theorem trace_backed {w : World} (h : Reachable w) {id : Nat} {e : Event} (hx : (id, e) ∈ w.trace) : e.Backed w id := by
  obtain ⟨msg, hm⟩ := trace_started h hx
  obtain ⟨st, ht, _⟩ := thread h hm
  refine ht.backed.2 e ?_
  exact List.mem_map.2 ⟨(id, e), List.mem_filter.2 ⟨hx, by simp⟩, rfl⟩

/-- Every recorded event is backed by blocks. -/
theorem log_backed {w : World} (h : Reachable w) {e : Event} (he : e ∈ w.mem.m.log) (ho : e.origin ≠ .lifecycle) :
    ∃ id, (id, e) ∈ w.trace ∧ e.Backed w id := by
  obtain ⟨id, hx⟩ := trace_log h he ho
  exact ⟨id, hx, trace_backed h hx⟩

/-- What is claimed of suspended tasks. -/
theorem task_ok {w : World} (h : Reachable w) {p : Pending} (hp : p ∈ w.tasks) : p.task.Ok w p.id := by
  have I := idInv h
  have h1 : p.id < w.nextId := I.lt _ (List.mem_append_left _ (List.mem_map_of_mem hp))
  have h2 : p.id ∈ w.started.map (·.1) := by rw [I.started]; exact List.mem_range.2 h1
  obtain ⟨⟨i, msg⟩, hy, h3⟩ := List.mem_map.1 h2
  simp only at h3
  subst h3
  obtain ⟨st, ht, hh⟩ := thread h hy
  have := I.has_unique (id := p.id) (t := p.task) (a := p.answer) hp hh
  subst this
  exact ht.backed.1

end
end EvmMinter
