import Verif.Spec.Live
import Verif.Lemmas.TxLog
/-!
# Live state and replayed state
-/

namespace EvmMinter

open Transactions

/-- Replace the queue and the scraped block number. -/
def State.setPB (s : State) (p : List Request) (b : BlockNumber) : State :=
  { s with txs := { s.txs with pending := p }, lastScrapedBlockNumber := b }

def Transactions.setP (t : Transactions) (p : List Request) : Transactions := { t with pending := p }

theorem map_bind {ε α β γ : Type} (x : Except ε α) (f : α → Except ε β) (g : β → γ) :
    (x >>= f).map g = (x >>= fun a => (f a).map g) := by
  cases x <;> rfl

theorem map_ok_iff {α β : Type} {x : Res α} {g : α → β} {b : β} :
    x.map g = .ok b ↔ ∃ a, x = .ok a ∧ g a = b := by
  cases x <;> simp [Except.map]

theorem setP_signed (t : Transactions) (p : List Request) (x : SignedTx) :
    (t.setP p).recordSignedTransaction x = (t.recordSignedTransaction x).map (·.setP p) := by
  unfold recordSignedTransaction
  simp only [map_bind, setP]
  congr 1; funext c
  congr 1; funext _
  congr 1; funext y
  congr 1; funext z
  cases h : t.sent.modify z.1 (fun l => l ++ [⟨x, c.resubmission⟩]) with
  | some sent => rfl
  | none =>
    dsimp only
    cases t.sent.tryInsert z.1 z.2.1 [⟨x, c.resubmission⟩] <;> rfl

theorem setP_resubmit (t : Transactions) (p : List Request) (x : Tx) :
    (t.setP p).recordResubmitTransaction x = (t.recordResubmitTransaction x).map (·.setP p) := by
  unfold recordResubmitTransaction
  simp only [map_bind]
  have : (t.setP p).expectLastSent x.nonce = t.expectLastSent x.nonce := rfl
  rw [this]
  congr 1; funext c
  congr 1; funext _
  simp only [setP]
  congr 1; funext y
  cases y.tryInsert x.nonce c.1 ⟨x, c.2.resubmission⟩ <;> rfl

theorem setP_reimbReq (t : Transactions) (p : List Request) (i : ReimbIndex) (x : ReimbRequest) :
    (t.setP p).recordReimbursementRequest i x = (t.recordReimbursementRequest i x).map (·.setP p) := by
  unfold recordReimbursementRequest
  simp only [map_bind, setP]
  rfl

theorem setP_finReimb (t : Transactions) (p : List Request) (i : ReimbIndex) (b : LedgerMintIndex) :
    (t.setP p).recordFinalizedReimbursement i b = (t.recordFinalizedReimbursement i b).map (·.setP p) := by
  unfold recordFinalizedReimbursement
  simp only [map_bind, setP]
  rfl

theorem setP_finalized [Keccak] (t : Transactions) (p : List Request) (i : LedgerBurnIndex) (x : Receipt) :
    (t.setP p).recordFinalizedTransaction i x = (t.recordFinalizedTransaction i x).map (·.setP p) := by
  unfold recordFinalizedTransaction
  simp only [map_bind]
  show (expect (t.sent.getAlt i) _ >>= _) = _
  congr 1; funext l
  congr 1; funext stx
  cases stx.transaction.tryFinalize x with
  | error e => rfl
  | ok fin =>
    simp only [map_bind]
    show (t.sent.removeEntry _ >>= _) = _
    congr 1; funext y
    show (cleanupFailedResubmitted t.created _ >>= _) = _
    congr 1; funext z
    show (match t.finalized.tryInsert _ _ _ with | .error _ => _ | .ok _ => _) = _
    cases t.finalized.tryInsert stx.transaction.tx.nonce i fin with
    | error e => rfl
    | ok f =>
      simp only [map_bind]
      show (ensure (t.maybeReimburse.contains i) _ >>= _) = _
      congr 1; funext _
      show (expect (t.processed.get i) _ >>= _) = _
      congr 1; funext r
      split
      · exact setP_reimbReq
          ({ t with sent := y.2, created := z, finalized := f, maybeReimburse := t.maybeReimburse.erase i }) p _ _
      · rfl

/-- Queue without duplicate burn indices. -/
abbrev PendingNodup (p : List Request) : Prop := p.Pairwise (fun a b => a.burnIndex ≠ b.burnIndex)

theorem PendingNodup.perm {p q : List Request} (h : PendingNodup p) (hp : p.Perm q) : PendingNodup q :=
  (hp.pairwise_iff (fun h => Ne.symm h)).1 h

theorem find_perm {p q : List Request} (h : PendingNodup p) (hp : p.Perm q) (i : LedgerBurnIndex) :
    p.find? (fun r => r.burnIndex == i) = q.find? (fun r => r.burnIndex == i) := by
  have key : ∀ {p : List Request}, PendingNodup p → ∀ r,
      p.find? (fun r => r.burnIndex == i) = some r ↔ r ∈ p ∧ r.burnIndex = i := by
    intro p h r
    constructor
    · intro hf
      exact ⟨List.mem_of_find?_eq_some hf, by simpa using List.find?_some hf⟩
    · rintro ⟨hm, hi⟩
      cases hf : p.find? (fun r => r.burnIndex == i) with
      | none =>
        have := List.find?_eq_none.1 hf r hm
        simp [hi] at this
      | some r' =>
        have h1 := List.mem_of_find?_eq_some hf
        have h2 : r'.burnIndex = i := by simpa using List.find?_some hf
        rw [pairwise_unique h h1 hm (h2.trans hi.symm)]
  ext r
  rw [key h, key (h.perm hp), hp.mem_iff]

theorem recordWithdrawalRequest_perm {t t' : Transactions} {q : List Request} {r : Request}
    (hp : t.pending.Perm q) (h : t.recordWithdrawalRequest r = .ok t') :
    (t.setP q).recordWithdrawalRequest r = .ok (t'.setP (q ++ [r])) ∧ t'.pending.Perm (q ++ [r]) := by
  simp only [recordWithdrawalRequest, Res.bind_ok, Res.ensure_ok, Res.pure_ok] at h
  obtain ⟨_, h1, rfl⟩ := h
  refine ⟨?_, hp.append_right _⟩
  simp only [recordWithdrawalRequest, Res.bind_ok, Res.ensure_ok, Res.pure_ok]
  refine ⟨(), ?_, rfl⟩
  have : (q.any fun r' => r'.burnIndex == r.burnIndex) = (t.pending.any fun r' => r'.burnIndex == r.burnIndex) := by
    rw [Bool.eq_iff_iff]
    simp only [List.any_eq_true, hp.mem_iff]
  simp only [setP, this]
  exact h1

theorem recordCreatedTransaction_perm {t t' : Transactions} {q : List Request} {i : LedgerBurnIndex} {tx : Tx}
    (hn : PendingNodup t.pending) (hp : t.pending.Perm q) (h : t.recordCreatedTransaction i tx = .ok t') :
    ∃ q', (t.setP q).recordCreatedTransaction i tx = .ok (t'.setP q') ∧ t'.pending.Perm q' := by
  simp only [recordCreatedTransaction, Res.bind_ok, Res.expect_ok, Res.ensure_ok, removeWithdrawalRequest] at h
  obtain ⟨r, h1, _, h2, _, h3, _, h4, nn, h5, h6⟩ := h
  refine ⟨pendingWithout q r, ?_⟩
  have hf := find_perm hn hp i
  rw [h1] at hf
  simp only [recordCreatedTransaction, removeWithdrawalRequest, setP, ← hf, h5, expect, h4, ensure, if_true]
  simp only [bind, Except.bind]
  cases hc : t.created.tryInsert tx.nonce r.burnIndex ⟨tx, strategyOf r⟩ with
  | error e => rw [hc] at h6; cases h6
  | ok created =>
    rw [hc] at h6
    simp only [Res.bind_ok, Res.ensure_ok, Res.pure_ok] at h6
    obtain ⟨_, h7, _, h8, rfl⟩ := h6
    simp only [h2, h3, h7, h8, if_true]
    exact ⟨rfl, hp.filter _⟩

theorem updOpt_map {α : Type} (o : Option α) (f : State → α → Except InvalidStateError State) (g : State → State)
    (s : State) (h : ∀ a, f (g s) a = (f s a).map g) : State.updOpt o f (g s) = (State.updOpt o f s).map g := by
  cases o with
  | none => rfl
  | some a => exact h a

theorem map_bind' {ε α β γ : Type} (x : Except ε α) (f : α → Except ε β) (g : γ → α) (y : Except ε γ)
    (h : x = y.map g) : (x >>= f) = (y >>= fun a => f (g a)) := by
  subst h; cases y <;> rfl

theorem upgrade_setPB (s : State) (p : List Request) (b : BlockNumber) (a : UpgradeArg) :
    (s.setPB p b).upgrade a = (s.upgrade a).map (·.setPB p (a.lastScrapedBlockNumber.getD b)) := by
  unfold State.upgrade
  rw [map_bind' _ _ _ _ (updOpt_map a.nextTransactionNonce _ (·.setPB p b) s ?_)]
  · rw [map_bind]; congr 1; funext s
    rw [map_bind' _ _ _ _ (updOpt_map _ _ (·.setPB p b) s ?_)]
    · rw [map_bind]; congr 1; funext s
      rw [map_bind' _ _ _ _ (updOpt_map _ _ (·.setPB p b) s ?_)]
      · rw [map_bind]; congr 1; funext s
        rw [map_bind' _ _ _ _ (updOpt_map _ _ (·.setPB p b) s ?_)]
        · rw [map_bind]; congr 1; funext s
          rw [map_bind' _ _ _ _ (updOpt_map _ _ (·.setPB p b) s ?_)]
          · rw [map_bind]; congr 1; funext s
            generalize hb' : a.lastScrapedBlockNumber.getD b = b'
            rw [map_bind' _ _ (·.setPB p b') (State.updOpt a.lastScrapedBlockNumber (fun s n => do
                let n ← orErr (u256OfNat n) InvalidStateError.lastScrapedBlockNumber
                return { s with lastScrapedBlockNumber := n }) s) ?_]
            · rw [map_bind]; congr 1; funext s
              rw [map_bind' _ _ _ _ (updOpt_map _ _ (·.setPB p b') s ?_)]
              · rw [map_bind]; congr 1; funext s
                rw [map_bind' _ _ _ _ (updOpt_map _ _ (·.setPB p b') s ?_)]
                · rw [map_bind]; congr 1; funext s
                  rw [map_bind' _ _ _ _ (updOpt_map _ _ (·.setPB p b') s ?_)]
                  · rw [map_bind]; congr 1; funext s
                    rw [map_bind' _ _ _ _ (updOpt_map _ _ (·.setPB p b') s ?_)]
                    · rw [map_bind]; congr 1; funext s
                      rw [map_bind]
                      rfl
                    · intro x; simp only [map_bind]; rfl
                  · intro x; simp only [map_bind]; rfl
                · intro x; rfl
              · intro x; rfl
            · subst hb'
              cases a.lastScrapedBlockNumber with
              | none => rfl
              | some n =>
                simp only [State.updOpt, Option.getD_some, map_bind]
                unfold u256OfNat
                split <;> rfl
          · intro x; simp only [map_bind]; rfl
        · intro x; simp only [map_bind]; rfl
      · intro x; simp only [map_bind]; rfl
    · intro x; simp only [map_bind]; rfl
  · intro x; simp only [map_bind]; rfl

theorem liftTxs_setP {s : State} {p p' : List Request} {b : BlockNumber} {f : Transactions → Res Transactions}
    {s' : State} (hf : ∀ t', f s.txs = .ok t' → f (s.txs.setP p) = .ok (t'.setP p'))
    (h : liftTxs s (f s.txs) = .ok s') : liftTxs (s.setPB p b) (f (s.setPB p b).txs) = .ok (s'.setPB p' b) := by
  obtain ⟨t, ht, rfl⟩ := liftTxs_ok h
  have := hf t ht
  show liftTxs (s.setPB p b) (f (s.txs.setP p)) = _
  rw [this]
  rfl

theorem map_to {α β : Type} {x : Res α} {y : Res β} {g : α → β} (h : y = x.map g) {a : α} (hx : x = .ok a) :
    y = .ok (g a) := by
  subst hx; exact h

theorem recordWithdrawalRequest_pending {t t' : Transactions} {r : Request} (h : t.recordWithdrawalRequest r = .ok t') :
    t' = { t with pending := t.pending ++ [r] } ∧ ∀ r' ∈ t.pending, r'.burnIndex ≠ r.burnIndex := by
  simp only [recordWithdrawalRequest, Res.bind_ok, Res.ensure_ok, Res.pure_ok, Bool.not_eq_true', Bool.or_eq_false_iff,
    List.any_eq_false] at h
  obtain ⟨_, ⟨⟨⟨h1, _⟩, _⟩, _⟩, rfl⟩ := h
  exact ⟨rfl, fun r' hr' he => h1 r' hr' (by simpa using he)⟩

/-- The effect of an event on the queue. -/
theorem pending_of_txEvent [Keccak] {t t' : Transactions} {e : Event} (h : txEvent t e = .ok t') :
    (t'.pending = t.pending) ∨ (∃ r, e = r.intoEvent ∧ t'.pending = t.pending ++ [r] ∧
      ∀ r' ∈ t.pending, r'.burnIndex ≠ r.burnIndex) ∨ (∃ r, t'.pending = pendingWithout t.pending r) := by
  cases e <;> simp only [txEvent] at h
  case upgrade a => 
    simp only [Except.ok.injEq] at h; subst h; exact .inl (by cases a.nextTransactionNonce <;> rfl)
  case acceptedNativeWithdrawalRequest r => 
    obtain ⟨rfl, hq⟩ := recordWithdrawalRequest_pending h; exact .inr (.inl ⟨_, rfl, rfl, hq⟩)
  case acceptedErc20WithdrawalRequest r => 
    obtain ⟨rfl, hq⟩ := recordWithdrawalRequest_pending h; exact .inr (.inl ⟨_, rfl, rfl, hq⟩)
  case createdTransaction =>
    obtain ⟨r, created, _, _, _, _, _, _, _, _, _, _, rfl⟩ := recordCreatedTransaction_ok h
    exact .inr (.inr ⟨r, rfl⟩)
  case signedTransaction => obtain ⟨_, _, _, _, _, _, _, _, rfl⟩ := recordSignedTransaction_ok h; exact .inl rfl
  case replacedTransaction =>
    obtain ⟨_, _, _, _, _, _, _, _, _, _, rfl⟩ := recordResubmitTransaction_ok h; exact .inl rfl
  case finalizedTransaction i r =>
    have h1 : t.recordFinalizedTransaction i r = .ok (t'.setP t.pending) :=
      map_to (setP_finalized t t.pending i r) h
    rw [h, Except.ok.injEq] at h1
    rw [h1]; exact .inl rfl
  case reimbursedNativeWithdrawal => obtain ⟨_, _, _, rfl⟩ := recordFinalizedReimbursement_ok h; exact .inl rfl
  case reimbursedErc20Withdrawal => obtain ⟨_, _, _, rfl⟩ := recordFinalizedReimbursement_ok h; exact .inl rfl
  case failedErc20WithdrawalRequest => obtain ⟨_, _, _, rfl⟩ := recordReimbursementRequest_ok h; exact .inl rfl
  case quarantinedReimbursement => simp only [Except.ok.injEq] at h; subst h; exact .inl rfl
  all_goals (simp only [Except.ok.injEq] at h; subst h; exact .inl rfl)

theorem pendingNodup_step [Keccak] {t t' : Transactions} {e : Event} (hn : PendingNodup t.pending)
    (h : txEvent t e = .ok t') : PendingNodup t'.pending := by
  rcases pending_of_txEvent h with h | ⟨r, _, h, hr⟩ | ⟨r, h⟩ <;> rw [h]
  · exact hn
  · rw [PendingNodup, List.pairwise_append]
    exact ⟨hn, by simp, fun a ha b hb => by rw [List.mem_singleton.1 hb]; exact hr a ha⟩
  · exact hn.sublist List.filter_sublist

theorem pendingNodup_of_replay [Keccak] {log : List Event} {s : State} (h : replay log = .ok s) :
    PendingNodup s.txs.pending := by
  refine replay_induct (P := fun _ s => PendingNodup s.txs.pending) ?_ ?_ h
  · intro a s h
    obtain ⟨_, _, _, _, _, _, _, h, _⟩ := ofInit_ok h
    rw [h]; exact List.Pairwise.nil
  · intro log s e s' _ hn h
    exact pendingNodup_step hn (applyEvent_txs h)

theorem filter_perm_append {p : List Request} {r : Request} (hn : PendingNodup p) (hr : r ∈ p) :
    p.Perm (p.filter (fun r' => !(r' == r)) ++ [r]) := by
  induction p with
  | nil => cases hr
  | cons x l ih =>
    rw [PendingNodup, List.pairwise_cons] at hn
    rw [List.filter_cons]
    by_cases hx : x = r
    · subst hx
      simp only [BEq.rfl, Bool.not_true, Bool.false_eq_true, if_false]
      have : l.filter (fun r' => !(r' == x)) = l := by
        rw [List.filter_eq_self]
        intro a ha
        have : a ≠ x := fun he => hn.1 a ha (by rw [he])
        simpa using this
      rw [this]
      exact (List.perm_append_comm (l₁ := [x]) (l₂ := l))
    · have hb : (!(x == r)) = true := by simpa using hx
      simp only [hb, if_true]
      exact (ih hn.2 (by rcases List.mem_cons.1 hr with h | h; exact absurd h.symm hx; exact h)).cons x

/-- Rescheduling permutes the queue and changes nothing else. -/
theorem reschedule_ok {t t' : Transactions} {r : Request} (hn : PendingNodup t.pending) (hr : r ∈ t.pending)
    (h : t.reschedule r = .ok t') : t' = t.setP (t.pending.filter (fun r' => !(r' == r)) ++ [r]) ∧
      t.pending.Perm t'.pending := by
  simp only [reschedule, Res.bind_ok] at h
  obtain ⟨_, _, h⟩ := h
  obtain ⟨rfl, _⟩ := recordWithdrawalRequest_pending h
  exact ⟨rfl, filter_perm_append hn hr⟩

theorem setPB_eventToMint (s : State) (q : List Request) (b : BlockNumber) (d : Deposit) :
    (s.setPB q b).recordEventToMint d = (s.recordEventToMint d).map (·.setPB q b) := by
  unfold State.recordEventToMint
  simp only [map_bind]
  cases d with
  | native d => simp only [State.updateBalanceUponDeposit, map_bind]; rfl
  | erc20 d => simp only [State.updateBalanceUponDeposit, map_bind]; rfl

theorem setPB_invalid (s : State) (q : List Request) (b : BlockNumber) (src : EventSource) (m : String) :
    (s.setPB q b).recordInvalidDeposit src m = (s.recordInvalidDeposit src m).map (·.setPB q b) := by
  unfold State.recordInvalidDeposit
  simp only [map_bind]
  show (ensure (!s.eventsToMint.contains src) _ >>= _) = _
  congr 1; funext _
  show (ensure (!s.mintedEvents.contains src) _ >>= _) = _
  congr 1; funext _
  show (if s.invalidEvents.contains src then _ else _) = _
  split <;> rfl

theorem setPB_minted (s : State) (q : List Request) (b : BlockNumber) (src : EventSource) (m : String)
    (k : LedgerMintIndex) (c : Option Address) :
    (s.setPB q b).recordSuccessfulMint src m k c = (s.recordSuccessfulMint src m k c).map (·.setPB q b) := by
  unfold State.recordSuccessfulMint
  simp only [map_bind]
  rfl

theorem setPB_erc20Debit (s : State) (q : List Request) (b : BlockNumber) (st : TxStatus) (tx : Tx) :
    (s.setPB q b).erc20Debit st tx = (s.erc20Debit st tx).map (·.setPB q b) := by
  unfold State.erc20Debit
  split
  · simp only [map_bind]
    congr 1; funext x
    cases x with
    | error e => rfl
    | ok c => simp only [map_bind]; rfl
  · rfl

theorem setPB_withdrawal (s : State) (q : List Request) (b : BlockNumber) (i : LedgerBurnIndex) (r : Receipt) :
    (s.setPB q b).updateBalanceUponWithdrawal i r = (s.updateBalanceUponWithdrawal i r).map (·.setPB q b) := by
  unfold State.updateBalanceUponWithdrawal
  simp only [map_bind]
  congr 1; funext fee
  show (expect (s.txs.finalized.getAlt i) _ >>= _) = _
  congr 1; funext fin
  show (expect (s.txs.processed.get i) _ >>= _) = _
  congr 1; funext req
  congr 1; funext ch
  congr 1; funext un
  congr 1; funext deb
  show (expect (csub s.nativeBalance.balance deb) _ >>= _) = _
  congr 1; funext bal
  show (expect (cadd s.nativeBalance.totalEffectiveTxFees fee) _ >>= _) = _
  congr 1; funext eff
  show (expect (cadd s.nativeBalance.totalUnspentTxFees un) _ >>= _) = _
  congr 1; funext uns
  exact setPB_erc20Debit ({ s with nativeBalance := ⟨bal, eff, uns⟩ }) q b r.status fin.signed.tx

theorem setPB_finalized [Keccak] (s : State) (q : List Request) (b : BlockNumber) (i : LedgerBurnIndex) (r : Receipt) :
    (s.setPB q b).recordFinalizedTransaction i r = (s.recordFinalizedTransaction i r).map (·.setPB q b) := by
  unfold State.recordFinalizedTransaction
  simp only [map_bind]
  show ((s.txs.setP q).recordFinalizedTransaction i r >>= _) = _
  rw [setP_finalized]
  rw [map_bind' _ _ _ _ rfl]
  congr 1; funext t
  exact setPB_withdrawal { s with txs := t } q b i r

theorem setPB_addToken (s : State) (q : List Request) (b : BlockNumber) (t : Erc20Token) :
    (s.setPB q b).recordAddErc20Token t = (s.recordAddErc20Token t).map (·.setPB q b) := by
  unfold State.recordAddErc20Token
  simp only [map_bind]
  show (ensure (s.evmNetwork == t.chainId) _ >>= _) = _
  congr 1; funext _
  show (s.supportedErc20Tokens >>= _) = _
  congr 1; funext toks
  congr 1; funext _
  show (match s.erc20Tokens.tryInsert t.erc20LedgerId t.erc20ContractAddress t.symbol with
    | .error _ => _ | .ok m => _) = _
  cases s.erc20Tokens.tryInsert t.erc20LedgerId t.erc20ContractAddress t.symbol <;> rfl

/-- An event has the same effect whatever the order of the queue and the scraped block number. -/
theorem applyEvent_setPB [Keccak] {s s' : State} {e : Event} (hn : PendingNodup s.txs.pending) {q : List Request}
    (b : BlockNumber) (hp : s.txs.pending.Perm q) (h : applyEvent s e = .ok s') :
    ∃ q' b', applyEvent (s.setPB q b) e = .ok (s'.setPB q' b') ∧ s'.txs.pending.Perm q' := by
  have hx := applyEvent_txs h
  cases e <;> simp only [applyEvent] at h <;> simp only [txEvent] at hx
  case init => cases h
  case upgrade a =>
    split at h
    · rename_i s1 h1
      simp only [Except.ok.injEq] at h; subst h
      refine ⟨q, a.lastScrapedBlockNumber.getD b, ?_, ?_⟩
      · simp only [applyEvent, upgrade_setPB, h1]; rfl
      · obtain ⟨_, _, rfl, _⟩ := upgrade_ok h1
        cases a.nextTransactionNonce <;> exact hp
    · cases h
  case acceptedDeposit d =>
    refine ⟨q, b, map_to (setPB_eventToMint s q b _) h, ?_⟩
    simp only [Except.ok.injEq] at hx; rw [← hx]; exact hp
  case acceptedErc20Deposit d =>
    refine ⟨q, b, map_to (setPB_eventToMint s q b _) h, ?_⟩
    simp only [Except.ok.injEq] at hx; rw [← hx]; exact hp
  case invalidDeposit src m =>
    refine ⟨q, b, map_to (setPB_invalid s q b _ _) h, ?_⟩
    simp only [Except.ok.injEq] at hx; rw [← hx]; exact hp
  case mintedNative src m =>
    refine ⟨q, b, map_to (setPB_minted s q b _ _ _ _) h, ?_⟩
    simp only [Except.ok.injEq] at hx; rw [← hx]; exact hp
  case mintedErc20 src m _ _ =>
    refine ⟨q, b, map_to (setPB_minted s q b _ _ _ _) h, ?_⟩
    simp only [Except.ok.injEq] at hx; rw [← hx]; exact hp
  case syncedToBlock c =>
    simp only [Except.ok.injEq] at h; subst h
    exact ⟨q, c, rfl, hp⟩
  case acceptedNativeWithdrawalRequest r =>
    exact ⟨q ++ [.native r], b, liftTxs_setP (f := fun t => t.recordWithdrawalRequest (.native r))
      (fun t' ht => (recordWithdrawalRequest_perm hp ht).1) h, (recordWithdrawalRequest_perm hp hx).2⟩
  case createdTransaction i tx =>
    obtain ⟨q', h1, h2⟩ := recordCreatedTransaction_perm hn hp hx
    refine ⟨q', b, liftTxs_setP (f := fun t => t.recordCreatedTransaction i tx) (fun t' ht => ?_) h, h2⟩
    rw [ht, Except.ok.injEq] at hx; subst hx; exact h1
  case signedTransaction i tx =>
    refine ⟨q, b, liftTxs_setP (f := fun t => t.recordSignedTransaction tx)
      (fun t' ht => map_to (setP_signed _ _ _) ht) h, ?_⟩
    obtain ⟨_, _, _, _, _, _, _, _, he⟩ := recordSignedTransaction_ok hx; rw [he]; exact hp
  case replacedTransaction i tx =>
    refine ⟨q, b, liftTxs_setP (f := fun t => t.recordResubmitTransaction tx)
      (fun t' ht => map_to (setP_resubmit _ _ _) ht) h, ?_⟩
    obtain ⟨_, _, _, _, _, _, _, _, _, _, he⟩ := recordResubmitTransaction_ok hx; rw [he]; exact hp
  case finalizedTransaction i r =>
    refine ⟨q, b, map_to (setPB_finalized s q b _ _) h, ?_⟩
    have h1 : s.txs.recordFinalizedTransaction i r = .ok (s'.txs.setP s.txs.pending) :=
      map_to (setP_finalized s.txs s.txs.pending i r) hx
    rw [hx, Except.ok.injEq] at h1
    rw [h1]; exact hp
  case reimbursedNativeWithdrawal r =>
    refine ⟨q, b, liftTxs_setP (f := fun t => t.recordFinalizedReimbursement _ _)
      (fun t' ht => map_to (setP_finReimb _ _ _ _) ht) h, ?_⟩
    obtain ⟨_, _, _, he⟩ := recordFinalizedReimbursement_ok hx; rw [he]; exact hp
  case skippedBlock c =>
    obtain ⟨h1, rfl⟩ := recordSkippedBlock_ok h
    refine ⟨q, b, ?_, hp⟩
    simp only [applyEvent, State.recordSkippedBlock, Res.bind_ok, Res.ensure_ok, Res.pure_ok, Bool.not_eq_true',
      FMap.contains_eq_false]
    exact ⟨(), h1, rfl⟩
  case addedErc20Token t =>
    refine ⟨q, b, map_to (setPB_addToken s q b _) h, ?_⟩
    simp only [Except.ok.injEq] at hx; rw [← hx]; exact hp
  case acceptedErc20WithdrawalRequest r =>
    obtain ⟨h1, t, h2, rfl⟩ := recordErc20WithdrawalRequest_ok h
    have := recordWithdrawalRequest_perm hp h2
    refine ⟨q ++ [.erc20 r], b, ?_, this.2⟩
    simp only [applyEvent, State.recordErc20WithdrawalRequest, Res.bind_ok, Res.ensure_ok, Res.pure_ok]
    exact ⟨(), h1, _, this.1, rfl⟩
  case reimbursedErc20Withdrawal n l r =>
    refine ⟨q, b, liftTxs_setP (f := fun t => t.recordFinalizedReimbursement _ _)
      (fun t' ht => map_to (setP_finReimb _ _ _ _) ht) h, ?_⟩
    obtain ⟨_, _, _, he⟩ := recordFinalizedReimbursement_ok hx; rw [he]; exact hp
  case failedErc20WithdrawalRequest r =>
    refine ⟨q, b, liftTxs_setP (f := fun t => t.recordReimbursementRequest _ _)
      (fun t' ht => map_to (setP_reimbReq _ _ _ _) ht) h, ?_⟩
    obtain ⟨_, _, _, he⟩ := recordReimbursementRequest_ok hx; rw [he]; exact hp
  case quarantinedDeposit src =>
    simp only [Except.ok.injEq] at h; subst h
    refine ⟨q, b, ?_, ?_⟩
    · simp only [applyEvent, recordQuarantinedDeposit_frame]; rfl
    · simp only [recordQuarantinedDeposit_frame]; exact hp
  case quarantinedReimbursement x =>
    simp only [Except.ok.injEq] at h; subst h
    exact ⟨q, b, rfl, hp⟩

/-- The live state is the replayed one, up to the order of the queue and the scraped block number. -/
theorem run_replay [Keccak] {log : List Event} {s : State} (h : Run log s) :
    ∃ s₀, replay log = .ok s₀ ∧ PendingNodup s₀.txs.pending ∧ s₀.txs.pending.Perm s.txs.pending ∧
      s = s₀.setPB s.txs.pending s.lastScrapedBlockNumber := by
  induction h with
  | init a s h => exact ⟨s, by simp [replay, h, applyEvents], pendingNodup_of_replay (log := [.init a])
      (by simp [replay, h, applyEvents]), .refl _, rfl⟩
  | event log s e s' hr he ha ih =>
    obtain ⟨s₀, h1, h2, h3, h4⟩ := ih
    have hs : s₀ = s.setPB s₀.txs.pending s₀.lastScrapedBlockNumber := by rw [h4]; rfl
    obtain ⟨q', b', h5, h6⟩ := applyEvent_setPB (h2.perm h3) s₀.lastScrapedBlockNumber h3.symm ha
    rw [← hs] at h5
    have h7 : replay (log ++ [e]) = .ok (s'.setPB q' b') := by
      rw [replay_snoc (replay_ne_nil h1), h1]; exact h5
    exact ⟨_, h7, pendingNodup_of_replay h7, h6.symm, rfl⟩
  | reschedule log s r t hr hm ht ih =>
    obtain ⟨s₀, h1, h2, h3, h4⟩ := ih
    obtain ⟨h5, h6⟩ := reschedule_ok (h2.perm h3) hm ht
    refine ⟨s₀, h1, h2, h3.trans h6, ?_⟩
    show ({ s with txs := t } : State) = _
    rw [h5, h4]; rfl
  | scraped log s b hr ih =>
    obtain ⟨s₀, h1, h2, h3, h4⟩ := ih
    refine ⟨s₀, h1, h2, h3, ?_⟩
    show ({ s with lastScrapedBlockNumber := b } : State) = _
    rw [h4]; rfl
  | restart log s s' hr hs ih => exact ⟨s', hs, pendingNodup_of_replay hs, .refl _, rfl⟩

end EvmMinter
