import Verif.Lemmas.Status
import Verif.Props.C06
import Verif.Props.C15
/-!
# C33: status queries are total and truthful
-/

namespace EvmMinter

open Spec Transactions

section
variable [Keccak]

/-- The status does not change if the event leaves alone everything about `i`. -/
theorem Stat.frame {t t' : Transactions} {i : LedgerBurnIndex} {st : Status} (h : Stat t i st)
    (hp : ∀ r, r.burnIndex = i → (r ∈ t'.pending ↔ r ∈ t.pending)) (hpr : t'.processed.get i = t.processed.get i)
    (hc : ∀ n c, t'.created.Has n i c ↔ t.created.Has n i c)
    (hs : ∀ n l, t'.sent.Has n i l ↔ t.sent.Has n i l)
    (hf : ∀ n f, t'.finalized.Has n i f ↔ t.finalized.Has n i f)
    (hr : ∀ r, t.processed.get i = some r → t'.reimbursed.get (.ofRequest r) = t.reimbursed.get (.ofRequest r)) :
    Stat t' i st := by
  cases h with
  | notFound h1 h2 =>
    exact .notFound (fun r h e => h1 r ((hp r e).1 h) e) (by rw [hpr, h2])
  | pending r h1 h2 => exact .pending r ((hp r h2).2 h1) h2
  | created n c h1 => exact .created n c ((hc n c).2 h1)
  | sent n l x h1 h2 h3 => exact .sent n l x (fun m c h => h1 m c ((hc m c).1 h)) ((hs n l).2 h2) h3
  | success n f h1 h2 => exact .success n f ((hf n f).2 h1) h2
  | owed n f r h1 h2 h3 h4 => exact .owed n f r ((hf n f).2 h1) h2 (by rw [hpr, h3]) (by rw [hr r h3]; exact h4)
  | paid n f r b h1 h2 h3 h4 => exact .paid n f r b ((hf n f).2 h1) h2 (by rw [hpr, h3]) (by rw [hr r h3]; exact h4)

/-- The stage of `i` is determined. -/
theorem Stat.unique {t : Transactions} (inv : t.TxInv) {i : LedgerBurnIndex} {n : TransactionNonce} {f : FinalizedTx}
    (hf : t.finalized.Has n i f) {st : Status} (h : Stat t i st) : 
    (f.receipt.status = .success ∧ st = .success f.receipt.transactionHash 
        (f.receipt.effectiveGasPrice * f.receipt.gasUsed)) ∨
    (f.receipt.status = .failure ∧ ∃ r, t.processed.get i = some r ∧
      ((st = .pendingReimbursement f.receipt.transactionHash ∧
          ∀ b, t.reimbursed.get (.ofRequest r) ≠ some (.ok b)) ∨
        (∃ b, t.reimbursed.get (.ofRequest r) = some (.ok b)))) := by
  obtain ⟨r, hr, _⟩ := inv.fProc _ _ _ hf
  cases h with
  | notFound h1 h2 => rw [h2] at hr; cases hr
  | pending r' h1 h2 => have := inv.pendProc r' h1; rw [h2, hr] at this; cases this
  | created m c h1 => exact absurd rfl (inv.cf _ _ _ _ _ _ h1 hf).2
  | sent m l x h1 h2 h3 => exact absurd rfl (inv.sf _ _ _ _ _ _ h2 hf).2
  | success m f' h1 h2 => obtain ⟨_, rfl⟩ := MKM.Has.unique_alt inv.fw h1 hf; exact .inl ⟨h2, rfl⟩
  | owed m f' r' h1 h2 h3 h4 =>
    obtain ⟨_, rfl⟩ := MKM.Has.unique_alt inv.fw h1 hf; exact .inr ⟨h2, r', h3, .inl ⟨rfl, h4⟩⟩
  | paid m f' r' b h1 h2 h3 h4 =>
    obtain ⟨_, rfl⟩ := MKM.Has.unique_alt inv.fw h1 hf; exact .inr ⟨h2, r', h3, .inr ⟨b, h4⟩⟩

/-- Completing a reimbursement. -/
theorem Stat.pay {log : List Event} {s : State} (hr : Run log s) (hn : NonceNeverLowered log)
    {x : ReimbIndex} {rr : ReimbRequest} {b : LedgerMintIndex} {t' : Transactions}
    (hrr : s.txs.reimbursementRequests.get x = some rr) (hx : s.txs.reimbursed.get x = none)
    (ht' : t' = { s.txs with
      reimbursementRequests := s.txs.reimbursementRequests.erase x
      reimbursed := s.txs.reimbursed.insert x (.ok ⟨b, x.burnInBlock, rr.reimbursedAmount, rr.transactionHash⟩) })
    {i : LedgerBurnIndex} {st : Status} (h : Stat s.txs i st) :
    Stat t' i (if x.withdrawalId = i then st.pay rr.reimbursedAmount b else st) := by
  obtain ⟨inv, hl, _⟩ := run_txInv hr hn
  subst ht'
  by_cases hi : x.withdrawalId = i
  · rw [if_pos hi]
    have hox := hl.owed x rr hrr
    have key : ∀ r, s.txs.processed.get i = some r → x = .ofRequest r := by
      intro r h; exact (owed_index hr hn hox (by rw [hi]; exact h)).1
    cases h with
    | notFound h1 h2 => exact .notFound h1 h2
    | pending r h1 h2 => exact .pending r h1 h2
    | created n c h1 => exact .created n c h1
    | sent n l y h1 h2 h3 => exact .sent n l y h1 h2 h3
    | success n f h1 h2 => exact .success n f h1 h2
    | owed n f r h1 h2 h3 h4 =>
      have e := key r h3
      exact .paid n f r ⟨b, x.burnInBlock, rr.reimbursedAmount, rr.transactionHash⟩ h1 h2 h3
        (by show (s.txs.reimbursed.insert x _).get _ = _
            rw [e]; simp)
    | paid n f r b h1 h2 h3 h4 =>
      rw [key r h3, h4] at hx; cases hx
  · rw [if_neg hi]
    refine h.frame (fun _ _ => .rfl) rfl (fun _ _ => .rfl) (fun _ _ => .rfl) (fun _ _ => .rfl) ?_
    intro r h
    have hb := inv.procIdx _ _ h
    show (s.txs.reimbursed.insert x _).get _ = _
    rw [FMap.get_insert, if_neg]
    rintro rfl
    apply hi
    rw [← hb]; cases r <;> rfl

theorem Stat.step {log : List Event} {s s' : State} {e : Event} (hr : Run log s) (hn : NonceNeverLowered log)
    (he : Emits s e) (ha : applyEvent s e = .ok s') {i : LedgerBurnIndex} {st : Status} (h : Stat s.txs i st) :
    Stat s'.txs i (statusStep i st e) := by
  obtain ⟨inv, hl, _⟩ := run_txInv hr hn
  have ht := applyEvent_txs ha
  have accept : ∀ r : Request, s.txs.recordWithdrawalRequest r = .ok s'.txs →
      Stat s'.txs i (if r.burnIndex = i then .pending else st) := by
    intro r ht
    obtain ⟨e, h1, h2, h3, h4⟩ := recordWithdrawalRequest_ok inv.maps ht
    rw [e]
    by_cases hb : r.burnIndex = i
    · rw [if_pos hb]; exact .pending r (by simp) hb
    · rw [if_neg hb]
      refine h.frame ?_ rfl (fun _ _ => .rfl) (fun _ _ => .rfl) (fun _ _ => .rfl) (fun _ _ => rfl)
      intro r' hr'
      simp only [List.mem_append, List.mem_singleton, or_iff_left_iff_imp]
      rintro rfl; exact absurd hr' hb
  cases e <;> simp only [txEvent] at ht <;> simp only [statusStep]
  case init => exact absurd he id
  case upgrade a =>
    simp only [Except.ok.injEq] at ht; rw [← ht]
    obtain ⟨f1, f2, f3, f4, f5, f6, f7, f8⟩ := withNonce_frame s.txs a.nextTransactionNonce
    exact h.frame (by rw [f1]; exact fun _ _ => .rfl) (by rw [f2]) (by rw [f3]; exact fun _ _ => .rfl)
      (by rw [f4]; exact fun _ _ => .rfl) (by rw [f5]; exact fun _ _ => .rfl) (by rw [f8]; exact fun _ _ => rfl)
  case acceptedNativeWithdrawalRequest r => exact accept (.native r) ht
  case acceptedErc20WithdrawalRequest r => exact accept (.erc20 r) ht
  case createdTransaction j tx =>
    obtain ⟨r, created, e1, _, e2, e3, e4, e5, e6, e7, e8, e9, e10⟩ := recordCreatedTransaction_ok ht
    have hch := fun k a v => MKM.tryInsert_has inv.cw e9 (k' := k) (a' := a) (v' := v)
    rw [e10]
    by_cases hj : j = i
    · rw [if_pos hj]; subst hj
      exact .created tx.nonce _ ((hch _ _ _).2 (.inl ⟨rfl, rfl, rfl⟩))
    · rw [if_neg hj]
      have hj' : i ≠ j := Ne.symm hj
      refine h.frame ?_ (by simp [hj']) ?_ (fun _ _ => .rfl) (fun _ _ => .rfl) (fun _ _ => rfl)
      · intro r' hr'
        rw [mem_pendingWithout, and_iff_left_iff_imp]
        rintro _ rfl; exact hj (e2.symm.trans hr')
      · intro n c; rw [hch]; simp [hj']
  case signedTransaction j stx =>
    obtain ⟨k, c, created, sent, h1, h2, ⟨o, h3⟩, h4, h5⟩ := recordSignedTransaction_ok ht
    obtain ⟨c', he1, _⟩ := he
    rw [MKM.getEntry_eq] at he1
    obtain ⟨rfl, rfl⟩ := MKM.Has.unique_key he1 h1
    obtain ⟨old, hold, hsent⟩ := signed_sent inv h1 h4
    have hc := fun a b f => MKM.removeEntry_has inv.cw h3 (k' := a) (a' := b) (v' := f)
    rw [h5]
    by_cases hj : j = i
    · rw [if_pos hj]; subst hj
      refine .sent stx.tx.nonce (old ++ [⟨stx, c'.resubmission⟩]) ⟨stx, c'.resubmission⟩ ?_ ?_ (by simp)
      · intro m c hc'
        obtain ⟨a, b⟩ := (hc _ _ _).1 hc'
        exact a (MKM.Has.unique_alt inv.cw b h1).1
      · exact (hsent _ _ _).2 (.inl ⟨rfl, rfl, rfl⟩)
    · rw [if_neg hj]
      have hj' : i ≠ j := Ne.symm hj
      refine h.frame (fun _ _ => .rfl) rfl ?_ ?_ (fun _ _ => .rfl) (fun _ _ => rfl)
      · intro n c
        rw [hc, and_iff_right_iff_imp]
        rintro hh rfl
        exact hj' (MKM.Has.unique_key hh h1).1
      · intro n l
        rw [hsent]
        constructor
        · rintro (⟨_, a, _⟩ | ⟨_, a⟩)
          · exact absurd a hj'
          · exact a
        · intro hh
          refine .inr ⟨?_, hh⟩
          rintro rfl
          exact hj' ((inv.cs _ _ _ _ _ _ h1 hh).1 rfl).symm
  case replacedTransaction j tx =>
    obtain ⟨k, l, last, c1, created, h1, h2, h3, ⟨o, h4⟩, h5, h6⟩ := recordResubmitTransaction_ok ht
    obtain ⟨l', last', g, _, he1, _, _⟩ := he
    rw [MKM.getEntry_eq] at he1
    obtain ⟨rfl, rfl⟩ := MKM.Has.unique_key he1 h1
    have w1 := MKM.removeEntry_wf inv.cw h4
    have hc1 := fun a b f => MKM.removeEntry_has inv.cw h4 (k' := a) (a' := b) (v' := f)
    have hc2 := fun a b f => MKM.tryInsert_has w1 h5 (k' := a) (a' := b) (v' := f)
    rw [h6]
    by_cases hj : j = i
    · rw [if_pos hj]; subst hj
      exact .created tx.nonce _ ((hc2 _ _ _).2 (.inl ⟨rfl, rfl, rfl⟩))
    · rw [if_neg hj]
      have hj' : i ≠ j := Ne.symm hj
      refine h.frame (fun _ _ => .rfl) rfl ?_ (fun _ _ => .rfl) (fun _ _ => .rfl) (fun _ _ => rfl)
      intro n c
      rw [hc2, hc1]
      constructor
      · rintro (⟨_, a, _⟩ | ⟨_, a⟩)
        · exact absurd a hj'
        · exact a
      · intro hh
        refine .inr ⟨?_, hh⟩
        rintro rfl
        exact hj' ((inv.cs _ _ _ _ _ _ hh h1).1 rfl)
  case finalizedTransaction j rc =>
    have hs := finStep inv (e := .finalizedTransaction j rc) (by simp) (by simpa only [txEvent] using ht)
    have hpend : s'.txs.pending = s.txs.pending := by
      obtain ⟨_, _, _, _, _, _, _, _, _, _, _, _, _, _, _, _, _, hh⟩ := recordFinalizedTransaction_ok inv.maps ht
      rcases hh with ⟨_, hh⟩ | ⟨_, _, _, _, hh⟩ <;> rw [hh]
    cases hs with
    | finalize _ _ _ m l y r a1 a2 a3 a4 a5 a6 a7 a8 a9 a10 a11 a12 =>
      by_cases hj : j = i
      · rw [if_pos hj]; subst hj
        have hfin := (a6 m j ⟨y.transaction, rc⟩).2 (.inl ⟨rfl, rfl, rfl⟩)
        rcases a12 with ⟨hst, _⟩ | ⟨hst, hno, _⟩
        · rw [hst]; exact .success m _ hfin hst
        · rw [hst]
          refine .owed m _ r hfin hst (by rw [a9]; exact a10) ?_
          intro b; rw [a11, hno]; simp
      · rw [if_neg hj]
        have hj' : i ≠ j := Ne.symm hj
        refine h.frame (by rw [hpend]; exact fun _ _ => .rfl) (by rw [a9]) ?_ ?_ ?_ (by rw [a11]; exact fun _ _ => rfl)
        · intro n c; rw [a8]; simp [hj']
        · intro n c; rw [a7]; simp [hj']
        · intro n c; rw [a6]; simp [hj']
    | other _ _ hk => exact absurd hk id
    | paid _ _ _ _ _ hk => rcases hk with ⟨_, hk, _⟩ | ⟨_, _, _, hk, _⟩ <;> cases hk
  case reimbursedNativeWithdrawal q =>
    obtain ⟨rr, h1, h2, h3⟩ := recordFinalizedReimbursement_ok ht
    obtain ⟨j, rr', he1, he2⟩ := he
    have hjj : rr'.ledgerBurnIndex = j := by
      rcases hl.owed _ _ he1 with ⟨n, k, f, r, _, _, hp, hx, hrr⟩ | ⟨_, hx⟩
      · cases r with
        | native q' => 
          have := inv.procIdx _ _ hp
          simp only [ReimbIndex.ofRequest, ReimbIndex.native.injEq] at hx
          rw [hrr, hx]; exact this.symm
        | erc20 q' => simp [ReimbIndex.ofRequest] at hx
      · simp only [ReimbIndex.native.injEq] at hx; exact hx.symm
    have hq : q.burnInBlock = j := by rw [he2]; exact hjj
    have ham : q.reimbursedAmount = rr'.reimbursedAmount := by rw [he2]
    rw [hq] at h1 h2 h3
    rw [he1] at h1; cases h1
    rw [hq, ham]
    exact h.pay hr hn he1 h2 h3
  case reimbursedErc20Withdrawal n l q =>
    obtain ⟨rr, h1, h2, h3⟩ := recordFinalizedReimbursement_ok ht
    obtain ⟨j, rr', he1, he2⟩ := he
    have hjj : rr'.ledgerBurnIndex = j := by
      rcases hl.owed _ _ he1 with ⟨n, k, f, r, _, _, hp, hx, hrr⟩ | ⟨_, hx⟩
      · cases r with
        | native q' => simp [ReimbIndex.ofRequest] at hx
        | erc20 q' =>
          simp only [ReimbIndex.ofRequest, ReimbIndex.erc20.injEq] at hx
          rw [hrr, hx.2.2]; rfl
      · cases hx
    have hq : q.burnInBlock = j := by rw [he2]; exact hjj
    have ham : q.reimbursedAmount = rr'.reimbursedAmount := by rw [he2]
    rw [hq] at h1 h2 h3
    rw [he1] at h1; cases h1
    rw [ham]
    exact h.pay hr hn he1 h2 h3
  case failedErc20WithdrawalRequest r =>
    obtain ⟨_, h1, h2, h3⟩ := recordReimbursementRequest_ok ht
    rw [h3]
    exact h.frame (fun _ _ => .rfl) rfl (fun _ _ => .rfl) (fun _ _ => .rfl) (fun _ _ => .rfl) (fun _ _ => rfl)
  case quarantinedReimbursement x =>
    simp only [Except.ok.injEq] at ht; rw [← ht]
    obtain ⟨rr, hrr⟩ := he
    have hno := inv.reimb x (by simp [hrr])
    cases h with
    | notFound h1 h2 => exact .notFound h1 h2
    | pending r h1 h2 => exact .pending r h1 h2
    | created n c h1 => exact .created n c h1
    | sent n l y h1 h2 h3 => exact .sent n l y h1 h2 h3
    | success n f h1 h2 => exact .success n f h1 h2
    | owed n f r h1 h2 h3 h4 =>
      refine .owed n f r h1 h2 h3 ?_
      intro b
      show (s.txs.reimbursed.insert x _).get _ ≠ _
      rw [FMap.get_insert]
      split
      · simp
      · exact h4 b
    | paid n f r b h1 h2 h3 h4 =>
      refine .paid n f r b h1 h2 h3 ?_
      show (s.txs.reimbursed.insert x _).get _ = _
      rw [FMap.get_insert, if_neg]
      · exact h4
      · rintro rfl; rw [hno] at h4; cases h4
  all_goals
    (simp only [Except.ok.injEq] at ht; rw [← ht]; exact h)

theorem run_stat {log : List Event} {s : State} (h : Run log s) (hn : NonceNeverLowered log) (i : LedgerBurnIndex) :
    Stat s.txs i (statusOf log i) := by
  refine run_event_induct (P := fun log t => NonceNeverLowered log → Stat t i (statusOf log i)) ?_ ?_ ?_ h hn hn
  · intro log t p inv _ hp hP hn
    exact (hP hn).frame (fun r _ => hp.mem_iff.symm) rfl (fun _ _ => .rfl) (fun _ _ => .rfl) (fun _ _ => .rfl)
      (fun _ _ => rfl)
  · intro a n _
    exact .notFound (by simp [Transactions.new]) rfl
  · intro log s e s' hr _ _ _ _ he ha hP hn
    have hn' := nonceNeverLowered_prefix hn
    have := (hP hn').step hr hn' he ha
    simpa [statusOf, List.foldl_append] using this

/-- **C33.** The status query `retrieve_withdrawal_status` answers, for every burn index and at any time, with the
status that the audit log tells. -/
theorem C33_status {log : List Event} {s : State} (h : Run log s) (hn : NonceNeverLowered log) (i : LedgerBurnIndex) :
    s.txs.transactionStatus i = .ok (statusOf log i) :=
  status_of_stat h hn (run_stat h hn i)

/-- The detail `d` tells the truth about the accepted request `r`. -/
structure Spec.Describes (log : List Event) (s : State) (r : Request) (d : WithdrawalDetail) : Prop where
  id : d.withdrawalId = r.burnIndex
  recipient : d.recipient = (match r with | .native q => q.destination | .erc20 q => q.destination)
  amount : d.withdrawalAmount = (match r with | .native q => q.withdrawalAmount | .erc20 q => q.withdrawalAmount)
  owner : d.from = (match r with | .native q => q.from | .erc20 q => q.from)
  subaccount : d.fromSubaccount = (match r with | .native q => q.fromSubaccount | .erc20 q => q.fromSubaccount)
  status : d.status = statusOf log r.burnIndex
  symbol : match r with
    | .native _ => d.tokenSymbol = s.nativeSymbol
    | .erc20 q => ∃ t ∈ tokensOf log, t.erc20ContractAddress = q.erc20ContractAddress ∧ d.tokenSymbol = t.symbol
  fee : match r with
    | .native q => (d.status = .pending → d.maxTransactionFee = none) ∧
        (d.status ≠ .pending → q.withdrawalAmount < 2 ^ 256 - 1 → ∃ e ∈ log, ∃ tx,
          recordedFor e = some (q.ledgerBurnIndex, tx) ∧
          d.maxTransactionFee = some (tx.gasLimit * tx.maxFeePerGas))
    | .erc20 q => d.maxTransactionFee = some q.maxTransactionFee

/-- The request matches the search parameter. -/
def Spec.Matches (r : Request) : SearchParameter → Prop
  | .byWithdrawalId i => r.burnIndex = i
  | .byRecipient a => (match r with | .native q => q.destination | .erc20 q => q.destination) = a
  | .bySenderAccount o sub => (match r with | .native q => q.from | .erc20 q => q.from) = o ∧
      (match r with | .native q => q.fromSubaccount | .erc20 q => q.fromSubaccount) = sub

omit [Keccak] in
theorem matches_iff {r : Request} {p : SearchParameter} : r.matchParameter p = true ↔ Matches r p := by
  cases p <;> cases r <;> simp [Request.matchParameter, Matches, Request.payee, Request.from, Request.fromSubaccount]

/-- The transactions in the pipeline were recorded in the log for the same withdrawal. -/
theorem run_logged {log : List Event} {s : State} (h : Run log s) (hn : NonceNeverLowered log) :
    (∀ n i c, s.txs.created.Has n i c → ∃ e ∈ log, recordedFor e = some (i, c.transaction)) ∧
    (∀ n i l x, s.txs.sent.Has n i l → x ∈ l → ∃ e ∈ log, recordedFor e = some (i, x.transaction.tx)) ∧
    (∀ n i f, s.txs.finalized.Has n i f → ∃ e ∈ log, recordedFor e = some (i, f.signed.tx)) := by
  refine run_event_induct (P := fun log t =>
    (∀ n i c, t.created.Has n i c → ∃ e ∈ log, recordedFor e = some (i, c.transaction)) ∧
    (∀ n i l x, t.sent.Has n i l → x ∈ l → ∃ e ∈ log, recordedFor e = some (i, x.transaction.tx)) ∧
    (∀ n i f, t.finalized.Has n i f → ∃ e ∈ log, recordedFor e = some (i, f.signed.tx))) ?_ ?_ ?_ h hn
  · intro log t p _ _ _ hP; exact hP
  · intro a n
    exact ⟨fun _ _ _ h => absurd h MKM.not_has_empty, fun _ _ _ _ h => absurd h MKM.not_has_empty,
      fun _ _ _ h => absurd h MKM.not_has_empty⟩
  · intro log s e s' hr inv hl _ _ he ha ⟨p1, p2, p3⟩
    obtain ⟨h1, h2, h3, _⟩ := txs_step inv (applyEvent_txs ha)
    have up : ∀ {i tx}, (∃ e ∈ log, recordedFor e = some (i, tx)) → ∃ e' ∈ log ++ [e], recordedFor e' = some (i, tx) := by
      rintro i tx ⟨e', h, h'⟩; exact ⟨e', List.mem_append_left _ h, h'⟩
    refine ⟨?_, ?_, ?_⟩
    · intro n i c hc
      rcases h1 n i c hc with hc | ⟨r, rfl, _⟩ | ⟨j, l, last, rfl, hn', hl', _⟩
      · exact up (p1 n i c hc)
      · exact ⟨_, List.mem_append_right _ (List.mem_singleton.2 rfl), rfl⟩
      · refine ⟨_, List.mem_append_right _ (List.mem_singleton.2 rfl), ?_⟩
        obtain ⟨l', last', g, _, hge, _⟩ := he
        rw [MKM.getEntry_eq, hn'] at hge
        obtain ⟨rfl, _⟩ := MKM.Has.unique_key hge hl'
        rfl
    · intro n i l x hlx hx
      rcases h2 n i l x hlx hx with ⟨l', hl', hx'⟩ | ⟨c, hc, hcx⟩
      · exact up (p2 n i l' x hl' hx')
      · exact hcx ▸ up (p1 n i c hc)
    · intro n i f hf
      rcases h3 n i f hf with hf | ⟨l, x, hlx, hx, hfx⟩
      · exact up (p3 n i f hf)
      · exact hfx ▸ up (p2 n i l x hlx hx)

/-- What `withdrawal_status` computes for a processed request. -/
theorem processed_detail {log : List Event} {s : State} (h : Run log s) (hn : NonceNeverLowered log)
    {i : LedgerBurnIndex} {r : Request} (hr : s.txs.processed.get i = some r) :
    ∃ tx, s.txs.processedDetail r = .ok (r, statusOf log i, some tx) ∧ statusOf log i ≠ .pending ∧
      Sound s.evmNetwork r tx ∧ ∃ e ∈ log, recordedFor e = some (i, tx) := by
  obtain ⟨inv, hl, _⟩ := run_txInv h hn
  have snd := run_sound h hn
  have lgd := run_logged h hn
  have hb := inv.procIdx _ _ hr
  have hst := C33_status h hn i
  have hp : (s.txs.pending.any fun r => r.burnIndex == i) = false := by
    simp only [List.any_eq_false, beq_iff_eq]
    intro r' hr' hb
    have := inv.pendProc r' hr'
    rw [hb, hr] at this; cases this
  simp only [transactionStatus, hp, Bool.false_eq_true, if_false, Res.bind_ok, Res.pure_ok] at hst
  obtain ⟨⟨st, o⟩, h1, h2⟩ := hst
  simp only at h2
  rw [← h2]
  suffices ∃ tx, o = some tx ∧ st ≠ .pending ∧ st ≠ .notFound ∧ Sound s.evmNetwork r tx ∧
      ∃ e ∈ log, recordedFor e = some (i, tx) by
    obtain ⟨tx, rfl, n1, n2, n3, n4⟩ := this
    refine ⟨tx, ?_, n1, n3, n4⟩
    unfold processedDetail
    rw [hb, h1]
    cases st <;> first | rfl | exact absurd rfl n1 | exact absurd rfl n2
  unfold processedStatus at h1
  cases hc : s.txs.created.getAlt i with
  | some c =>
    rw [hc] at h1; simp only [Except.ok.injEq, Prod.mk.injEq] at h1
    obtain ⟨rfl, rfl⟩ := h1
    obtain ⟨n, hh⟩ := (MKM.getAlt_eq inv.cw).1 hc
    obtain ⟨r', hr', hso⟩ := snd.c _ _ _ hh
    rw [hr] at hr'; cases hr'
    exact ⟨_, rfl, by simp, by simp, hso, lgd.1 _ _ _ hh⟩
  | none =>
    rw [hc] at h1; simp only at h1
    cases hse : s.txs.sent.getAlt i with
    | some l =>
      obtain ⟨n, hh⟩ := (MKM.getAlt_eq inv.sw).1 hse
      have hne := (inv.sN _ _ _ hh).2.1
      rw [hse] at h1
      simp only [Option.bind_some, List.getLast?_eq_some_getLast hne, Except.ok.injEq, Prod.mk.injEq] at h1
      obtain ⟨rfl, rfl⟩ := h1
      obtain ⟨r', hr', hso⟩ := snd.s _ _ _ _ hh (List.getLast_mem hne)
      rw [hr] at hr'; cases hr'
      exact ⟨_, rfl, by simp, by simp, hso, lgd.2.1 _ _ _ _ hh (List.getLast_mem hne)⟩
    | none =>
      rw [hse] at h1; simp only [Option.bind_none] at h1
      cases hfi : s.txs.finalized.getAlt i with
      | none =>
        exfalso
        rcases inv.procIn i r hr with ⟨n, c, hh⟩ | ⟨n, c, hh⟩ | ⟨n, c, hh⟩
        · rw [(MKM.getAlt_eq inv.cw).2 ⟨n, hh⟩] at hc; cases hc
        · rw [(MKM.getAlt_eq inv.sw).2 ⟨n, hh⟩] at hse; cases hse
        · rw [(MKM.getAlt_eq inv.fw).2 ⟨n, hh⟩] at hfi; cases hfi
      | some f =>
        rw [hfi] at h1; simp only at h1
        obtain ⟨n, hh⟩ := (MKM.getAlt_eq inv.fw).1 hfi
        obtain ⟨r', hr', hso⟩ := snd.f _ _ _ hh
        rw [hr] at hr'; cases hr'
        suffices o = some f.signed.tx ∧ st ≠ .pending ∧ st ≠ .notFound from
          ⟨_, this.1, this.2.1, this.2.2, hso, lgd.2.2 _ _ _ hh⟩
        split at h1
        · simp only [Except.ok.injEq, Prod.mk.injEq] at h1
          obtain ⟨rfl, rfl⟩ := h1; simp
        · split at h1
          · simp only [Except.ok.injEq, Prod.mk.injEq] at h1
            obtain ⟨rfl, rfl⟩ := h1; simp
          · simp only [Res.bind_ok, Res.pure_ok, Prod.mk.injEq] at h1
            obtain ⟨_, _, rfl, rfl⟩ := h1; simp

omit [Keccak] in
theorem mapM_ok {α β : Type} {f : α → Res β} {l : List α} (h : ∀ x ∈ l, ∃ y, f x = .ok y) :
    ∃ l', l.mapM f = .ok l' ∧ (∀ y ∈ l', ∃ x ∈ l, f x = .ok y) ∧ (∀ x ∈ l, ∃ y ∈ l', f x = .ok y) ∧
      ∀ {γ : Type} (g : β → γ) (g' : α → γ), (∀ x y, f x = .ok y → g y = g' x) → l'.map g = l.map g' := by
  induction l with
  | nil => exact ⟨[], rfl, by simp, by simp, by simp⟩
  | cons a t ih =>
    obtain ⟨y, hy⟩ := h a (by simp)
    obtain ⟨l', h1, h2, h3, h4⟩ := ih (fun x hx => h x (by simp [hx]))
    refine ⟨y :: l', by rw [List.mapM_cons, hy, h1]; rfl, ?_, ?_, ?_⟩
    · intro z hz
      rcases List.mem_cons.1 hz with rfl | hz
      · exact ⟨a, by simp, hy⟩
      · obtain ⟨x, hx, e⟩ := h2 z hz; exact ⟨x, by simp [hx], e⟩
    · intro x hx
      rcases List.mem_cons.1 hx with rfl | hx
      · exact ⟨y, by simp, hy⟩
      · obtain ⟨z, hz, e⟩ := h3 x hx; exact ⟨z, by simp [hz], e⟩
    · intro γ g g' hg
      simp only [List.map_cons, h4 g g' hg, hg a y hy]

/-- **C33.** The query `withdrawal_status` never panics. It lists exactly the accepted withdrawals that match the
search parameter, each once, with its actual data and status. -/
theorem C33_withdrawal_details {log : List Event} {s : State} (h : Run log s) (hn : NonceNeverLowered log)
    (p : SearchParameter) :
    ∃ l, s.withdrawalStatus p = .ok l ∧ (l.map (·.withdrawalId)).Nodup ∧
      (∀ d ∈ l, ∃ r : Request, r.intoEvent ∈ log ∧ Matches r p ∧ Describes log s r d) ∧
      (∀ r : Request, r.intoEvent ∈ log → Matches r p → ∃ d ∈ l, Describes log s r d) := by
  obtain ⟨inv, hl, _⟩ := run_txInv h hn
  have reg := registry_of_run h
  -- the details of one request
  have detail : ∀ r : Request, r.intoEvent ∈ log → ∀ st o, st = statusOf log r.burnIndex →
      (st = .pending → o = none) →
      (st ≠ .pending → ∃ tx, o = some tx ∧ Sound s.evmNetwork r tx ∧ ∃ e ∈ log, recordedFor e = some (r.burnIndex, tx)) →
      ∃ d, s.withdrawalDetail (r, st, o) = .ok d ∧ Describes log s r d := by
    intro r hr st o hst ho1 ho2
    cases r with
    | native q =>
      refine ⟨_, rfl, rfl, rfl, rfl, rfl, rfl, hst, rfl, ?_, ?_⟩
      · intro hp
        rw [ho1 hp]
      · intro hp hlt
        obtain ⟨tx, rfl, hso, e, he, hrec⟩ := ho2 hp
        refine ⟨e, he, tx, hrec, ?_⟩
        have : tx.amount + tx.gasLimit * tx.maxFeePerGas = q.withdrawalAmount := hso.pay.amount hlt
        show csub q.withdrawalAmount tx.amount = _
        rw [← this]
        simp [csub]
    | erc20 q =>
      obtain ⟨t, ht, hc, hg, _⟩ := reg.exists_unique (reg.withdrawals q hr)
      have hget : s.erc20Tokens.getAlt q.erc20ContractAddress = some t.symbol :=
        (DMKM.getAlt_eq reg.wf).2 ⟨_, (DMKM.getEntryAlt_eq reg.wf).1 hg⟩
      refine ⟨⟨q.nativeLedgerBurnIndex, q.destination, t.symbol, q.withdrawalAmount, some q.maxTransactionFee, q.from,
        q.fromSubaccount, st⟩, ?_, rfl, rfl, rfl, rfl, rfl, hst, ⟨t, ht, hc, rfl⟩, rfl⟩
      unfold State.withdrawalDetail
      simp only [hget]
      rfl
  have pendSt : ∀ r ∈ s.txs.pending, statusOf log r.burnIndex = .pending := by
    intro r hr
    have h1 := status_of_stat h hn (.pending r hr rfl)
    rw [C33_status h hn, Except.ok.injEq] at h1
    exact h1
  have procd : ∀ r ∈ s.txs.processed.values, s.txs.processed.get r.burnIndex = some r := by
    intro r hr
    obtain ⟨i, hi⟩ := FMap.mem_values.1 hr
    rw [inv.procIdx _ _ hi]; exact hi
  obtain ⟨l₁, a1, a2, a3, a4⟩ := mapM_ok (f := s.txs.processedDetail)
    (l := s.txs.processed.values.filter (fun r => r.matchParameter p)) (by
      intro r hr
      obtain ⟨tx, h1, _⟩ := processed_detail h hn (procd r (List.mem_filter.1 hr).1)
      exact ⟨_, h1⟩)
  have a5 := a4 (fun x => x.1.burnIndex) (fun r => r.burnIndex) (by
    intro r y hy
    unfold processedDetail at hy
    simp only [Res.bind_ok] at hy
    obtain ⟨⟨st, o⟩, _, hy⟩ := hy
    split at hy
    · cases hy
    · cases hy
    · cases hy
    · simp only [Res.pure_ok] at hy; subst hy; rfl)
  -- every listed item has a truthful detail
  have items : ∀ x ∈ ((s.txs.pending.filter (fun r => r.matchParameter p)).map fun r =>
      ((r, .pending, none) : Request × Status × Option Tx)) ++ l₁,
      ∃ d, s.withdrawalDetail x = .ok d ∧ Describes log s x.1 d ∧ x.1.intoEvent ∈ log ∧ Matches x.1 p := by
    intro x hx
    rw [List.mem_append, List.mem_map] at hx
    rcases hx with ⟨r, hr, rfl⟩ | hx
    · obtain ⟨hr, hm⟩ := List.mem_filter.1 hr
      have hin := (hl.acc r).2 (.inl hr)
      obtain ⟨d, h1, h2⟩ := detail r hin .pending none (pendSt r hr).symm (fun _ => rfl) (fun hne => absurd rfl hne)
      exact ⟨d, h1, h2, hin, matches_iff.1 hm⟩
    · obtain ⟨r, hr, hd⟩ := a2 x hx
      obtain ⟨hr, hm⟩ := List.mem_filter.1 hr
      have hpr := procd r hr
      have hin := (hl.acc r).2 (.inr hpr)
      obtain ⟨tx, h1, h2, h3, h4⟩ := processed_detail h hn hpr
      rw [h1, Except.ok.injEq] at hd
      subst hd
      obtain ⟨d, g1, g2⟩ := detail r hin _ (some tx) rfl (fun hp => absurd hp h2) (fun _ => ⟨tx, rfl, h3, h4⟩)
      exact ⟨d, g1, g2, hin, matches_iff.1 hm⟩
  obtain ⟨l, b1, b2, b3, b4⟩ := mapM_ok (f := s.withdrawalDetail)
    (l := ((s.txs.pending.filter (fun r => r.matchParameter p)).map fun r =>
      ((r, .pending, none) : Request × Status × Option Tx)) ++ l₁) (by
      intro x hx; obtain ⟨d, hd, _⟩ := items x hx; exact ⟨d, hd⟩)
  refine ⟨l, ?_, ?_, ?_, ?_⟩
  · unfold State.withdrawalStatus Transactions.withdrawalStatus
    rw [a1]; exact b1
  · rw [b4 (·.withdrawalId) (fun x => x.1.burnIndex) (by
      intro x y hy
      unfold State.withdrawalDetail at hy
      simp only [Res.bind_ok, Res.pure_ok] at hy
      obtain ⟨_, _, rfl⟩ := hy; rfl)]
    rw [List.map_append, List.map_map]
    have e1 : ((s.txs.pending.filter (fun r => r.matchParameter p)).map
        ((fun x : Request × Status × Option Tx => x.1.burnIndex) ∘ fun r => (r, Status.pending, none))) =
        (s.txs.pending.filter (fun r => r.matchParameter p)).map (fun r => r.burnIndex) := rfl
    rw [e1, a5, List.nodup_append]
    refine ⟨?_, ?_, ?_⟩
    · unfold List.Nodup; rw [List.pairwise_map]
      exact inv.pend.filter _
    · have hk : s.txs.processed.values.map (fun r => r.burnIndex) = s.txs.processed.keys := by
        unfold FMap.values FMap.keys
        rw [List.map_map]
        apply List.map_congr_left
        rintro ⟨i, r⟩ hx
        exact inv.procIdx i r (FMap.mem_toList.1 hx)
      have := s.txs.processed.keys_nodup
      rw [← hk] at this
      exact this.sublist (List.filter_sublist.map _)
    · intro a ha b hb hab
      subst hab
      obtain ⟨r, hr, rfl⟩ := List.mem_map.1 ha
      obtain ⟨r', hr', he⟩ := List.mem_map.1 hb
      have h1 := inv.pendProc r (List.mem_filter.1 hr).1
      have h2 := procd r' (List.mem_filter.1 hr').1
      rw [he, h1] at h2; cases h2
  · intro d hd
    obtain ⟨x, hx, hxd⟩ := b2 d hd
    obtain ⟨d', h1, h2, h3, h4⟩ := items x hx
    rw [h1, Except.ok.injEq] at hxd; subst hxd
    exact ⟨x.1, h3, h4, h2⟩
  · intro r hr hm
    have : ∃ x ∈ ((s.txs.pending.filter (fun r => r.matchParameter p)).map fun r =>
      ((r, .pending, none) : Request × Status × Option Tx)) ++ l₁, x.1 = r := by
      rcases (hl.acc r).1 hr with hp | hp
      · exact ⟨(r, .pending, none), List.mem_append_left _ (List.mem_map.2 ⟨r, List.mem_filter.2 ⟨hp, matches_iff.2 hm⟩,
          rfl⟩), rfl⟩
      · obtain ⟨y, hy, hd⟩ := a3 r (List.mem_filter.2 ⟨FMap.mem_values.2 ⟨_, hp⟩, matches_iff.2 hm⟩)
        obtain ⟨tx, h1, _⟩ := processed_detail h hn hp
        rw [h1, Except.ok.injEq] at hd
        exact ⟨y, List.mem_append_right _ hy, by rw [← hd]⟩
    obtain ⟨x, hx, rfl⟩ := this
    obtain ⟨d, hd, hxd⟩ := b3 x hx
    obtain ⟨d', h1, h2, _⟩ := items x hx
    rw [h1, Except.ok.injEq] at hxd; subst hxd
    exact ⟨d', hd, h2⟩

end

namespace Example

/-- The withdrawals of the example history: reimbursed, successful, unknown. -/
example : ∃ s, Run log s ∧ s.txs.transactionStatus 20 = .ok (.reimbursed receipt1.transactionHash 2979000000 30) ∧
    s.txs.transactionStatus 21 = .ok (.success receipt2.transactionHash (900 * 60000)) ∧
    s.txs.transactionStatus 22 = .ok .notFound := by
  obtain ⟨s, h, _⟩ := log_run
  refine ⟨s, h, ?_, ?_, ?_⟩ <;> rw [C33_status h nonces_ok]
  · exact congrArg Except.ok (by decide +kernel : statusOf log 20 = _)
  · exact congrArg Except.ok (by decide +kernel : statusOf log 21 = _)
  · exact congrArg Except.ok (by decide +kernel : statusOf log 22 = _)

/-- On the way: pending, created, sent, created again as a replacement, sent again, awaiting reimbursement. -/
example : [8, 10, 12, 16, 17, 19].map (fun k => statusOf (log.take k) 20) =
    [.pending, .txCreated, .txSent (SignedTx.mk tx1 sig).hash, .txCreated, .txSent (SignedTx.mk tx1' sig).hash,
      .pendingReimbursement receipt1.transactionHash] := by decide +kernel

end Example

end EvmMinter
