import Verif.Lemmas.TxCore
/-!
# Finalizations and reimbursements in the history
-/

namespace EvmMinter

open Spec Transactions

variable [Keccak]

/-- Effect of an event on the finalized map, the processed requests and the reimbursements. -/
inductive FinStep (t : Transactions) : Event → Transactions → Prop where
  | finalize (i : LedgerBurnIndex) (receipt : Receipt) (t' : Transactions) (n : TransactionNonce)
      (l : List (Resubmittable SignedTx)) (x : Resubmittable SignedTx) (r : Request) :
      t.sent.Has n i l → x ∈ l → x.transaction.hash = receipt.transactionHash →
      receipt.effectiveGasPrice ≤ x.transaction.tx.maxFeePerGas →
      receipt.gasUsed ≤ x.transaction.tx.gasLimit →
      (∀ m j f, t'.finalized.Has m j f ↔ (m = n ∧ j = i ∧ f = ⟨x.transaction, receipt⟩) ∨ t.finalized.Has m j f) →
      (∀ m j l', t'.sent.Has m j l' ↔ j ≠ i ∧ t.sent.Has m j l') →
      (∀ m j c, t'.created.Has m j c ↔ j ≠ i ∧ t.created.Has m j c) →
      t'.processed = t.processed → t.processed.get i = some r → t'.reimbursed = t.reimbursed →
      (receipt.status = .success ∧ t'.reimbursementRequests = t.reimbursementRequests ∨
       receipt.status = .failure ∧ t.reimbursed.get (.ofRequest r) = none ∧
        t.reimbursementRequests.get (.ofRequest r) = none ∧
        t'.reimbursementRequests = t.reimbursementRequests.insert (.ofRequest r)
          (failureReimbursement i r ⟨x.transaction, receipt⟩)) →
      FinStep t (.finalizedTransaction i receipt) t'
  | owe (r : ReimbRequest) (t' : Transactions) :
      t'.finalized = t.finalized → t'.processed = t.processed → t'.reimbursed = t.reimbursed →
      t'.sent = t.sent →
      t.reimbursed.get (.native r.ledgerBurnIndex) = none →
      t.reimbursementRequests.get (.native r.ledgerBurnIndex) = none →
      t'.reimbursementRequests = t.reimbursementRequests.insert (.native r.ledgerBurnIndex) r →
      FinStep t (.failedErc20WithdrawalRequest r) t'
  | paid (e : Event) (x : ReimbIndex) (b : LedgerMintIndex) (rr : ReimbRequest) (t' : Transactions) :
      ((∃ q, e = .reimbursedNativeWithdrawal q ∧ x = .native q.burnInBlock ∧ b = q.reimbursedInBlock) ∨
        (∃ n l q, e = .reimbursedErc20Withdrawal n l q ∧ x = .erc20 n l q.burnInBlock ∧
          b = q.reimbursedInBlock)) →
      t'.finalized = t.finalized → t'.processed = t.processed → t'.sent = t.sent →
      t.reimbursementRequests.get x = some rr → t.reimbursed.get x = none →
      t'.reimbursementRequests = t.reimbursementRequests.erase x →
      t'.reimbursed = t.reimbursed.insert x (.ok ⟨b, x.burnInBlock, rr.reimbursedAmount, rr.transactionHash⟩) →
      FinStep t e t'
  | quarantine (x : ReimbIndex) (t' : Transactions) :
      t'.finalized = t.finalized → t'.processed = t.processed → t'.sent = t.sent →
      t'.reimbursementRequests = t.reimbursementRequests.erase x →
      t'.reimbursed = t.reimbursed.insert x .quarantined →
      FinStep t (.quarantinedReimbursement x) t'
  | other (e : Event) (t' : Transactions) :
      (match e with
        | .finalizedTransaction _ _ | .failedErc20WithdrawalRequest _ | .reimbursedNativeWithdrawal _
        | .reimbursedErc20Withdrawal _ _ _ | .quarantinedReimbursement _ => False
        | _ => True) →
      t'.finalized = t.finalized → (∀ i r, t.processed.get i = some r → t'.processed.get i = some r) →
      (∀ n i l x, t'.sent.Has n i l → x ∈ l → (∃ l', t.sent.Has n i l' ∧ x ∈ l') ∨
        ∃ j, e = .signedTransaction j x.transaction) →
      t'.reimbursementRequests = t.reimbursementRequests → t'.reimbursed = t.reimbursed →
      FinStep t e t'

theorem finStep {t t' : Transactions} {e : Event} (h : t.TxInv) (hi : ∀ a, e ≠ .init a)
    (ht : txEvent t e = .ok t') : FinStep t e t' := by
  have same : ∀ {u : Transactions}, u.sent = t.sent → ∀ n i l x, u.sent.Has n i l → x ∈ l →
      (∃ l', t.sent.Has n i l' ∧ x ∈ l') ∨ ∃ j, e = .signedTransaction j x.transaction := by
    intro u hu n i l x hl hx
    rw [hu] at hl; exact .inl ⟨l, hl, hx⟩
  cases e <;> simp only [txEvent] at ht
  case init a => exact absurd rfl (hi a)
  case upgrade a =>
    simp only [Except.ok.injEq] at ht; subst ht
    have := withNonce_frame t a.nextTransactionNonce
    exact .other _ _ trivial this.2.2.2.2.1 (fun i r h => by rw [this.2.1]; exact h)
      (same this.2.2.2.1) this.2.2.2.2.2.2.1 this.2.2.2.2.2.2.2
  case acceptedNativeWithdrawalRequest r =>
    have := (recordWithdrawalRequest_ok h.maps ht).1; subst this
    exact .other _ _ trivial rfl (fun _ _ h => h) (same rfl) rfl rfl
  case acceptedErc20WithdrawalRequest r =>
    have := (recordWithdrawalRequest_ok h.maps ht).1; subst this
    exact .other _ _ trivial rfl (fun _ _ h => h) (same rfl) rfl rfl
  case createdTransaction j tx =>
    obtain ⟨q, created, e1, _, e2, e3, e4, e5, e6, e7, e8, e9, rfl⟩ := recordCreatedTransaction_ok ht
    refine .other _ _ trivial rfl ?_ (same rfl) rfl rfl
    intro i r hr
    simp only [FMap.get_insert]
    split
    · rename_i hj; rw [hj, e7] at hr; cases hr
    · exact hr
  case signedTransaction j stx =>
    obtain ⟨i', c, created, sent, e1, e2, ⟨o, e3⟩, e4, rfl⟩ := recordSignedTransaction_ok ht
    obtain ⟨old, hold, hsh⟩ := signed_sent h e1 e4
    refine .other _ _ trivial rfl (fun _ _ h => h) ?_ rfl rfl
    intro n i l x hl hx
    rcases (hsh _ _ _).1 hl with ⟨rfl, rfl, rfl⟩ | ⟨_, hl⟩
    · simp only [List.mem_append, List.mem_singleton] at hx
      rcases hx with hx | rfl
      · rcases hold with ⟨rfl, _⟩ | hold
        · cases hx
        · exact .inl ⟨_, hold, hx⟩
      · exact .inr ⟨j, rfl⟩
    · exact .inl ⟨l, hl, hx⟩
  case replacedTransaction j tx =>
    obtain ⟨i', l, last, created₁, created, e1, e2, e3, ⟨o, e4⟩, e5, rfl⟩ := recordResubmitTransaction_ok ht
    exact .other _ _ trivial rfl (fun _ _ h => h) (same rfl) rfl rfl
  case finalizedTransaction j receipt =>
    obtain ⟨m, l, stx, sent, created, finalized, r, e1, e2, e3, e4, e5, ⟨o, e6⟩, ⟨o', e7⟩, e8, ⟨_, e9⟩, e10, e11⟩ :=
      recordFinalizedTransaction_ok h.maps ht
    have hn : stx.transaction.tx.nonce = m := (h.sN _ _ _ e1).2.2 stx e2
    rw [hn] at e6 e7 e8
    have hch := fun k a v => MKM.removeEntry_has h.cw e7 (k' := k) (a' := a) (v' := v)
    have hsh := fun k a v => MKM.removeEntry_has h.sw e6 (k' := k) (a' := a) (v' := v)
    have hfh := fun k a v => MKM.tryInsert_has h.fw e8 (k' := k) (a' := a) (v' := v)
    have cAlt : ∀ m' j' c, t.created.Has m' j' c → (m' ≠ m ↔ j' ≠ j) := fun m' j' c hc =>
      not_congr (h.cs _ _ _ _ _ _ hc e1)
    have sAlt : ∀ m' j' c, t.sent.Has m' j' c → (m' ≠ m ↔ j' ≠ j) := fun m' j' c hc => by
      refine not_congr ⟨?_, ?_⟩
      · rintro rfl; exact (MKM.Has.unique_key hc e1).1
      · rintro rfl; exact (MKM.Has.unique_alt h.sw hc e1).1
    have key : t'.created = created ∧ t'.sent = sent ∧ t'.finalized = finalized ∧ t'.processed = t.processed ∧
        t'.reimbursed = t.reimbursed := by
      rcases e11 with ⟨_, rfl⟩ | ⟨_, _, _, _, rfl⟩ <;> exact ⟨rfl, rfl, rfl, rfl, rfl⟩
    obtain ⟨k1, k2, k3, k4, k5⟩ := key
    refine .finalize j receipt t' m l stx r e1 e2 e3 e4 e5 ?_ ?_ ?_ k4 e10 k5 ?_
    · intro a b f; rw [k3, hfh]
    · intro a b f; rw [k2, hsh]
      constructor
      · rintro ⟨h1, h2⟩; exact ⟨(sAlt _ _ _ h2).1 h1, h2⟩
      · rintro ⟨h1, h2⟩; exact ⟨(sAlt _ _ _ h2).2 h1, h2⟩
    · intro a b f; rw [k1, hch]
      constructor
      · rintro ⟨h1, h2⟩; exact ⟨(cAlt _ _ _ h2).1 h1, h2⟩
      · rintro ⟨h1, h2⟩; exact ⟨(cAlt _ _ _ h2).2 h1, h2⟩
    · rcases e11 with ⟨a, rfl⟩ | ⟨a, _, b, c, rfl⟩
      · exact .inl ⟨a, rfl⟩
      · exact .inr ⟨a, b, c, rfl⟩
  case reimbursedNativeWithdrawal q =>
    obtain ⟨rr, h1, h2, rfl⟩ := recordFinalizedReimbursement_ok ht
    exact .paid _ _ _ rr _ (.inl ⟨q, rfl, rfl, rfl⟩) rfl rfl rfl h1 h2 rfl rfl
  case reimbursedErc20Withdrawal n l q =>
    obtain ⟨rr, h1, h2, rfl⟩ := recordFinalizedReimbursement_ok ht
    exact .paid _ _ _ rr _ (.inr ⟨n, l, q, rfl, rfl, rfl⟩) rfl rfl rfl h1 h2 rfl rfl
  case failedErc20WithdrawalRequest r =>
    obtain ⟨_, h1, h2, rfl⟩ := recordReimbursementRequest_ok ht
    exact .owe r _ rfl rfl rfl rfl h1 h2 rfl
  case quarantinedReimbursement x =>
    simp only [Except.ok.injEq] at ht; subst ht; exact .quarantine x _ rfl rfl rfl rfl rfl
  all_goals
    (simp only [Except.ok.injEq] at ht; subst ht
     exact .other _ _ trivial rfl (fun _ _ h => h) (same rfl) rfl rfl)

/-- Why reimbursement `x` with content `rr` is owed: a failed transaction of a processed withdrawal, or a failed
ERC-20 burn recorded in the log. -/
def Owed (log : List Event) (t : Transactions) (x : ReimbIndex) (rr : ReimbRequest) : Prop :=
  (∃ n i f r, t.finalized.Has n i f ∧ f.receipt.status = .failure ∧ t.processed.get i = some r ∧
    x = .ofRequest r ∧ rr = failureReimbursement i r f) ∨
  (.failedErc20WithdrawalRequest rr ∈ log ∧ x = .native rr.ledgerBurnIndex)

/-- What the log and the pipeline know of each other. -/
structure TxLog (log : List Event) (t : Transactions) : Prop where
  acc : ∀ r : Request, r.intoEvent ∈ log ↔ (r ∈ t.pending ∨ t.processed.get r.burnIndex = some r)
  accCount : ∀ i, count (isRequestOf i) log ≤ 1
  core1 : ∀ i tx, .createdTransaction i tx ∈ log → Core t tx.nonce i tx.core
  core2 : ∀ e ∈ log, ∀ tx, recordedTx e = some tx → ∃ i, Core t tx.nonce i tx.core
  core3 : ∀ n i k, Core t n i k → ∃ tx, .createdTransaction i tx ∈ log ∧ tx.nonce = n ∧ tx.core = k
  createCount : ∀ i, count (isCreateOf i) log ≤ 1
  nonces : (createdNonces log).Pairwise (· < ·) ∧ ∀ n ∈ createdNonces log, n < t.nextNonce
  sentLog : ∀ n i l x, t.sent.Has n i l → x ∈ l → ∃ j, .signedTransaction j x.transaction ∈ log
  finLog : ∀ n i f, t.finalized.Has n i f → .finalizedTransaction i f.receipt ∈ log ∧
    (∃ j, .signedTransaction j f.signed ∈ log) ∧ f.signed.hash = f.receipt.transactionHash ∧
    f.receipt.effectiveGasPrice ≤ f.signed.tx.maxFeePerGas ∧ f.receipt.gasUsed ≤ f.signed.tx.gasLimit
  finIn : ∀ i r, .finalizedTransaction i r ∈ log → ∃ n f, t.finalized.Has n i f ∧ f.receipt = r
  finCount : ∀ i, count (isFinalizeOf i) log ≤ 1
  owed : ∀ x rr, t.reimbursementRequests.get x = some rr → Owed log t x rr
  paid : ∀ x b, t.reimbursed.get x = some (.ok b) → ∃ rr, Owed log t x rr ∧
    b.reimbursedAmount = rr.reimbursedAmount ∧ b.transactionHash = rr.transactionHash ∧
    b.burnInBlock = x.burnInBlock
  failed : ∀ n i f r, t.finalized.Has n i f → f.receipt.status = .failure → t.processed.get i = some r →
    t.reimbursementRequests.get (.ofRequest r) ≠ none ∨ t.reimbursed.get (.ofRequest r) ≠ none
  failedErc20 : ∀ rr, .failedErc20WithdrawalRequest rr ∈ log →
    t.reimbursementRequests.get (.native rr.ledgerBurnIndex) ≠ none ∨
    t.reimbursed.get (.native rr.ledgerBurnIndex) ≠ none
  payCount : ∀ x, count (isReimburseOf x) log ≤ 1
  payDone : ∀ x, 0 < count (isReimburseOf x) log → t.reimbursed.get x ≠ none

omit [Keccak] in
theorem count_snoc (p : Event → Bool) (log : List Event) (e : Event) :
    count p (log ++ [e]) = count p log + if p e then 1 else 0 := by
  simp [count, List.countP_append, List.countP_cons]

omit [Keccak] in
theorem createdNonces_append (l₁ l₂ : List Event) :
    createdNonces (l₁ ++ l₂) = createdNonces l₁ ++ createdNonces l₂ := by
  induction l₁ with
  | nil => rfl
  | cons e t ih => cases e <;> simp only [List.cons_append, createdNonces, ih]

omit [Keccak] in
theorem mem_createdNonces {n : TransactionNonce} {log : List Event} :
    n ∈ createdNonces log ↔ ∃ i tx, .createdTransaction i tx ∈ log ∧ tx.nonce = n := by
  induction log with
  | nil => simp [createdNonces]
  | cons e l ih =>
    cases e <;> simp only [createdNonces, List.mem_cons, ih, reduceCtorEq, false_or]
    rename_i j t
    constructor
    · rintro (rfl | ⟨i, tx, h1, h2⟩)
      · exact ⟨j, t, .inl rfl, rfl⟩
      · exact ⟨i, tx, .inr h1, h2⟩
    · rintro ⟨i, tx, h1 | h1, h2⟩
      · cases h1; exact .inl h2.symm
      · exact .inr ⟨i, tx, h1, h2⟩

omit [Keccak] in
theorem count_pos_iff {p : Event → Bool} {log : List Event} : 0 < count p log ↔ ∃ e ∈ log, p e = true := by
  simp [count, List.countP_pos_iff]

omit [Keccak] in
theorem isRequestOf_iff {i : LedgerBurnIndex} {e : Event} :
    isRequestOf i e = true ↔ ∃ r : Request, e = r.intoEvent ∧ r.burnIndex = i := by
  constructor
  · intro h
    cases e <;> simp only [isRequestOf, Bool.false_eq_true, beq_iff_eq] at h
    · rename_i r; exact ⟨.native r, rfl, h⟩
    · rename_i r; exact ⟨.erc20 r, rfl, h⟩
  · rintro ⟨r, rfl, rfl⟩
    cases r <;> simp [Request.intoEvent, isRequestOf, Request.burnIndex]

theorem Owed.mono {log : List Event} {t t' : Transactions} {e : Event} {x : ReimbIndex} {rr : ReimbRequest}
    (h : Owed log t x rr) (hs : FinStep t e t') : Owed (log ++ [e]) t' x rr := by
  rcases h with ⟨n, i, f, r, h1, h2, h3, h4, h5⟩ | ⟨h1, h2⟩
  · left
    refine ⟨n, i, f, r, ?_, h2, ?_, h4, h5⟩
    · cases hs with
      | finalize i' rc _ m l y q a1 a2 a3 a4 a5 a6 a7 a8 a9 a10 a11 a12 => exact (a6 _ _ _).2 (.inr h1)
      | owe => simp_all
      | paid => simp_all
      | quarantine => simp_all
      | other => simp_all
    · cases hs with
      | finalize => simp_all
      | owe => simp_all
      | paid => simp_all
      | quarantine => simp_all
      | other => rename_i hp _ _ _; exact hp _ _ h3
  · exact .inr ⟨by simp [h1], h2⟩

theorem processed_mono {t t' : Transactions} {e : Event} (hs : FinStep t e t') {i : LedgerBurnIndex}
    {r : Request} (h : t.processed.get i = some r) : t'.processed.get i = some r := by
  cases hs with
  | finalize => simp_all
  | owe => simp_all
  | paid => simp_all
  | quarantine => simp_all
  | other => rename_i hp _ _ _; exact hp _ _ h

/-- What can newly be finalized. -/
theorem fin_new {t t' : Transactions} {e : Event} (hs : FinStep t e t') {n : TransactionNonce}
    {i : LedgerBurnIndex} {f : FinalizedTx} (h : t'.finalized.Has n i f) :
    t.finalized.Has n i f ∨ e = .finalizedTransaction i f.receipt := by
  cases hs with
  | finalize i' rc _ m l y r a1 a2 a3 a4 a5 a6 a7 a8 a9 a10 a11 a12 =>
    rcases (a6 _ _ _).1 h with ⟨rfl, rfl, rfl⟩ | h
    · exact .inr rfl
    · exact .inl h
  | owe => simp_all
  | paid => simp_all
  | quarantine => simp_all
  | other => simp_all

theorem FinStep.pay {t t' : Transactions} {e : Event} {x : ReimbIndex} (hs : FinStep t e t')
    (hp : isReimburseOf x e = true) : t.reimbursed.get x = none ∧ t'.reimbursed.get x ≠ none := by
  cases hs with
  | paid e y b' rr' _ c1 c2 c3 c4 c5 c6 c7 c8 =>
    rcases c1 with ⟨q, rfl, rfl, _⟩ | ⟨n, l, q, rfl, rfl, _⟩ <;>
    · simp only [isReimburseOf, beq_iff_eq] at hp; subst hp
      exact ⟨c6, by rw [c8]; simp⟩
  | finalize => simp [isReimburseOf] at hp
  | owe => simp [isReimburseOf] at hp
  | quarantine => simp [isReimburseOf] at hp
  | other e _ d1 d2 d3 d4 d5 d6 => cases e <;> simp_all [isReimburseOf]

theorem TxLog.init (a : InitArg) (n : TransactionNonce) : TxLog [.init a] (Transactions.new n) := by
  have e1 : ∀ n i c, ¬ (Transactions.new n).created.Has n i c := fun _ _ _ => MKM.not_has_empty
  constructor <;>
    simp [Transactions.new, MKM.not_has_empty, Core, count, isRequestOf, isFinalizeOf, isReimburseOf,
      isCreateOf, createdNonces, recordedTx]
  intro r; cases r <;> simp [Request.intoEvent]

theorem TxLog.step {log : List Event} {t t' : Transactions} {e : Event} (h : t.TxInv) (h' : t'.TxInv)
    (hN : t.nextNonce = expectedNonce log) (hl : TxLog log t) (hi : ∀ a, e ≠ .init a)
    (ht : txEvent t e = .ok t') : TxLog (log ++ [e]) t' := by
  have hs := finStep h hi ht
  have hcore := fun n i k => core_step h ht n i k
  have hreq := fun r => request_step h ht r
  obtain ⟨acc, accCount, core1, core2, core3, createCount, nonces, sentLog, finLog, finIn, finCount, owed, paid, failed,
    failedErc20, payCount, payDone⟩ := hl
  have hmem : ∀ x, x ∈ log ++ [e] ↔ x ∈ log ∨ x = e := by simp
  have reimbMono : ∀ x, t.reimbursed.get x ≠ none → t'.reimbursed.get x ≠ none := by
    intro x hx
    cases hs with
    | finalize => simp_all
    | owe => simp_all
    | paid => rename_i hr; rw [hr]; simp only [FMap.get_insert]; split <;> simp_all
    | quarantine => rename_i hr; rw [hr]; simp only [FMap.get_insert]; split <;> simp_all
    | other => simp_all
  have keepOwed : ∀ x, t.reimbursementRequests.get x ≠ none ∨ t.reimbursed.get x ≠ none →
      t'.reimbursementRequests.get x ≠ none ∨ t'.reimbursed.get x ≠ none := by
    intro x hx
    rcases hx with hx | hx
    · cases hs with
      | finalize =>
        rename_i hf
        rcases hf with ⟨_, hf⟩ | ⟨_, _, _, hf⟩
        · left; rw [hf]; exact hx
        · left; rw [hf]; simp only [FMap.get_insert]; split <;> simp_all
      | owe => rename_i hf; left; rw [hf]; simp only [FMap.get_insert]; split <;> simp_all
      | paid =>
        rename_i h1 h2; rw [h1, h2]; simp only [FMap.get_insert, FMap.get_erase]; split <;> simp_all
      | quarantine =>
        rename_i h1 h2; rw [h1, h2]; simp only [FMap.get_insert, FMap.get_erase]; split <;> simp_all
      | other => simp_all
    · exact .inr (reimbMono x hx)
  refine ⟨?_, ?_, ?_, ?_, ?_, ?_, ?_, ?_, ?_, ?_, ?_, ?_, ?_, ?_, ?_, ?_, ?_⟩
  · intro r
    rw [hmem, hreq, acc]
    simp only [eq_comm]
  · intro i
    rw [count_snoc]
    split
    · rename_i hp
      obtain ⟨r, rfl, rfl⟩ := isRequestOf_iff.1 hp
      have : count (isRequestOf r.burnIndex) log = 0 := by
        rcases Nat.eq_zero_or_pos (count (isRequestOf r.burnIndex) log) with h | hpos
        · exact h
        · obtain ⟨e', he', hp'⟩ := count_pos_iff.1 hpos
          obtain ⟨r', rfl, hr'⟩ := isRequestOf_iff.1 hp'
          have hrec : t.recordWithdrawalRequest r = .ok t' := by
            cases r <;> simpa [Request.intoEvent, txEvent] using ht
          obtain ⟨_, f1, f2, f3, f4⟩ := recordWithdrawalRequest_ok h.maps hrec
          rcases (acc r').1 he' with hp | hp
          · exact absurd hr' (f1 r' hp)
          · rw [hr'] at hp
            rcases h.procIn _ _ hp with ⟨n, c, hc⟩ | ⟨n, c, hc⟩ | ⟨n, c, hc⟩
            · exact absurd hc (f2 _ _)
            · exact absurd hc (f3 _ _)
            · exact absurd hc (f4 _ _)
      omega
    · simpa using accCount i
  · intro i tx hm
    rcases (hmem _).1 hm with hm | hm
    · exact (hcore _ _ _).2 (.inl (core1 i tx hm))
    · exact (hcore _ _ _).2 (.inr ⟨tx, hm.symm, rfl, rfl⟩)
  · intro e' hm tx hr
    rcases (hmem _).1 hm with hm | rfl
    · obtain ⟨i, hi⟩ := core2 e' hm tx hr
      exact ⟨i, (hcore _ _ _).2 (.inl hi)⟩
    · exact recorded_core h' h ht hr
  · intro n i k hk
    rcases (hcore _ _ _).1 hk with hk | ⟨tx, he, hn, hk⟩
    · obtain ⟨tx, h1, h2⟩ := core3 n i k hk; exact ⟨tx, by simp [h1], h2⟩
    · exact ⟨tx, by simp [he], hn, hk⟩
  · intro i
    rw [count_snoc]
    split
    · rename_i hp
      have : count (isCreateOf i) log = 0 := by
        rcases Nat.eq_zero_or_pos (count (isCreateOf i) log) with h | hpos
        · exact h
        · obtain ⟨e', he', hp'⟩ := count_pos_iff.1 hpos
          cases e' <;> simp only [isCreateOf, Bool.false_eq_true, beq_iff_eq] at hp'
          rename_i j tx'
          subst hp'
          cases e <;> simp only [isCreateOf, Bool.false_eq_true, beq_iff_eq] at hp
          rename_i j' tx
          subst hp
          simp only [txEvent] at ht
          obtain ⟨q, created, e1, _, e2, e3, e4, e5, e6, e7, e8, e9, rfl⟩ := recordCreatedTransaction_ok ht
          obtain ⟨_, _, r, hr, _⟩ := (core1 _ _ he').processed h
          rw [e7] at hr; cases hr
      omega
    · simpa using createCount i
  · rw [createdNonces_append]
    by_cases hc : ∃ i tx, e = .createdTransaction i tx
    · obtain ⟨i, tx, rfl⟩ := hc
      simp only [txEvent] at ht
      obtain ⟨q, created, e1, _, e2, e3, e4, e5, e6, e7, e8, e9, rfl⟩ := recordCreatedTransaction_ok ht
      simp only [createdNonces, List.pairwise_append, List.pairwise_cons, List.Pairwise.nil,
        List.mem_singleton, List.mem_append]
      refine ⟨⟨nonces.1, by simp, ?_⟩, ?_⟩
      · rintro a ha b rfl
        have := nonces.2 a ha
        rw [e5]; exact this
      · rintro n (hn | rfl)
        · exact Nat.lt_succ_of_lt (nonces.2 n hn)
        · rw [e5]; exact Nat.lt_succ_self _
    · have : createdNonces [e] = [] := by
        cases e <;> try rfl
        exact absurd ⟨_, _, rfl⟩ hc
      rw [this, List.append_nil]
      refine ⟨nonces.1, fun n hn => ?_⟩
      have hn' := nonces.2 n hn
      rw [txEvent_nextNonce ht hi h.maps]
      cases e <;> try exact hn'
      case createdTransaction => exact absurd ⟨_, _, rfl⟩ hc
      case init a => exact absurd rfl (hi a)
      case upgrade a =>
        simp only [nonceAfter]
        cases ha : a.nextTransactionNonce with
        | none => exact hn'
        | some m =>
          -- the nonce was not lowered, because the invariant of `t'` bounds all existing nonces
          simp only [Option.getD_some]
          obtain ⟨i, tx, hm, rfl⟩ := mem_createdNonces.1 hn
          have hk := (hcore _ _ _).2 (.inl (core1 i tx hm))
          have := (hk.processed h').1
          rw [txEvent_nextNonce ht hi h.maps] at this
          simpa [nonceAfter, ha] using this
  · intro n i l x hl hx
    cases hs with
    | finalize i' rc _ m l0 y r a1 a2 a3 a4 a5 a6 a7 a8 a9 a10 a11 a12 =>
      obtain ⟨j, hj⟩ := sentLog n i l x ((a7 _ _ _).1 hl).2 hx
      exact ⟨j, by simp [hj]⟩
    | owe r0 _ b1 b2 b3 b4 b5 b6 b7 =>
      rw [b4] at hl
      obtain ⟨j, hj⟩ := sentLog n i l x hl hx
      exact ⟨j, by simp [hj]⟩
    | paid e y b' rr' _ c1 c2 c3 c4 c5 c6 c7 c8 =>
      rw [c4] at hl
      obtain ⟨j, hj⟩ := sentLog n i l x hl hx
      exact ⟨j, by simp [hj]⟩
    | quarantine y _ c1 c2 c3 c4 c5 =>
      rw [c3] at hl
      obtain ⟨j, hj⟩ := sentLog n i l x hl hx
      exact ⟨j, by simp [hj]⟩
    | other e _ d1 d2 d3 d4 d5 d6 =>
      rcases d4 n i l x hl hx with ⟨l', hl', hx'⟩ | ⟨j, hj⟩
      · obtain ⟨j, hj⟩ := sentLog n i l' x hl' hx'
        exact ⟨j, by simp [hj]⟩
      · exact ⟨j, by simp [hj]⟩
  · intro n i f hf
    rcases fin_new hs hf with hf' | he
    · obtain ⟨h1, ⟨j, h2⟩, h3⟩ := finLog n i f hf'
      exact ⟨by simp [h1], ⟨j, by simp [h2]⟩, h3⟩
    · cases hs with
      | finalize i' rc _ m l x r a1 a2 a3 a4 a5 a6 =>
        simp only [Event.finalizedTransaction.injEq] at he
        rcases (a6 _ _ _).1 hf with ⟨rfl, rfl, rfl⟩ | hf'
        · obtain ⟨j, hj⟩ := sentLog _ _ _ _ a1 a2
          exact ⟨by simp, ⟨j, by simp [hj]⟩, a3, a4, a5⟩
        · obtain ⟨h1, ⟨j, h2⟩, h3⟩ := finLog n i f hf'
          exact ⟨by simp [h1], ⟨j, by simp [h2]⟩, h3⟩
      | owe => cases he
      | paid e y b' rr' _ c1 c2 c3 c4 c5 c6 c7 c8 => rcases c1 with ⟨_, rfl, _⟩ | ⟨_, _, _, rfl, _⟩ <;> cases he
      | quarantine => cases he
      | other e _ d1 d2 d3 d4 d5 d6 => subst he; exact d1.elim
  · intro i r hm
    rcases (hmem _).1 hm with hm | hm
    · obtain ⟨n, f, hf, hr⟩ := finIn i r hm
      refine ⟨n, f, ?_, hr⟩
      cases hs with
      | finalize i' rc _ m l y q a1 a2 a3 a4 a5 a6 a7 a8 a9 a10 a11 a12 => exact (a6 _ _ _).2 (.inr hf)
      | owe => simp_all
      | paid => simp_all
      | quarantine => simp_all
      | other => simp_all
    · subst hm
      cases hs with
      | finalize i' rc _ m l x r a1 a2 a3 a4 a5 a6 => exact ⟨_, _, (a6 _ _ _).2 (.inl ⟨rfl, rfl, rfl⟩), rfl⟩
      | paid _ y b' rr' _ c1 c2 c3 c4 c5 c6 c7 c8 => rcases c1 with ⟨_, hh, _⟩ | ⟨_, _, _, hh, _⟩ <;> cases hh
      | other _ _ d1 d2 d3 d4 d5 d6 => exact d1.elim
  · intro i
    rw [count_snoc]
    split
    · rename_i hp
      have : count (isFinalizeOf i) log = 0 := by
        rcases Nat.eq_zero_or_pos (count (isFinalizeOf i) log) with h | hpos
        · exact h
        · obtain ⟨e', he', hp'⟩ := count_pos_iff.1 hpos
          cases e' <;> simp only [isFinalizeOf, Bool.false_eq_true, beq_iff_eq] at hp'
          rename_i j r'
          subst hp'
          cases e <;> simp only [isFinalizeOf, Bool.false_eq_true, beq_iff_eq] at hp
          rename_i j' r''
          subst hp
          obtain ⟨n, f, hf, _⟩ := finIn _ _ he'
          simp only [txEvent] at ht
          obtain ⟨m, l, stx, sent, created, finalized, r, e1, _⟩ := recordFinalizedTransaction_ok h.maps ht
          exact absurd rfl (h.sf _ _ _ _ _ _ e1 hf).2
      omega
    · simpa using finCount i
  · intro x rr hx
    have old : t.reimbursementRequests.get x = some rr → Owed (log ++ [e]) t' x rr := fun hx =>
      (owed x rr hx).mono hs
    cases hs with
    | finalize i' rc _ m l y r a1 a2 a3 a4 a5 a6 a7 a8 a9 a10 a11 a12 =>
      rcases a12 with ⟨_, hq⟩ | ⟨hst, _, _, hq⟩
      · rw [hq] at hx; exact old hx
      · rw [hq] at hx
        simp only [FMap.get_insert] at hx
        split at hx
        · rename_i hxr
          simp only [Option.some.injEq] at hx
          left
          exact ⟨m, i', _, r, (a6 _ _ _).2 (.inl ⟨rfl, rfl, rfl⟩), hst, by rw [a9]; exact a10, hxr, hx.symm⟩
        · exact old hx
    | owe r _ b1 b2 b3 b4 b5 b6 b7 =>
      rw [b7] at hx
      simp only [FMap.get_insert] at hx
      split at hx
      · rename_i hxr
        simp only [Option.some.injEq] at hx
        right
        subst hx
        exact ⟨by simp, hxr⟩
      · exact old hx
    | paid e y b rr' _ c1 c2 c3 c4 c5 c6 c7 c8 =>
      rw [c7] at hx
      simp only [FMap.get_erase] at hx
      split at hx
      · cases hx
      · exact old hx
    | quarantine y _ c1 c2 c3 c4 c5 =>
      rw [c4] at hx
      simp only [FMap.get_erase] at hx
      split at hx
      · cases hx
      · exact old hx
    | other e _ d1 d2 d3 d4 d5 d6 => rw [d5] at hx; exact old hx
  · intro x b hx
    have old : t.reimbursed.get x = some (.ok b) → ∃ rr, Owed (log ++ [e]) t' x rr ∧
        b.reimbursedAmount = rr.reimbursedAmount ∧ b.transactionHash = rr.transactionHash ∧
        b.burnInBlock = x.burnInBlock := fun hx => by
      obtain ⟨rr, h1, h2⟩ := paid x b hx
      exact ⟨rr, h1.mono hs, h2⟩
    have hs0 := hs
    cases hs with
    | finalize i' rc _ m l y r a1 a2 a3 a4 a5 a6 a7 a8 a9 a10 a11 a12 => rw [a11] at hx; exact old hx
    | owe r _ b1 b2 b3 b4 b5 b6 b7 => rw [b3] at hx; exact old hx
    | paid e y b' rr' _ c1 c2 c3 c4 c5 c6 c7 c8 =>
      rw [c8] at hx
      simp only [FMap.get_insert] at hx
      split at hx
      · rename_i hxy
        simp only [Option.some.injEq, ReimbResult.ok.injEq] at hx
        subst hxy hx
        exact ⟨rr', (owed x rr' c5).mono hs0, rfl, rfl, rfl⟩
      · exact old hx
    | quarantine y _ c1 c2 c3 c4 c5 =>
      rw [c5] at hx
      simp only [FMap.get_insert] at hx
      split at hx
      · cases hx
      · exact old hx
    | other e _ d1 d2 d3 d4 d5 d6 => rw [d6] at hx; exact old hx
  · intro n i f r hf hst hp
    rcases fin_new hs hf with hf' | he
    · have hp' : t.processed.get i = some r := by
        obtain ⟨q, hq, _⟩ := h.fProc _ _ _ hf'
        have := processed_mono hs hq
        rw [hp] at this
        simp only [Option.some.injEq] at this; rw [this]; exact hq
      exact keepOwed _ (failed n i f r hf' hst hp')
    · cases hs with
      | finalize i' rc _ m l y r' a1 a2 a3 a4 a5 a6 a7 a8 a9 a10 a11 a12 =>
        simp only [Event.finalizedTransaction.injEq] at he
        obtain ⟨rfl, rfl⟩ := he
        rw [a9, a10] at hp
        simp only [Option.some.injEq] at hp; subst hp
        rcases a12 with ⟨hs', _⟩ | ⟨_, _, _, hq⟩
        · rw [hst] at hs'; cases hs'
        · left; rw [hq]; simp
      | owe => cases he
      | paid e y b' rr' _ c1 c2 c3 c4 c5 c6 c7 c8 => rcases c1 with ⟨_, rfl, _⟩ | ⟨_, _, _, rfl, _⟩ <;> cases he
      | quarantine => cases he
      | other e _ d1 d2 d3 d4 d5 d6 => subst he; exact d1.elim
  · intro rr hm
    rcases (hmem _).1 hm with hm | hm
    · exact keepOwed _ (failedErc20 rr hm)
    · subst hm
      cases hs with
      | owe r _ b1 b2 b3 b4 b5 b6 b7 => left; rw [b7]; simp
      | paid _ y b' rr' _ c1 c2 c3 c4 c5 c6 c7 c8 => rcases c1 with ⟨_, hh, _⟩ | ⟨_, _, _, hh, _⟩ <;> cases hh
      | other _ _ d1 d2 d3 d4 d5 d6 => exact d1.elim
  · intro x
    rw [count_snoc]
    split
    · rename_i hp
      have : count (isReimburseOf x) log = 0 := by
        rcases Nat.eq_zero_or_pos (count (isReimburseOf x) log) with h | hpos
        · exact h
        · have hd := payDone x hpos
          exact absurd (hs.pay hp).1 hd
      omega
    · simpa using payCount x
  · intro x hpos
    rw [count_snoc] at hpos
    split at hpos
    · rename_i hp
      exact (hs.pay hp).2
    · exact reimbMono x (payDone x (by simpa using hpos))

theorem txLog_of_replay {log : List Event} {s : State} (h : replay log = .ok s) (hn : NonceNeverLowered log) :
    TxLog log s.txs :=
  (tx_induct (P := TxLog) TxLog.init
    (fun _ _ _ _ h h' hN hl hi ht => TxLog.step h h' hN hl hi ht) h hn).2.2

end EvmMinter
