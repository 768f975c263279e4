import Verif.Lemmas.Refine
import Verif.Props.C43
import Verif.Props.C53
/-!
# Recording receipts
-/

namespace EvmMinter
open Spec Transactions

section
variable [Keccak]

/-! ## Budgets -/

omit [Keccak] in
/-- What was burned for fees (and value) of the withdrawals without a receipt. -/
def owedFee (s : State) : Event → Nat
  | .acceptedNativeWithdrawalRequest r => if s.txs.finalized.getAlt r.ledgerBurnIndex = none then r.withdrawalAmount else 0
  | .acceptedErc20WithdrawalRequest r => if s.txs.finalized.getAlt r.nativeLedgerBurnIndex = none then r.maxTransactionFee else 0
  | _ => 0

omit [Keccak] in
/-- The tokens of the withdrawals without a receipt. -/
def owedToken (s : State) (c : Address) : Event → Nat
  | .acceptedErc20WithdrawalRequest r =>
    if s.txs.finalized.getAlt r.nativeLedgerBurnIndex = none ∧ r.erc20ContractAddress = c then r.withdrawalAmount else 0
  | _ => 0

omit [Keccak] in
/-- The balances cover everything that the withdrawals without a receipt can spend, and the fee totals have room for it. -/
structure Budget (log : List Event) (s : State) : Prop where
  native : total (owedFee s) log ≤ s.nativeBalance.balance
  effective : s.nativeBalance.totalEffectiveTxFees + total (owedFee s) log < 2 ^ 256 - 1
  unspent : s.nativeBalance.totalUnspentTxFees + total (owedFee s) log < 2 ^ 256 - 1
  token : ∀ c, total (owedToken s c) log ≤ tokenBalance s c

omit [Keccak] in
theorem sum_drop {α : Type} {f g : α → Nat} {d : Nat} : ∀ {l : List α} {x : α}, x ∈ l → (∀ y ∈ l, g y ≤ f y) → g x + d ≤ f x →
    (l.map g).sum + d ≤ (l.map f).sum := by
  intro l
  induction l with
  | nil => intro x hx; cases hx
  | cons y t ih =>
    intro x hx hle hd
    simp only [List.map_cons, List.sum_cons]
    have h1 := hle y (by simp)
    rcases List.mem_cons.1 hx with rfl | hx
    · have := sum_map_le (f := g) (g := f) (l := t) fun z hz => hle z (by simp [hz])
      omega
    · have := ih hx (fun z hz => hle z (by simp [hz])) hd
      omega

omit [Keccak] in
theorem total_snoc_zero {f : Event → Nat} {log : List Event} {e : Event} (h : f e = 0) : total f (log ++ [e]) = total f log := by
  unfold total
  rw [List.map_append, List.sum_append]
  simp [h]

/-- One receipt: it is recorded, and the budgets remain. -/
theorem finalize_one {log : List Event} {s : State} (h : Run log s) (hn : NonceNeverLowered log) (hb : Budget log s)
    {n : TransactionNonce} {i : LedgerBurnIndex} {l : List (Resubmittable SignedTx)} (hs : s.txs.sent.Has n i l)
    {receipt : Receipt} (hx : ∃ x ∈ l, x.transaction.hash = receipt.transactionHash)
    (evm : ∀ x ∈ l, x.transaction.hash = receipt.transactionHash →
      receipt.effectiveGasPrice ≤ x.transaction.tx.maxFeePerGas ∧ receipt.gasUsed ≤ x.transaction.tx.gasLimit)
    (hpos : ∀ q, s.txs.processed.get i = some (.erc20 q) → 0 < q.withdrawalAmount) :
    ∃ s' fin, applyEvent s (.finalizedTransaction i receipt) = .ok s' ∧
      s'.txs.finalized.getAlt i = some fin ∧ fin.receipt = receipt ∧ fin.signed.hash = receipt.transactionHash ∧
      (∀ j, j ≠ i → s'.txs.finalized.getAlt j = s.txs.finalized.getAlt j) ∧ s'.txs.processed = s.txs.processed ∧
      (∀ n' i' l', s'.txs.sent.Has n' i' l' ↔ i' ≠ i ∧ s.txs.sent.Has n' i' l') ∧
      Budget (log ++ [.finalizedTransaction i receipt]) s' := by
  obtain ⟨inv, tl, _⟩ := run_txInv h hn
  obtain ⟨x, hxl, hxh⟩ := hx
  obtain ⟨r, hr, hso⟩ := (run_sound h hn).s n i l x hs hxl
  have hidx := inv.procIdx i r hr
  have hfn : s.txs.finalized.getAlt i = none := by
    cases hf : s.txs.finalized.getAlt i with
    | none => rfl
    | some f =>
      obtain ⟨n', hf⟩ := (MKM.getAlt_eq inv.fw).1 hf
      exact absurd rfl (inv.sf _ _ _ _ _ _ hs hf).2
  have hlog : r.intoEvent ∈ log := (tl.acc r).2 (.inr (by rw [hidx]; exact hr))
  have hfee : owedFee s r.intoEvent = burnedForFee r := by
    cases r <;> (simp only [Request.burnIndex] at hidx; simp [Request.intoEvent, owedFee, burnedForFee, hidx, hfn])
  have hle : burnedForFee r ≤ total (owedFee s) log := by
    have := sum_drop (f := owedFee s) (g := fun _ => 0) (d := burnedForFee r) hlog (fun _ _ => Nat.zero_le _) (by rw [hfee]; omega)
    unfold total; womega
  have h1 := hb.native
  have h2 := hb.effective
  have h3 := hb.unspent
  have hbf : burnedForFee r < 2 ^ 256 - 1 := by womega
  have spent : ∀ x ∈ l, x.transaction.hash = receipt.transactionHash →
      feePaid ⟨x.transaction, receipt⟩ + valueSent ⟨x.transaction, receipt⟩ ≤ burnedForFee r ∧
      feeCharged s.txs.processed i ⟨x.transaction, receipt⟩ ≤ burnedForFee r ∧
      feePaid ⟨x.transaction, receipt⟩ ≤ feeCharged s.txs.processed i ⟨x.transaction, receipt⟩ := by
    intro x hx hh
    obtain ⟨e1, e2⟩ := evm x hx hh
    obtain ⟨d1, d2⟩ := C23_fee_covered h hn hs hx hr hbf e1 e2
    obtain ⟨r', hr', hso⟩ := (run_sound h hn).s n i l x hs hx
    rw [hr] at hr'; cases hr'
    have hp := hso.pay
    unfold feeCharged at d1 d2 ⊢
    rw [hr] at d1 d2 ⊢
    cases r with
    | native q =>
      have hp : NativeSound q x.transaction.tx := hp
      have ha := hp.amount hbf
      have hv : valueSent ⟨x.transaction, receipt⟩ ≤ x.transaction.tx.amount := by
        unfold valueSent; split
        · exact Nat.le_refl _
        · exact Nat.zero_le _
      simp only [burnedForFee] at *
      refine ⟨?_, ?_, ?_⟩ <;> womega
    | erc20 q =>
      have hp : Erc20Sound q x.transaction.tx := hp
      have hv : valueSent ⟨x.transaction, receipt⟩ = 0 := by
        unfold valueSent; simp only [hp.amount]; split <;> rfl
      simp only [burnedForFee] at *
      refine ⟨?_, ?_, ?_⟩ <;> womega
  have htok : ∀ q, r = .erc20 q → owedToken s q.erc20ContractAddress r.intoEvent = q.withdrawalAmount := by
    rintro q rfl
    simp only [Request.burnIndex] at hidx
    simp [Request.intoEvent, owedToken, hidx, hfn]
  obtain ⟨s', fin, ha, hf, hrec, _⟩ := C23_finalization_succeeds h hn hs ⟨x, hxl, hxh⟩ evm hr hbf
    (fun x hx hh => by
      obtain ⟨k1, k2, k3⟩ := spent x hx hh
      refine ⟨?_, ?_, ?_⟩ <;> womega)
    (fun q hq _ => by
      subst hq
      have k1 := hb.token q.erc20ContractAddress
      have k2 := sum_drop (f := owedToken s q.erc20ContractAddress) (g := fun _ => 0) (d := q.withdrawalAmount) hlog (fun _ _ => Nat.zero_le _)
        (by rw [htok q rfl]; omega)
      have k3 := hpos q hr
      unfold total at k1
      unfold tokenBalance at k1
      cases hb : s.erc20Balances.get q.erc20ContractAddress with
      | none => rw [hb] at k1; simp only [Option.getD_none] at k1; womega
      | some b => rw [hb] at k1; simp only [Option.getD_some] at k1; exact ⟨b, rfl, by womega⟩)
  obtain ⟨fin', g1, g2, g3, g4, _, g5, _, _, g6, g7, ⟨u, g8, g9⟩, g10⟩ := applyEvent_debit ha
  have hgf : s'.txs.finalized.getAlt i = some fin' := by
    show s'.txs.finalized.byAlt.get i = some fin'
    rw [g3, FMap.get_insert_self]
  rw [hf, Option.some.injEq] at hgf
  subst hgf
  have hq := applyEvent_txs ha
  simp only [txEvent] at hq
  obtain ⟨m, l', stx, sent, created, finalized, r', e1, e2, e3, e4, e5, ⟨o, e6⟩, _, e8, _, e10, e11⟩ :=
    recordFinalizedTransaction_ok inv.maps hq
  obtain ⟨rfl, rfl⟩ := MKM.Has.unique_alt inv.sw hs e1
  have hfin : fin = ⟨stx.transaction, receipt⟩ := by
    have : s'.txs.finalized = finalized := by rcases e11 with ⟨_, h⟩ | ⟨_, _, _, _, h⟩ <;> rw [h]
    have h8 := (MKM.tryInsert_ok.1 e8).2.2
    have hf : s'.txs.finalized.byAlt.get i = some fin := hf
    rw [this, h8] at hf
    simp only [FMap.get_insert_self, Option.some.injEq] at hf
    exact hf.symm
  have hsent : s'.txs.sent = sent := by rcases e11 with ⟨_, h⟩ | ⟨_, _, _, _, h⟩ <;> rw [h]
  have hother : ∀ j, j ≠ i → s'.txs.finalized.getAlt j = s.txs.finalized.getAlt j := by
    intro j hj
    show s'.txs.finalized.byAlt.get j = s.txs.finalized.byAlt.get j
    rw [g3, FMap.get_insert, if_neg (by first | exact hj | exact hj.symm)]
  obtain ⟨k1, k2, k3⟩ := spent stx e2 e3
  rw [← hfin] at k1 k2 k3
  have hkey : ∀ e ∈ log, owedFee s' e ≤ owedFee s e := by
    intro e he; clear he
    cases e <;> try exact Nat.le_refl _
    case acceptedNativeWithdrawalRequest q =>
      by_cases hj : q.ledgerBurnIndex = i
      · simp [owedFee, hj, hf]
      · simp only [owedFee, hother _ hj]; exact Nat.le_refl _
    case acceptedErc20WithdrawalRequest q =>
      by_cases hj : q.nativeLedgerBurnIndex = i
      · simp [owedFee, hj, hf]
      · simp only [owedFee, hother _ hj]; exact Nat.le_refl _
  have hkey' : ∀ c, ∀ e ∈ log, owedToken s' c e ≤ owedToken s c e := by
    intro c e he; clear he
    cases e <;> try exact Nat.le_refl _
    case acceptedErc20WithdrawalRequest q =>
      by_cases hj : q.nativeLedgerBurnIndex = i
      · simp [owedToken, hj, hf]
      · simp only [owedToken, hother _ hj]; exact Nat.le_refl _
  have hz : owedFee s' r.intoEvent = 0 := by
    cases r <;> (simp only [Request.burnIndex] at hidx; simp [Request.intoEvent, owedFee, hidx, hf])
  have hz' : ∀ c, owedToken s' c r.intoEvent = 0 := by
    intro c
    cases r <;> (simp only [Request.burnIndex] at hidx; simp [Request.intoEvent, owedToken, hidx, hf])
  have hdrop : total (owedFee s') log + burnedForFee r ≤ total (owedFee s) log :=
    sum_drop hlog hkey (by rw [hz, hfee]; omega)
  have hch : feeCharged s.txs.processed i fin ≤ burnedForFee r := k2
  have hR' : Run (log ++ [.finalizedTransaction i receipt]) s' := .event _ _ _ _ h (by trivial) ha
  refine ⟨s', fin, ha, hf, hrec, g5, hother, g4, ?_, ?_, ?_, ?_, fun c => ?_⟩
  · intro n' i' l''
    rw [hsent, MKM.removeEntry_has inv.sw e6, (inv.sN _ _ _ hs).2.2 stx e2]
    constructor
    · rintro ⟨k, hk⟩
      refine ⟨fun hh => k ?_, hk⟩
      subst hh
      exact (MKM.Has.unique_alt inv.sw hk hs).1
    · rintro ⟨k, hk⟩
      refine ⟨fun hh => k ?_, hk⟩
      subst hh
      exact (MKM.Has.unique_key hk hs).1
  · rw [total_snoc_zero rfl]; womega
  · rw [total_snoc_zero rfl]; womega
  · rw [total_snoc_zero rfl]; womega
  · rw [total_snoc_zero rfl]
    have t1 := hb.token c
    have t2 := g10 c
    have hn' : NonceNeverLowered (log ++ [.finalizedTransaction i receipt]) := nonceNeverLowered_snoc hn (by intro a; simp)
    have t3 := tokensSent_requested hR' hn' hf c
    have hpr : s'.txs.processed.get i = some r := by rw [g4]; exact hr
    have t4 : total (owedToken s' c) log + tokensSent c fin ≤ total (owedToken s c) log := by
      refine sum_drop hlog (hkey' c) ?_
      rw [hz' c, t3]
      unfold tokensRequested
      rw [hpr]
      cases r with
      | native q => cases fin.receipt.status <;> exact Nat.zero_le _
      | erc20 q =>
        simp only [Request.burnIndex] at hidx
        cases fin.receipt.status
        case failure => exact Nat.zero_le _
        case success =>
          simp only [Request.intoEvent, owedToken, hidx, hfn, true_and, Nat.zero_add]
          exact Nat.le_refl _
    womega

/-- All receipts. -/
theorem finalize_all : ∀ {rs : List (LedgerBurnIndex × Receipt)} {m : Minter}, Run m.log m.st → NonceNeverLowered m.log → Budget m.log m.st →
    (rs.map (·.1)).Nodup →
    (∀ i receipt, (i, receipt) ∈ rs → ∃ n l, m.st.txs.sent.Has n i l ∧ (∃ x ∈ l, x.transaction.hash = receipt.transactionHash) ∧
      (∀ x ∈ l, x.transaction.hash = receipt.transactionHash →
        receipt.effectiveGasPrice ≤ x.transaction.tx.maxFeePerGas ∧ receipt.gasUsed ≤ x.transaction.tx.gasLimit) ∧
      ∀ q, m.st.txs.processed.get i = some (.erc20 q) → 0 < q.withdrawalAmount) →
    ∃ m', m.processEvents (rs.map fun x => .finalizedTransaction x.1 x.2) = .ok m' ∧
      m'.log = m.log ++ rs.map (fun x => .finalizedTransaction x.1 x.2) ∧
      (∀ i receipt, (i, receipt) ∈ rs → ∃ fin, m'.st.txs.finalized.getAlt i = some fin ∧ fin.receipt = receipt ∧
        fin.signed.hash = receipt.transactionHash) ∧
      (∀ j, j ∉ rs.map (·.1) → m'.st.txs.finalized.getAlt j = m.st.txs.finalized.getAlt j) ∧
      ∀ n i l, m'.st.txs.sent.Has n i l ↔ i ∉ rs.map (·.1) ∧ m.st.txs.sent.Has n i l := by
  intro rs
  induction rs with
  | nil =>
    intro m _ _ _ _ _
    exact ⟨m, rfl, by simp, by simp, by simp, by simp⟩
  | cons y t ih =>
    intro m hR hn hb hnd hrs
    obtain ⟨i, receipt⟩ := y
    simp only [List.map_cons, List.nodup_cons] at hnd
    obtain ⟨n, l, h1, h2, h3, h4⟩ := hrs i receipt (by simp)
    obtain ⟨s', fin, k1, k2, k3, k4, k5, k6, k7, k8⟩ := finalize_one hR hn hb h1 h2 h3 h4
    have hR' : Run (m.log ++ [.finalizedTransaction i receipt]) s' := .event _ _ _ _ hR (by trivial) k1
    obtain ⟨m', j1, j2, j3, j4, j5⟩ := ih (m := ⟨s', m.log ++ [.finalizedTransaction i receipt]⟩) hR'
      (nonceNeverLowered_snoc hn (by intro a; simp)) k8 hnd.2 (by
        intro i' receipt' hm
        obtain ⟨n', l', e1, e2, e3, e4⟩ := hrs i' receipt' (by simp [hm])
        have hne : i' ≠ i := by
          rintro rfl
          exact hnd.1 (List.mem_map.2 ⟨_, hm, rfl⟩)
        exact ⟨n', l', (k7 _ _ _).2 ⟨hne, e1⟩, e2, e3, fun q hq => e4 q (by rw [k6] at hq; exact hq)⟩)
    refine ⟨m', ?_, ?_, ?_, ?_, ?_⟩
    · simp only [List.map_cons, Minter.processEvents, Minter.processEvent, k1, Res.ok_bind]
      exact j1
    · rw [j2]; simp
    · intro i' receipt' hm
      rcases List.mem_cons.1 hm with hm | hm
      · cases hm
        exact ⟨fin, (j4 i hnd.1).trans k2, k3, k4⟩
      · exact j3 i' receipt' hm
    · intro j hj
      simp only [List.map_cons, List.mem_cons, not_or] at hj
      rw [j4 j hj.2]
      exact k5 j hj.1
    · intro n' i' l'
      rw [j5, k7]
      simp only [List.map_cons, List.mem_cons, not_or]
      constructor
      · rintro ⟨a, b, c⟩; exact ⟨⟨b, a⟩, c⟩
      · rintro ⟨⟨b, a⟩, c⟩; exact ⟨a, b, c⟩

/-! ## Sent transactions change only when withdrawals are processed -/

theorem txEvent_sent {t t' : Transactions} {e : Event} (w : t.MapsWF) (h : txEvent t e = .ok t') (he : e.origin ≠ .retrieve) :
    t'.sent = t.sent := by
  cases e <;> simp only [txEvent] at h
  case acceptedNativeWithdrawalRequest r => obtain ⟨rfl, _⟩ := Transactions.recordWithdrawalRequest_ok w h; rfl
  case acceptedErc20WithdrawalRequest r => obtain ⟨rfl, _⟩ := Transactions.recordWithdrawalRequest_ok w h; rfl
  case reimbursedNativeWithdrawal => obtain ⟨_, _, _, rfl⟩ := Transactions.recordFinalizedReimbursement_ok h; rfl
  case reimbursedErc20Withdrawal => obtain ⟨_, _, _, rfl⟩ := Transactions.recordFinalizedReimbursement_ok h; rfl
  case failedErc20WithdrawalRequest r => obtain ⟨_, _, _, rfl⟩ := Transactions.recordReimbursementRequest_ok h; rfl
  case upgrade a => cases h; unfold withNonce; split <;> rfl
  case quarantinedReimbursement x => cases h; rfl
  all_goals first
    | exact absurd rfl he
    | (cases h; rfl)

theorem Grew.sent {o : Origin} {m m' : Minter} (h : Grew o m m') (ht : Tracks m.log m.st) (ho : o ≠ .retrieve) :
    m'.st.txs.sent = m.st.txs.sent := by
  obtain ⟨es, h1, h2⟩ := h.ext
  have ht' := h.tracks ht
  rw [h1] at ht'
  obtain ⟨s₀, s₀', e0, e1, e2, e3⟩ := ht.between' ht'
  have : (∃ l, KnownInv l s₀'.txs) ∧ s₀'.txs.sent = s₀.txs.sent := by
    refine applyEvents_induct (P := fun x => (∃ l, KnownInv l x.txs) ∧ x.txs.sent = s₀.txs.sent) (fun e he a b hp ha => ?_)
      ⟨⟨_, known_of_replay e0⟩, rfl⟩ e3
    obtain ⟨⟨l, hl⟩, hp⟩ := hp
    have hx := applyEvent_txs ha
    exact ⟨⟨_, hl.event hx⟩, (txEvent_sent hl.maps hx (by rw [h2 e he]; exact ho)).trans hp⟩
  rw [e1, e2]
  exact this.2

/-- What a task that waits for receipts relies on: it asked for the versions of the mined transactions. -/
def Task.ReceiptClaim (s : State) : Task → Prop
  | .ext (.retrieveReceipts f) => ∃ count, s.txs.sentToFinalize count = .ok f
  | _ => True

def Next.ReceiptClaim (s : State) : Next → Prop
  | .await t => t.ReceiptClaim s
  | .finish _ => True

theorem Task.ReceiptClaim.mono {s s' : State} (h : s'.txs.sent = s.txs.sent) {t : Task} (hc : t.ReceiptClaim s) : t.ReceiptClaim s' := by
  unfold Task.ReceiptClaim Transactions.sentToFinalize at *
  rw [h]; exact hc

theorem Task.receiptClaim_of_running {s : State} {t : Task} (h : TaskType.retrieveEth ∉ t.running) : t.ReceiptClaim s := by
  cases t with
  | ledger t => trivial
  | ext t => cases t <;> first | trivial | (simp [Task.running] at h)

theorem Next.receiptClaim_of_running {s : State} {n : Next} (h : TaskType.retrieveEth ∉ n.running) : n.ReceiptClaim s := by
  cases n with
  | finish r => trivial
  | await t => exact Task.receiptClaim_of_running h

theorem retrieveSend_receiptClaim {c c' : Mem} {count : Option TransactionCount} {n : Next} (h : c.retrieveSend count = .ok (c', n)) (s : State) :
    n.ReceiptClaim s := by
  have fin : c.retrieveFinalize.2.ReceiptClaim s := by unfold Mem.retrieveFinalize; split <;> trivial
  unfold Mem.retrieveSend at h
  split at h
  · simp only [Except.ok.injEq] at h
    rw [h] at fin; exact fin
  · simp only [Res.bind_ok] at h
    obtain ⟨b, hb, h⟩ := h
    split at h
    · simp only [Res.pure_ok] at h
      rw [h] at fin; exact fin
    · cases h; trivial

theorem answer_receiptClaim {c c' : Mem} {t : ExtTask} {a : ExtAnswer} {now : Nat} {n : Next}
    (h : t.resume c now a = some (.ok (c', n))) : n.ReceiptClaim c'.m.st := by
  have fin : ∀ (c : Mem) (s : State), c.retrieveFinalize.2.ReceiptClaim s := by
    intro c s; unfold Mem.retrieveFinalize; split <;> trivial
  unfold ExtTask.resume at h
  split at h <;> simp only [Option.some.injEq, reduceCtorEq] at h
  · simp only [Res.bind_ok, Res.pure_ok] at h
    obtain ⟨w, hw, h⟩ := h
    unfold Mem.scraperStep at h
    simp only at h
    split at h <;> (cases h; trivial)
  · simp only [Res.bind_ok, Res.pure_ok] at h
    obtain ⟨w, hw, h⟩ := h
    unfold Mem.scraperStep at h
    simp only at h
    split at h <;> (cases h; trivial)
  · cases h; trivial
  · unfold Mem.onRetrieveGas at h
    split at h <;> (cases h; trivial)
  · simp only [Mem.retrieveCreate, Res.bind_ok] at h
    obtain ⟨m1, h1, m2, h2, b, hb, h⟩ := h
    split at h
    · exact retrieveSend_receiptClaim h _
    · cases h; trivial
  · simp only [Mem.onSignatures, Res.bind_ok] at h
    obtain ⟨m1, h1, h⟩ := h
    exact retrieveSend_receiptClaim h _
  · simp only [Except.ok.injEq] at h
    have h2 := fin c
    rw [h] at h2
    exact h2 _
  · unfold Mem.onFinalizedCount at h
    split at h
    · cases h; trivial
    · rename_i cnt
      simp only [Res.bind_ok] at h
      obtain ⟨f, hf, h⟩ := h
      split at h
      · simp only [Mem.onReceipts, Res.bind_ok, Res.pure_ok] at h
        obtain ⟨m, hm, h⟩ := h
        cases h; trivial
      · cases h; exact ⟨_, hf⟩
  · simp only [Mem.onReceipts, Res.bind_ok, Res.pure_ok] at h
    obtain ⟨m, hm, h⟩ := h
    cases h; trivial
  · rcases Mem.onErc20Gas_cases h with ⟨_, _, rfl⟩ | ⟨_, _, _, ⟨_, _, _, _, rfl⟩ | ⟨_, rfl⟩⟩ <;> trivial

theorem start_receiptClaim {c c' : Mem} {msg : Message} {now : Nat} {n : Next} (h : msg.run c now = .ok (c', n)) (s : State) :
    n.ReceiptClaim s := by
  cases msg <;> simp only [Message.run] at h
  case mint =>
    unfold Mem.startMint at h
    split at h
    · cases h; trivial
    · rcases Mem.mintLoop_next h with rfl | ⟨_, _, _, _, _, _, rfl⟩ <;> trivial
  case reimbursement =>
    unfold Mem.startReimbursement at h
    split at h
    · cases h; trivial
    · rcases Mem.reimburseLoop_next h with rfl | ⟨_, _, _, _, rfl⟩ <;> trivial
  case retrieve g =>
    unfold Mem.startRetrieve at h
    split at h
    · cases h; trivial
    · split at h
      · cases h; trivial
      · split at h
        · cases h; trivial
        · split at h <;> (cases h; trivial)
  case scrape => split at h <;> (cases h; trivial)
  case gas => split at h <;> (cases h; trivial)
  case withdrawNative =>
    obtain ⟨c1, _, h⟩ := Mem.startNative_cases h
    rcases h with ⟨_, rfl, rfl⟩ | ⟨_, _, _, _, rfl, ⟨_, _, _, _, rfl⟩ | ⟨_, rfl⟩⟩ <;> trivial
  case withdrawErc20 =>
    have gas : ∀ {c c' : Mem} {q : Erc20Call} {g : Option GasFeeEstimate} {now : Nat} {n : Next},
        c.onErc20Gas q g now = .ok (c', n) → n.ReceiptClaim s := by
      intro c c' q g now n h
      rcases Mem.onErc20Gas_cases h with ⟨_, _, rfl⟩ | ⟨_, _, _, ⟨_, _, _, _, rfl⟩ | ⟨_, rfl⟩⟩ <;> trivial
    obtain ⟨c1, _, h⟩ := Mem.startErc20_cases h
    rcases h with ⟨_, rfl, rfl⟩ | ⟨_, _, _, _, _, ⟨_, _, h⟩ | ⟨_, h⟩ | ⟨_, h, rfl⟩⟩
    · trivial
    · exact gas h
    · exact gas h
    · trivial
  case addToken =>
    simp only [Res.bind_ok, Res.pure_ok] at h
    obtain ⟨x, _, h⟩ := h
    cases h; trivial

theorem receiptClaim {w : World} (h : Reachable w) : ∀ p ∈ w.tasks, p.task.ReceiptClaim w.mem.m.st := by
  induction h with
  | init id a s blocks hs hb => exact fun p hp => by cases hp
  | step w w' hr hs I =>
    have T := tracks hr
    have L := lockInv hr
    have others : ∀ {pre post : List Pending} {p : Pending} {s : State}, w.tasks = pre ++ p :: post →
        (TaskType.retrieveEth ∈ p.task.running ∨ s.txs.sent = w.mem.m.st.txs.sent) →
        ∀ q ∈ pre ++ post, q.task.ReceiptClaim s := by
      intro pre post p s ht hk q hq
      rcases hk with hk | hk
      · rw [ht] at L
        exact Task.receiptClaim_of_running (not_running_of_split L hk q hq)
      · refine (I q ?_).mono hk
        rw [ht]
        rcases List.mem_append.1 hq with hq | hq
        · simp [hq]
        · simp [hq]
    have adv : ∀ {pre post : List Pending} {id : Nat} {n : Next} {s : State}, (∀ q ∈ pre ++ post, q.task.ReceiptClaim s) → n.ReceiptClaim s →
        ∀ q ∈ pre ++ n.pending id ++ post, q.task.ReceiptClaim s := by
      intro pre post id n s h1 h2 q hq
      simp only [List.mem_append] at hq
      rcases hq with (hq | hq) | hq
      · exact h1 q (by simp [hq])
      · cases n with
        | finish r => cases hq
        | await t =>
          simp only [Next.pending, List.mem_singleton] at hq
          subst hq; exact h2
      · exact h1 q (by simp [hq])
    have ledger : ∀ {pre post : List Pending} {id : Nat} {t : LedgerTask} {a a' : Option LedgerAnswer},
        w.tasks = pre ++ ⟨id, .ledger t, a⟩ :: post → ∀ q ∈ pre ++ ⟨id, .ledger t, a'⟩ :: post, q.task.ReceiptClaim w.mem.m.st := by
      intro pre post id t a a' ht q hq
      rcases List.mem_append.1 hq with hq | hq
      · exact I q (by rw [ht]; simp [hq])
      · rcases List.mem_cons.1 hq with rfl | hq
        · trivial
        · exact I q (by rw [ht]; simp [hq])
    have clean : ∀ {t : Task} {c : Mem}, t.cleanup w.mem = .ok c → c.m.st.txs.sent = w.mem.m.st.txs.sent := by
      intro t c hc
      cases t with
      | ledger t => exact (Task.cleanup_grew hc).sent T (by cases t <;> simp [Task.origin, LedgerTask.origin])
      | ext t => cases t <;> simp only [Task.cleanup, Except.ok.injEq] at hc <;> (subst hc; rfl)
    cases hs with
    | start msg now c n hty hrun =>
      have hcr : c.m.st.txs.sent = w.mem.m.st.txs.sent := by
        by_cases hm : c.m = w.mem.m
        · rw [hm]
        · obtain ⟨caller, arg, t, rfl, _⟩ := (Message.run_news hrun).resolve_left hm
          exact (Message.run_grew hrun).sent T (by simp [Message.origin])
      refine adv (pre := w.tasks) (post := []) ?_ (start_receiptClaim hrun _)
      rw [List.append_nil]
      exact fun q hq => (I q hq).mono hcr
    | startTrap msg now e _ _ => simpa [World.drop, World.begin] using I
    | execute pre post id t ht _ => exact ledger ht
    | refuse pre post id t e ht _ => exact ledger ht
    | reject pre post id t ht => exact ledger ht
    | deliver pre post id t a now c n ht hrun =>
      have ho : t.origin ≠ .retrieve := by cases t <;> simp [LedgerTask.origin]
      refine adv (others ht (.inr ((LedgerTask.resume_grew hrun).sent T ho))) (Next.receiptClaim_of_running fun hh => ?_)
      have := (LedgerTask.resume_locks hrun).run _ hh
      cases t <;> simp [Task.running] at this
    | deliverTrap pre post id t a now e c ht _ hc => exact others ht (.inr (clean hc))
    | kill pre post id t a c ht hc => exact others ht (.inr (clean hc))
    | answer pre post id t o a now c n ht hty hrun =>
      refine adv (others ht ?_) (answer_receiptClaim hrun)
      by_cases ho : t.origin = .retrieve
      · by_cases hk : TaskType.retrieveEth ∈ (Task.ext t).running
        · exact .inl hk
        · cases t <;> simp [ExtTask.origin, Task.running] at ho hk
          refine .inr ?_
          cases a <;> simp only [ExtTask.resume, Option.some.injEq, reduceCtorEq] at hrun
          cases hrun; rfl
      · exact .inr ((ExtTask.resume_grew hrun).sent T ho)
    | answerTrap pre post id t o a now e c ht _ _ hc => exact others ht (.inr (clean hc))
    | killExt pre post id t o c ht hc => exact others ht (.inr (clean hc))
    | foreign call _ => exact I
    | upgrade arg log s ht hp =>
      intro p hp
      have : p ∈ w.tasks := hp
      rw [ht] at this; cases this

end
end EvmMinter
