import Verif.Lemmas.Shift
/-!
# Everything in the withdrawal pipeline goes back to an accepted request

Unlike the invariants of Lemmas/TxInv.lean, these hold for all logs, also if an upgrade lowers the next nonce.
-/

namespace EvmMinter

/-- The event that accepts the request. -/
def Request.event : Request → Event
  | .native r => .acceptedNativeWithdrawalRequest r
  | .erc20 r => .acceptedErc20WithdrawalRequest r

/-- A request with this burn index was accepted. -/
def KnownIndex (log : List Event) (i : LedgerBurnIndex) : Prop := ∃ r : Request, r.burnIndex = i ∧ r.event ∈ log

/-- The reimbursement is one of an accepted or failed request. -/
def KnownReimb (log : List Event) (x : ReimbIndex) : Prop :=
  (∃ r : Request, x = .ofRequest r ∧ r.event ∈ log) ∨
    ∃ r, x = .native r.ledgerBurnIndex ∧ .failedErc20WithdrawalRequest r ∈ log

structure KnownInv (log : List Event) (t : Transactions) : Prop where
  maps : t.MapsWF
  pending : ∀ r ∈ t.pending, r.event ∈ log
  processed : ∀ {i r}, t.processed.get i = some r → r.burnIndex = i ∧ r.event ∈ log
  created : ∀ {n i c}, t.created.Has n i c → KnownIndex log i
  sent : ∀ {n i l}, t.sent.Has n i l → KnownIndex log i
  finalized : ∀ {n i f}, t.finalized.Has n i f → KnownIndex log i
  maybe : ∀ {i u}, t.maybeReimburse.get i = some u → KnownIndex log i
  requests : ∀ {x r}, t.reimbursementRequests.get x = some r → r.ledgerBurnIndex = x.burnInBlock ∧ KnownReimb log x
  reimbursed : ∀ {x r}, t.reimbursed.get x = some r → KnownReimb log x ∨ .quarantinedReimbursement x ∈ log

theorem KnownIndex.mono {log log' : List Event} (h : ∀ e ∈ log, e ∈ log') {i : LedgerBurnIndex} (hk : KnownIndex log i) : KnownIndex log' i := by
  obtain ⟨r, h1, h2⟩ := hk
  exact ⟨r, h1, h _ h2⟩

theorem KnownReimb.mono {log log' : List Event} (h : ∀ e ∈ log, e ∈ log') {x : ReimbIndex} (hk : KnownReimb log x) : KnownReimb log' x := by
  rcases hk with ⟨r, h1, h2⟩ | ⟨r, h1, h2⟩
  · exact .inl ⟨r, h1, h _ h2⟩
  · exact .inr ⟨r, h1, h _ h2⟩

theorem KnownInv.mono {log log' : List Event} {t : Transactions} (h : ∀ e ∈ log, e ∈ log') (I : KnownInv log t) : KnownInv log' t :=
  ⟨I.maps, fun r hr => h _ (I.pending r hr), fun hr => ⟨(I.processed hr).1, h _ (I.processed hr).2⟩, fun hc => (I.created hc).mono h,
    fun hc => (I.sent hc).mono h, fun hc => (I.finalized hc).mono h, fun hc => (I.maybe hc).mono h,
    fun hr => ⟨(I.requests hr).1, (I.requests hr).2.mono h⟩, fun hr => (I.reimbursed hr).imp (·.mono h) (h _)⟩

variable [Keccak]

theorem KnownInv.event {log : List Event} {t t' : Transactions} {e : Event} (I0 : KnownInv log t) (h : txEvent t e = .ok t') :
    KnownInv (log ++ [e]) t' := by
  have sub : ∀ e' ∈ log, e' ∈ log ++ [e] := fun e' he => List.mem_append_left _ he
  have I := I0.mono sub
  have self : e ∈ log ++ [e] := by simp
  have req : ∀ {r : Request}, r.event = e → t.recordWithdrawalRequest r = .ok t' → KnownInv (log ++ [e]) t' := by
    intro r hre hr
    obtain ⟨rfl, _⟩ := Transactions.recordWithdrawalRequest_ok I0.maps hr
    refine ⟨⟨I.maps.cw, I.maps.sw, I.maps.fw⟩, fun q hq => ?_, I.processed, I.created, I.sent, I.finalized, I.maybe, I.requests, I.reimbursed⟩
    rcases List.mem_append.1 hq with hq | hq
    · exact I.pending q hq
    · rw [List.mem_singleton] at hq; subst hq; rw [hre]; exact self
  have fin : ∀ {x : ReimbIndex} {b : LedgerMintIndex}, t.recordFinalizedReimbursement x b = .ok t' → KnownInv (log ++ [e]) t' := by
    intro x b hr
    obtain ⟨r, h1, h2, rfl⟩ := Transactions.recordFinalizedReimbursement_ok hr
    refine ⟨⟨I.maps.cw, I.maps.sw, I.maps.fw⟩, I.pending, I.processed, I.created, I.sent, I.finalized, I.maybe, fun {y q} hy => ?_, fun {y q} hy => ?_⟩
    · simp only [FMap.get_erase] at hy
      split at hy
      · cases hy
      · exact I.requests hy
    · simp only [FMap.get_insert] at hy
      split at hy
      · rename_i hx; subst hx; exact .inl (I.requests h1).2
      · exact I.reimbursed hy
  cases e <;> simp only [txEvent] at h
  case acceptedNativeWithdrawalRequest r => exact req (r := .native r) rfl h
  case acceptedErc20WithdrawalRequest r => exact req (r := .erc20 r) rfl h
  case reimbursedNativeWithdrawal r => exact fin h
  case reimbursedErc20Withdrawal n l r => exact fin h
  case createdTransaction i tx =>
    obtain ⟨r, cr, k1, _, k2, _, _, _, _, _, _, k3, rfl⟩ := Transactions.recordCreatedTransaction_ok h
    have known : KnownIndex (log ++ [.createdTransaction i tx]) i := ⟨r, k2, I.pending r k1⟩
    refine ⟨⟨MKM.tryInsert_wf I.maps.cw k3, I.maps.sw, I.maps.fw⟩, fun q hq => I.pending q (Transactions.mem_pendingWithout.1 hq).1,
      fun {j q} hq => ?_, fun hc => ?_, I.sent, I.finalized, fun {j u} hu => ?_, I.requests, I.reimbursed⟩
    · simp only [FMap.get_insert] at hq
      split at hq
      · rename_i hj; cases hq; exact ⟨k2.trans hj.symm, I.pending _ k1⟩
      · exact I.processed hq
    · rcases (MKM.tryInsert_has I.maps.cw k3).1 hc with ⟨_, rfl, _⟩ | hc
      · exact known
      · exact I.created hc
    · simp only [FMap.get_insert] at hu
      split at hu
      · rename_i hj; rw [hj]; exact known
      · exact I.maybe hu
  case signedTransaction i tx =>
    obtain ⟨j, c, cr, st, k1, _, ⟨o, k2⟩, k3, rfl⟩ := Transactions.recordSignedTransaction_ok h
    have hs : st.WF ∧ ∀ {n a l}, st.Has n a l → KnownIndex (log ++ [.signedTransaction i tx]) a := by
      rcases k3 with ⟨a, l, hl, rfl⟩ | ⟨_, hi⟩
      · refine ⟨MKM.update_wf I.maps.sw hl, fun {n a' l'} ha => ?_⟩
        rcases (MKM.update_has I.maps.sw hl).1 ha with ⟨_, rfl, _⟩ | ⟨_, ha⟩
        · exact I.sent hl
        · exact I.sent ha
      · refine ⟨MKM.tryInsert_wf I.maps.sw hi, fun {n a' l'} ha => ?_⟩
        rcases (MKM.tryInsert_has I.maps.sw hi).1 ha with ⟨_, rfl, _⟩ | ha
        · exact I.created k1
        · exact I.sent ha
    exact ⟨⟨MKM.removeEntry_wf I.maps.cw k2, hs.1, I.maps.fw⟩, I.pending, I.processed,
      fun hc => I.created ((MKM.removeEntry_has I.maps.cw k2).1 hc).2, hs.2, I.finalized, I.maybe, I.requests, I.reimbursed⟩
  case replacedTransaction i tx =>
    obtain ⟨j, l, last, c1, c2, k1, _, _, ⟨o, k2⟩, k3, rfl⟩ := Transactions.recordResubmitTransaction_ok h
    have w1 := MKM.removeEntry_wf I.maps.cw k2
    refine ⟨⟨MKM.tryInsert_wf w1 k3, I.maps.sw, I.maps.fw⟩, I.pending, I.processed, fun hc => ?_, I.sent, I.finalized, I.maybe, I.requests, I.reimbursed⟩
    rcases (MKM.tryInsert_has w1 k3).1 hc with ⟨_, rfl, _⟩ | hc
    · exact I.sent k1
    · exact I.created ((MKM.removeEntry_has I.maps.cw k2).1 hc).2
  case finalizedTransaction i receipt =>
    obtain ⟨n, l, stx, st, cr, fi, r, k1, _, _, _, _, ⟨o, k2⟩, ⟨o', k3⟩, k4, _, k5, k6⟩ := Transactions.recordFinalizedTransaction_ok I.maps h
    have w : Transactions.MapsWF { t with sent := st, created := cr, finalized := fi } :=
      ⟨MKM.removeEntry_wf I.maps.cw k3, MKM.removeEntry_wf I.maps.sw k2, MKM.tryInsert_wf I.maps.fw k4⟩
    have hc : ∀ {n i c}, cr.Has n i c → KnownIndex (log ++ [.finalizedTransaction i receipt]) i := fun hc =>
      I0.created ((MKM.removeEntry_has I.maps.cw k3).1 hc).2 |>.mono (fun e he => List.mem_append_left _ he)
    have hs : ∀ {n i l}, st.Has n i l → KnownIndex (log ++ [.finalizedTransaction i receipt]) i := fun hc =>
      I0.sent ((MKM.removeEntry_has I.maps.sw k2).1 hc).2 |>.mono (fun e he => List.mem_append_left _ he)
    have hf : ∀ {n j f}, fi.Has n j f → KnownIndex (log ++ [.finalizedTransaction i receipt]) j := by
      intro n j f hh
      rcases (MKM.tryInsert_has I.maps.fw k4).1 hh with ⟨_, rfl, _⟩ | hh
      · exact I.sent k1
      · exact I.finalized hh
    have hm : ∀ {j u}, (t.maybeReimburse.erase i).get j = some u → KnownIndex (log ++ [.finalizedTransaction i receipt]) j := by
      intro j u hu
      simp only [FMap.get_erase] at hu
      split at hu
      · cases hu
      · exact I.maybe hu
    have hc' : ∀ {n j c}, cr.Has n j c → KnownIndex (log ++ [.finalizedTransaction i receipt]) j := fun hc =>
      I.created ((MKM.removeEntry_has I.maps.cw k3).1 hc).2
    have hs' : ∀ {n j l}, st.Has n j l → KnownIndex (log ++ [.finalizedTransaction i receipt]) j := fun hc =>
      I.sent ((MKM.removeEntry_has I.maps.sw k2).1 hc).2
    rcases k6 with ⟨_, rfl⟩ | ⟨_, _, _, _, rfl⟩
    · exact ⟨⟨w.cw, w.sw, w.fw⟩, I.pending, I.processed, hc', hs', hf, hm, I.requests, I.reimbursed⟩
    · refine ⟨⟨w.cw, w.sw, w.fw⟩, I.pending, I.processed, hc', hs', hf, hm, fun {x q} hx => ?_, I.reimbursed⟩
      simp only [FMap.get_insert] at hx
      split at hx
      · rename_i hxe
        cases hx
        subst hxe
        obtain ⟨p1, p2⟩ := I.processed k5
        refine ⟨?_, .inl ⟨r, rfl, p2⟩⟩
        cases r with
        | native q => exact p1.symm
        | erc20 q => rfl
      · exact I.requests hx
  case failedErc20WithdrawalRequest r =>
    obtain ⟨_, _, _, rfl⟩ := Transactions.recordReimbursementRequest_ok h
    refine ⟨⟨I.maps.cw, I.maps.sw, I.maps.fw⟩, I.pending, I.processed, I.created, I.sent, I.finalized, I.maybe, fun {x q} hx => ?_, I.reimbursed⟩
    simp only [FMap.get_insert] at hx
    split at hx
    · rename_i hxe
      cases hx
      subst hxe
      exact ⟨rfl, .inr ⟨r, rfl, self⟩⟩
    · exact I.requests hx
  case quarantinedReimbursement x =>
    cases h
    refine ⟨⟨I.maps.cw, I.maps.sw, I.maps.fw⟩, I.pending, I.processed, I.created, I.sent, I.finalized, I.maybe, fun {y q} hy => ?_, fun {y q} hy => ?_⟩
    · simp only [Transactions.recordQuarantinedReimbursement, FMap.get_erase] at hy
      split at hy
      · cases hy
      · exact I.requests hy
    · simp only [Transactions.recordQuarantinedReimbursement, FMap.get_insert] at hy
      split at hy
      · rename_i hx; subst hx; exact .inr self
      · exact I.reimbursed hy
  case upgrade a =>
    cases h
    cases a.nextTransactionNonce with
    | none => exact I
    | some n => exact ⟨⟨I.maps.cw, I.maps.sw, I.maps.fw⟩, I.pending, I.processed, I.created, I.sent, I.finalized, I.maybe, I.requests, I.reimbursed⟩
  all_goals (cases h; exact I)

theorem known_of_replay {log : List Event} {s : State} (h : replay log = .ok s) : KnownInv log s.txs := by
  refine replay_induct (P := fun log s => KnownInv log s.txs) ?_ ?_ h
  · intro a s hs
    rw [(ofInit_ok hs).2.2.2.2.2.2.2.1]
    constructor <;> simp [Transactions.new, MKM.not_has_empty]
    exact ⟨MKM.wf_empty, MKM.wf_empty, MKM.wf_empty⟩
  · intro log s e s' _ ih ha
    exact ih.event (applyEvent_txs ha)

theorem known_of_tracks {log : List Event} {s : State} (h : Tracks log s) : KnownInv log s.txs := by
  obtain ⟨s₀, h1, _, h3, h4⟩ := h
  have I := known_of_replay h1
  rw [h4]
  exact ⟨⟨I.maps.cw, I.maps.sw, I.maps.fw⟩, fun r hr => I.pending r (h3.mem_iff.2 hr), I.processed, I.created, I.sent, I.finalized,
    I.maybe, I.requests, I.reimbursed⟩

end EvmMinter
