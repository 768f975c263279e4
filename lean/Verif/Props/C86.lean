import Verif.Props.C33
import Verif.Spec.ExampleRun
import Verif.Spec.Forward
/-!
# C86: the status of a withdrawal only moves forward
-/

namespace EvmMinter

open Spec Transactions

theorem Spec.Forward.refl (a : Status) : Forward a a := by
  cases a <;> simp [Forward]

theorem Spec.Forward.trans {a b c : Status} (h : Forward a b) (h' : Forward b c) : Forward a c := by
  cases a <;> simp only [Forward] at h ⊢
  case pending => cases b <;> simp_all [Forward] <;> rcases h' with rfl | ⟨_, _, rfl⟩ <;> simp
  case txCreated => cases b <;> simp_all [Forward] <;> rcases h' with rfl | ⟨_, _, rfl⟩ <;> simp
  case txSent => cases b <;> simp_all [Forward] <;> rcases h' with rfl | ⟨_, _, rfl⟩ <;> simp
  case success => subst h; exact h'
  case reimbursed => subst h; exact h'
  case pendingReimbursement =>
    rcases h with rfl | ⟨_, _, rfl⟩
    · exact h'
    · exact .inr ⟨_, _, h'⟩

section
variable [Keccak]

/-- What has been sent has status `TxCreated` or `TxSent`. -/
theorem sent_status {log : List Event} {s : State} (h : Run log s) (hn : NonceNeverLowered log) {i : LedgerBurnIndex} {st : Status}
    (hs : Stat s.txs i st) {n : TransactionNonce} {l : List (Resubmittable SignedTx)} (hl : s.txs.sent.Has n i l)
    (hne : l ≠ []) : st = .txCreated ∨ ∃ hash, st = .txSent hash := by
  have same : ∀ st', Stat s.txs i st' → st = st' := fun st' hs' =>
    Except.ok.inj ((status_of_stat h hn hs).symm.trans (status_of_stat h hn hs'))
  by_cases hc : ∃ m c, s.txs.created.Has m i c
  · obtain ⟨m, c, hc⟩ := hc
    exact .inl (same _ (.created m c hc))
  · refine .inr ⟨_, same _ (.sent n l (l.getLast hne) (fun m c h => hc ⟨m, c, h⟩) hl (List.getLast?_eq_some_getLast hne))⟩

/-- One event. If it takes back what was sent, then it is a resubmission. -/
theorem forward_step {log : List Event} {s s' : State} {e : Event} (hr : Run log s) (hn : NonceNeverLowered log)
    (he : Emits s e) (ha : applyEvent s e = .ok s') (i : LedgerBurnIndex) {st : Status} (h : Stat s.txs i st) :
    Forward st (statusStep i st e) ∧
      (statusStep i st e = .txCreated → st = .txCreated ∨ st = .pending ∨ ∃ tx, e = .replacedTransaction i tx) := by
  obtain ⟨inv, hl, _⟩ := run_txInv hr hn
  have ht := applyEvent_txs ha
  have same : ∀ st', Stat s.txs i st' → st = st' := fun st' hs' =>
    Except.ok.inj ((status_of_stat hr hn h).symm.trans (status_of_stat hr hn hs'))
  have stay : Forward st st ∧ (st = .txCreated → st = .txCreated ∨ st = .pending ∨ ∃ tx, e = .replacedTransaction i tx) :=
    ⟨.refl st, .inl⟩
  have accept : ∀ r : Request, s.txs.recordWithdrawalRequest r = .ok s'.txs → r.burnIndex = i → Forward st .pending := by
    rintro r ht rfl
    obtain ⟨_, h1, h2, h3, h4⟩ := recordWithdrawalRequest_ok inv.maps ht
    cases h with
    | notFound => trivial
    | pending r' a b => exact absurd b (h1 r' a)
    | created n c a => exact absurd a (h2 n c)
    | sent n l x _ a => exact absurd a (h3 n l)
    | success n f a => exact absurd a (h4 n f)
    | owed n f _ a => exact absurd a (h4 n f)
    | paid n f _ _ a => exact absurd a (h4 n f)
  have pay : ∀ amount block, Forward st (st.pay amount block) ∧
      (st.pay amount block = .txCreated → st = .txCreated ∨ st = .pending ∨ ∃ tx, e = .replacedTransaction i tx) := by
    intro amount block
    cases st <;> simp [Status.pay, Forward]
  cases e <;> simp only [txEvent] at ht <;> simp only [statusStep]
  case acceptedNativeWithdrawalRequest r =>
    split
    · rename_i hb; exact ⟨accept (.native r) ht hb, by simp⟩
    · exact stay
  case acceptedErc20WithdrawalRequest r =>
    split
    · rename_i hb; exact ⟨accept (.erc20 r) ht hb, by simp⟩
    · exact stay
  case createdTransaction j tx =>
    split
    · rename_i hj
      subst hj
      obtain ⟨r, created, e1, _, e2, _⟩ := recordCreatedTransaction_ok ht
      rw [same _ (.pending r e1 e2)]
      exact ⟨by simp [Forward], fun _ => .inr (.inl rfl)⟩
    · exact stay
  case signedTransaction j stx =>
    split
    · rename_i hj
      subst hj
      obtain ⟨c, he1, _⟩ := he
      rw [MKM.getEntry_eq] at he1
      rw [same _ (.created _ c he1)]
      exact ⟨by simp [Forward], by simp⟩
    · exact stay
  case replacedTransaction j tx =>
    split
    · rename_i hj
      subst hj
      obtain ⟨l, last, g, _, he1, he2, _⟩ := he
      rw [MKM.getEntry_eq] at he1
      have hne : l ≠ [] := by rintro rfl; cases he2
      refine ⟨?_, fun _ => .inr (.inr ⟨tx, rfl⟩)⟩
      rcases sent_status hr hn h he1 hne with rfl | ⟨_, rfl⟩ <;> simp [Forward]
    · exact stay
  case finalizedTransaction j rc =>
    split
    · rename_i hj
      subst hj
      have hs := finStep inv (e := .finalizedTransaction j rc) (by simp) (by simpa only [txEvent] using ht)
      cases hs with
      | finalize _ _ _ m l y r a1 a2 =>
        have hne : l ≠ [] := by rintro rfl; cases a2
        have := sent_status hr hn h a1 hne
        constructor
        · rcases this with rfl | ⟨_, rfl⟩ <;> cases rc.status <;> simp [Forward]
        · cases rc.status <;> simp
      | other _ _ hk => exact absurd hk id
      | paid _ _ _ _ _ hk => rcases hk with ⟨_, hk, _⟩ | ⟨_, _, _, hk, _⟩ <;> cases hk
    · exact stay
  case reimbursedNativeWithdrawal q =>
    split
    · exact pay _ _
    · exact stay
  case reimbursedErc20Withdrawal n l q =>
    split
    · exact pay _ _
    · exact stay
  all_goals exact stay

theorem forward_log {all : List Event} {s : State} (h : Run all s) (hn : NonceNeverLowered all) (i : LedgerBurnIndex) :
    ∀ log more, all = log ++ more → Forward (statusOf log i) (statusOf all i) ∧
      (∀ hash, statusOf log i = .txSent hash → statusOf all i = .txCreated → ∃ tx, .replacedTransaction i tx ∈ more) := by
  refine run_event_induct (P := fun all _ => NonceNeverLowered all → ∀ log more, all = log ++ more →
    Forward (statusOf log i) (statusOf all i) ∧
      (∀ hash, statusOf log i = .txSent hash → statusOf all i = .txCreated → ∃ tx, .replacedTransaction i tx ∈ more)) ?_ ?_ ?_ h hn hn
  · intro log t p _ _ _ hP; exact hP
  · intro a n _ log more hl
    cases log with
    | nil => exact ⟨trivial, fun hash h => by cases h⟩
    | cons x log =>
      simp only [List.cons_append, List.cons.injEq, List.nil_eq, List.append_eq_nil_iff] at hl
      obtain ⟨rfl, rfl, rfl⟩ := hl
      exact ⟨.refl _, fun hash h => by cases h⟩
  · intro L s e s' hr _ _ _ _ he ha hP hn log more hl
    have hn' := nonceNeverLowered_prefix hn
    have hst := forward_step hr hn' he ha i (run_stat hr hn' i)
    have hL : statusOf (L ++ [e]) i = statusStep i (statusOf L i) e := by simp [statusOf, List.foldl_append]
    rcases List.eq_nil_or_concat more with rfl | ⟨more', x, rfl⟩
    · simp only [List.append_nil] at hl
      subst hl
      exact ⟨.refl _, fun hash h1 h2 => by rw [h1] at h2; cases h2⟩
    · rw [List.concat_eq_append, ← List.append_assoc] at hl
      obtain ⟨h1, h2⟩ := List.append_inj' hl rfl
      simp only [List.cons.injEq, and_true] at h2
      subst h2
      obtain ⟨p1, p2⟩ := hP hn' log more' h1
      rw [hL]
      refine ⟨p1.trans hst.1, fun hash g1 g2 => ?_⟩
      rw [List.concat_eq_append]
      rcases hst.2 g2 with g | g | ⟨tx, rfl⟩
      · obtain ⟨tx, htx⟩ := p2 hash g1 g
        exact ⟨tx, List.mem_append_left _ htx⟩
      · rw [g1, g] at p1
        exact absurd rfl p1.2
      · exact ⟨tx, by simp⟩

/-- **C86** (partial): as time goes on, the status that `retrieve_withdrawal_status` reports of a withdrawal only moves forward, except
that a withdrawal reported as sent may be reported as only created later. That happens only if its transaction was resubmitted meanwhile.
The full statement has `OnlyForward` instead of `Forward`; it is false, see `C86_goes_back`. -/
theorem C86_forward_partial {log more : List Event} {s s' : State} (h : Run log s) (h' : Run (log ++ more) s')
    (hn : NonceNeverLowered (log ++ more)) (i : LedgerBurnIndex) :
    ∃ st st', s.txs.transactionStatus i = .ok st ∧ s'.txs.transactionStatus i = .ok st' ∧ Forward st st' ∧
      ((∀ tx, .replacedTransaction i tx ∉ more) → OnlyForward st st') := by
  have hn₀ : NonceNeverLowered log := nonceNeverLowered_prefix hn
  obtain ⟨h1, h2⟩ := forward_log h' hn i log more rfl
  refine ⟨_, _, C33_status h hn₀ i, C33_status h' hn i, h1, fun hm => ⟨h1, fun hash g1 g2 => ?_⟩⟩
  obtain ⟨tx, htx⟩ := h2 hash g1 g2
  exact hm tx htx

/-- **C86** Once a withdrawal is reported as successful, with some transaction and fee, this is reported for ever. -/
theorem C86_success {log more : List Event} {s s' : State} (h : Run log s) (h' : Run (log ++ more) s')
    (hn : NonceNeverLowered (log ++ more)) {i : LedgerBurnIndex} {hash : Hash} {fee : Wei}
    (hs : s.txs.transactionStatus i = .ok (.success hash fee)) : s'.txs.transactionStatus i = .ok (.success hash fee) := by
  obtain ⟨st, st', h1, h2, h3, _⟩ := C86_forward_partial h h' hn i
  rw [hs] at h1
  cases h1
  rw [h2, h3]

/-- **C86** Once a withdrawal is reported as reimbursed, with some transaction, amount and block, this is reported for ever. -/
theorem C86_reimbursed {log more : List Event} {s s' : State} (h : Run log s) (h' : Run (log ++ more) s')
    (hn : NonceNeverLowered (log ++ more)) {i : LedgerBurnIndex} {hash : Hash} {amount : Nat} {block : LedgerMintIndex}
    (hs : s.txs.transactionStatus i = .ok (.reimbursed hash amount block)) :
    s'.txs.transactionStatus i = .ok (.reimbursed hash amount block) := by
  obtain ⟨st, st', h1, h2, h3, _⟩ := C86_forward_partial h h' hn i
  rw [hs] at h1
  cases h1
  rw [h2, h3]

/-- A quarantined reimbursement stays so. -/
theorem run_quarantined {log : List Event} {s : State} (h : Run log s) (hn : NonceNeverLowered log) :
    ∀ x, .quarantinedReimbursement x ∈ log → s.txs.reimbursed.get x = some .quarantined := by
  refine run_event_induct (P := fun log t => ∀ x, .quarantinedReimbursement x ∈ log → t.reimbursed.get x = some .quarantined) ?_ ?_ ?_ h hn
  · intro log t p _ _ _ hP; exact hP
  · intro a n x hx; simp at hx
  · intro log s e s' hr i1 l1 i2 l2 he ha hP x hx
    have hi : ∀ a, e ≠ .init a := by rintro a rfl; exact he
    have hs := finStep i1 hi (applyEvent_txs ha)
    simp only [List.mem_append, List.mem_singleton] at hx
    cases hs with
    | finalize i rc _ m l y r a1 a2 a3 a4 a5 a6 a7 a8 a9 a10 a11 a12 =>
      rw [a11]; exact hP x (hx.resolve_right (by simp))
    | owe r _ a1 a2 a3 => rw [a3]; exact hP x (hx.resolve_right (by simp))
    | paid e y b rr _ c1 c2 c3 c4 c5 c6 c7 c8 =>
      have hx := hP x (hx.resolve_right (by rcases c1 with ⟨_, rfl, _⟩ | ⟨_, _, _, rfl, _⟩ <;> simp))
      rw [c8, FMap.get_insert, if_neg]
      · exact hx
      · rintro rfl; rw [c6] at hx; cases hx
    | quarantine y _ c1 c2 c3 c4 c5 =>
      rw [c5, FMap.get_insert]
      split
      · rfl
      · rename_i hne
        refine hP x (hx.resolve_right ?_)
        rintro ⟨⟩
        exact hne rfl
    | other _ _ c1 c2 c3 c4 c5 c6 =>
      rw [c6]
      refine hP x (hx.resolve_right ?_)
      rintro rfl
      exact c1

/-- **C86** (reimbursements in quarantine): if the reimbursement of a withdrawal was put into quarantine, then the withdrawal is reported as
awaiting its reimbursement, whenever one asks, and never as anything else: nothing in the program takes it out of quarantine. -/
theorem C86_quarantined {log : List Event} {s : State} (h : Run log s) (hn : NonceNeverLowered log) {r : Request}
    (hr : r.intoEvent ∈ log) (hq : .quarantinedReimbursement (.ofRequest r) ∈ log) :
    ∃ hash, s.txs.transactionStatus r.burnIndex = .ok (.pendingReimbursement hash) := by
  have hx := run_quarantined h hn _ hq
  obtain ⟨inv, hl, _⟩ := run_txInv h hn
  obtain ⟨rr, ho⟩ := run_reimbursed_owed h hn (.ofRequest r) (by rw [hx]; simp)
  rcases ho with ⟨n, i, f, r', h1, h2, h3, h4, _⟩ | ⟨h1, h2⟩
  · have hb : r'.burnIndex = i := inv.procIdx _ _ h3
    have hbb : r.burnIndex = r'.burnIndex := by
      cases r <;> cases r' <;> simp_all [ReimbIndex.ofRequest, Request.burnIndex]
    refine ⟨_, status_of_stat h hn (.owed n f r' (by rw [hbb, hb]; exact h1) h2 (by rw [hbb, hb]; exact h3) ?_)⟩
    intro b
    rw [← h4, hx]
    simp
  · refine absurd ?_ (run_no_clash h hn rr h1 r hr)
    cases r with
    | native q => simpa [ReimbIndex.ofRequest, Request.burnIndex] using h2
    | erc20 q => cases h2

end

namespace Example
attribute [local instance] keccak

/-- **C86** in full is false: in the example log the first transaction of withdrawal 20 has been sent, and then it is replaced by one with a
higher fee that is not signed yet. Asked now, the minter no longer says that a transaction has been sent, nor which, although that one may
still be mined. -/
theorem C86_goes_back : ∃ log e s s', Run log s ∧ Run (log ++ [e]) s' ∧ NonceNeverLowered (log ++ [e]) ∧
    s.txs.transactionStatus 20 = .ok (.txSent (SignedTx.mk tx1 sig).hash) ∧ s'.txs.transactionStatus 20 = .ok .txCreated ∧
    ¬ OnlyForward (.txSent (SignedTx.mk tx1 sig).hash) .txCreated := by
  obtain ⟨s, h1, h2⟩ := prefix_run (k := 2) (p := fun s => decide (s.txs.transactionStatus 20 = .ok (.txSent (SignedTx.mk tx1 sig).hash)))
    (by decide +kernel)
  obtain ⟨s', h3, h4⟩ := prefix_run (k := 3) (p := fun s => decide (s.txs.transactionStatus 20 = .ok .txCreated)) (by decide +kernel)
  refine ⟨_, .replacedTransaction 20 tx1', s, s', h1, h3, ?_, of_decide_eq_true h2, of_decide_eq_true h4, fun h => h.2 _ rfl rfl⟩
  intro l₁ a l₂ n hl ha
  have hm : Event.upgrade a ∈ (log.take 13 ++ (log.drop 13).take 2) ++ [.replacedTransaction 20 tx1'] := by rw [hl]; simp
  simp [log] at hm
  subst hm
  cases ha

/-- In the end that withdrawal is reimbursed, and the other one is a success. -/
theorem C86_example : ∃ s, Run log s ∧
    s.txs.transactionStatus 20 = .ok (.reimbursed receipt1.transactionHash (3000000000 - 21000 * 1000) 30) ∧
    s.txs.transactionStatus 21 = .ok (.success receipt2.transactionHash (900 * 60000)) := by
  obtain ⟨s, h1, h2⟩ := prefix_run (k := 8) (p := fun s =>
    decide (s.txs.transactionStatus 20 = .ok (.reimbursed receipt1.transactionHash (3000000000 - 21000 * 1000) 30) ∧
      s.txs.transactionStatus 21 = .ok (.success receipt2.transactionHash (900 * 60000)))) (by decide +kernel)
  exact ⟨s, h1, (of_decide_eq_true h2).1, (of_decide_eq_true h2).2⟩

/-- The example in which the reimbursement is put into quarantine instead. -/
theorem C86_example_quarantined : ∃ log s, Run (log ++ [.quarantinedReimbursement (.ofRequest (.native request1))]) s ∧
    Event.acceptedNativeWithdrawalRequest request1 ∈ log ∧
    s.txs.transactionStatus 20 = .ok (.pendingReimbursement receipt1.transactionHash) := by
  obtain ⟨s, h1, h2⟩ := prefix_run (k := 6) (p := fun s =>
    match applyEvent s (.quarantinedReimbursement (.ofRequest (.native request1))) with
    | .ok s' => (s.txs.reimbursementRequests.get (.ofRequest (.native request1))).isSome &&
        decide (s'.txs.transactionStatus 20 = .ok (.pendingReimbursement receipt1.transactionHash))
    | .error _ => false) (by decide +kernel)
  split at h2
  · rename_i s' hs
    rw [Bool.and_eq_true] at h2
    exact ⟨_, s', .event _ s _ s' h1 (Option.isSome_iff_exists.1 h2.1) hs, by simp [log], of_decide_eq_true h2.2⟩
  · cases h2

end Example
end EvmMinter
