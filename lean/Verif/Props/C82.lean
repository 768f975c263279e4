import Verif.Props.C77
/-!
# C82: a withdrawal ends with the payment on the chain or with the refund
-/

namespace EvmMinter
open Spec Transactions

namespace Spec

/-- The transaction does what was asked for: it sends what remains of the burned amount after its maximum fee, or it calls `transfer` of the
token contract. -/
def Serves (tx : Tx) : Request → Prop
  | .native q => tx.destination = q.destination ∧ tx.amount + tx.gasLimit * tx.maxFeePerGas = q.withdrawalAmount ∧ tx.data = []
  | .erc20 q => tx.destination = q.erc20ContractAddress ∧ tx.amount = 0 ∧ tx.data =
      [0xa9, 0x05, 0x9c, 0xbb] ++ [0, 0, 0, 0, 0, 0, 0, 0, 0, 0, 0, 0] ++ toBE 20 q.destination ++ toBE 32 q.withdrawalAmount

variable [Keccak]

/-- The chain executed transaction `x`, which was signed for the withdrawal and does what was asked for, with the receipt `rc`. -/
structure Executed (log : List Event) (r : Request) (x : SignedTx) (rc : Receipt) : Prop where
  signed : .signedTransaction r.burnIndex x ∈ log
  mined : .finalizedTransaction r.burnIndex rc ∈ log
  hash : x.hash = rc.transactionHash
  serves : Serves x.tx r

/-- The withdrawal is paid. -/
def World.PaidOut (w : World) (r : Request) : Prop := ∃ x rc, Executed w.mem.m.log r x rc ∧ rc.status = .success

/-- The transaction failed on the chain, and its amount is minted for the owner again. -/
def World.Returned (w : World) (r : Request) : Prop :=
  ∃ x rc, Executed w.mem.m.log r x rc ∧ rc.status = .failure ∧ ∃ b ∈ w.blocks, b.call = match r with
    | .native q => ⟨w.mem.m.st.nativeLedgerId, .mint ⟨q.from, q.fromSubaccount⟩ x.tx.amount,
        some (.mint (.reimburseTransaction q.ledgerBurnIndex rc.transactionHash))⟩
    | .erc20 q => ⟨q.erc20LedgerId, .mint ⟨q.from, q.fromSubaccount⟩ q.withdrawalAmount,
        some (.mint (.reimburseTransaction q.erc20LedgerBurnIndex rc.transactionHash))⟩

end Spec

section
variable [Keccak]

/-! ## Recorded receipts -/

/-- The finalized transaction of a withdrawal. -/
theorem executed_of_has {log : List Event} {s : State} (h : Run log s) (hn : NonceNeverLowered log) {r : Request} (hr : r.intoEvent ∈ log)
    (hs : ∀ q, r = .native q → q.withdrawalAmount < 2 ^ 256 - 1) {n : TransactionNonce} {f : FinalizedTx} (hf : s.txs.finalized.Has n r.burnIndex f) :
    Executed log r f.signed f.receipt := by
  obtain ⟨inv, tl, _⟩ := run_txInv h hn
  obtain ⟨h1, ⟨j, h2⟩, h3, -, -⟩ := tl.finLog _ _ _ hf
  have hc : Core s.txs n r.burnIndex f.signed.tx.core := .inr (.inr ⟨f, hf, rfl⟩)
  obtain ⟨tx₀, -, k2, k3⟩ := tl.core3 _ _ _ hc
  have hnn : f.signed.tx.nonce = n := by rw [← k2]; exact (congrArg TxCore.nonce k3).symm
  have hj : j = r.burnIndex := by
    have := signed_core h hn h2
    rw [hnn] at this
    exact (Core.unique inv this hc).1
  subst hj
  refine ⟨h2, h1, h3, ?_⟩
  cases r with
  | native q =>
    obtain ⟨k1, k2, -, k4, -, -⟩ := C15_native_value_plus_fee h hn h2 rfl hr (hs q rfl)
    exact ⟨k2, k1, k4⟩
  | erc20 q =>
    obtain ⟨r', k1, k2, k3⟩ := recorded_sound h hn h2 rfl
    have := request_unique h hn k1 (r' := .erc20 q) hr k2
    subst this
    have hp : Erc20Sound q f.signed.tx := k3.pay
    exact ⟨hp.dest, hp.amount, by rw [hp.data]; rfl⟩

/-- The refund `rr` was owed for the withdrawal because its transaction failed. -/
def Justified (log : List Event) (r : Request) (rr : ReimbRequest) : Prop :=
  ∃ f : FinalizedTx, Executed log r f.signed f.receipt ∧ f.receipt.status = .failure ∧ rr = failureReimbursement r.burnIndex r f

theorem Justified.mono {log log' : List Event} (h : ∀ e ∈ log, e ∈ log') {r : Request} {rr : ReimbRequest} (hj : Justified log r rr) :
    Justified log' r rr := by
  obtain ⟨f, h1, h2⟩ := hj
  exact ⟨f, ⟨h _ h1.signed, h _ h1.mined, h1.hash, h1.serves⟩, h2⟩

/-- The only reason for a refund of a withdrawal is that its transaction failed. -/
theorem owed_executed {w₀ w : World} (h₀ : Reachable w₀) (h : Reachable w) (hw : ∃ es, w.mem.m.log = w₀.mem.m.log ++ es)
    (hn : NonceNeverLowered w.mem.m.log) {r : Request} (hr : r.intoEvent ∈ w.mem.m.log)
    (hs : ∀ q, r = .native q → q.withdrawalAmount < 2 ^ 256 - 1) {rr : ReimbRequest}
    (ho : w₀.mem.m.st.txs.reimbursementRequests.get (.ofRequest r) = some rr) : Justified w.mem.m.log r rr := by
  obtain ⟨es, hw⟩ := hw
  have hn₀ : NonceNeverLowered w₀.mem.m.log := nonceNeverLowered_prefix (hw ▸ hn)
  have hR := run_of_reachable h₀ hn₀
  have sub : ∀ e ∈ w₀.mem.m.log, e ∈ w.mem.m.log := fun e he => by rw [hw]; exact List.mem_append_left _ he
  obtain ⟨inv, tl, _⟩ := run_txInv hR hn₀
  rcases tl.owed _ _ ho with ⟨n, i, f, r', h1, h2, h3, h4, h5⟩ | ⟨h1, h2⟩
  · have hi := inv.procIdx _ _ h3
    have hacc : r'.intoEvent ∈ w₀.mem.m.log := (tl.acc r').2 (.inr (hi ▸ h3))
    have e : r = r' := by
      refine request_unique (run_of_reachable h hn) hn hr (sub _ hacc) ?_
      cases r <;> cases r' <;> simp only [ReimbIndex.ofRequest, reduceCtorEq, ReimbIndex.native.injEq, ReimbIndex.erc20.injEq] at h4
      · exact h4
      · exact h4.1
    subst e
    subst hi
    exact Justified.mono sub ⟨f, executed_of_has hR hn₀ hacc hs h1, h2, h5⟩
  · exfalso
    have h1 := sub _ h1
    cases r with
    | erc20 q => cases h2
    | native q =>
      simp only [ReimbIndex.ofRequest, ReimbIndex.native.injEq] at h2
      have hd := C49_burns_distinct h
      obtain ⟨l₁, l₂, e⟩ := List.append_of_mem h1
      rw [e, List.flatMap_append, List.flatMap_cons] at hd
      have hd2 := List.nodup_append.1 hd
      rw [e] at hr
      rcases List.mem_append.1 hr with hm | hm
      · exact hd2.2.2 _ (List.mem_flatMap.2 ⟨_, hm, List.mem_singleton.2 rfl⟩) (w.mem.m.st.nativeLedgerId, rr.ledgerBurnIndex)
          (List.mem_append_left _ (List.mem_singleton.2 rfl)) (by rw [h2])
      · rcases List.mem_cons.1 hm with hm | hm
        · cases hm
        · refine (List.nodup_append.1 hd2.2.1).2.2 (w.mem.m.st.nativeLedgerId, rr.ledgerBurnIndex) (List.mem_singleton.2 rfl)
            (w.mem.m.st.nativeLedgerId, q.ledgerBurnIndex) (List.mem_flatMap.2 ⟨_, hm, List.mem_singleton.2 rfl⟩) (by rw [h2])

/-! ## Completed refunds -/

/-- The refunds that are completed after an event were completed before, or it completes them. -/
theorem reimbursed_get {s s' : State} {x y : ReimbIndex} {q : ReimbRequest} {b : Nat} (hb : q.ledgerBurnIndex = y.burnInBlock)
    (h : applyEvent s (reimbursedEvent y q b) = .ok s') (hx : s'.txs.reimbursed.get x ≠ none) (hy : x ≠ y) : s.txs.reimbursed.get x ≠ none := by
  have ht := applyEvent_txs h
  cases y with
  | native n =>
    have ht : s.txs.recordFinalizedReimbursement (.native q.ledgerBurnIndex) b = .ok s'.txs := ht
    rw [hb] at ht
    obtain ⟨_, _, _, he⟩ := recordFinalizedReimbursement_ok ht
    rw [he] at hx
    simp only [FMap.get_insert] at hx
    rw [if_neg (show ¬x = .native (ReimbIndex.native n).burnInBlock from hy)] at hx
    exact hx
  | erc20 n l k =>
    have ht : s.txs.recordFinalizedReimbursement (.erc20 n l q.ledgerBurnIndex) b = .ok s'.txs := ht
    rw [hb] at ht
    obtain ⟨_, _, _, he⟩ := recordFinalizedReimbursement_ok ht
    rw [he] at hx
    simp only [FMap.get_insert] at hx
    rw [if_neg (show ¬x = .erc20 n l (ReimbIndex.erc20 n l k).burnInBlock from hy)] at hx
    exact hx

/-- A refund that gets completed was owed; it is paid, or put into quarantine. -/
theorem Step.completes {w w' : World} (h : Reachable w) (hs : Step w w') {x : ReimbIndex} (h0 : w.mem.m.st.txs.reimbursed.get x = none)
    (h1 : w'.mem.m.st.txs.reimbursed.get x ≠ none) : ∃ r, w.mem.m.st.txs.reimbursementRequests.get x = some r ∧
      (w'.Repaid x r ∨ .quarantinedReimbursement x ∈ w'.mem.m.log) := by
  have T := tracks h
  have G := Step.grows h hs
  cases Step.kind hs with
  | other _ o g k1 k2 k3 => rw [(g.reimbFrame T k2).reimbursed] at h1; exact absurd h0 h1
  | deliver pre post id t a now c n ht hr hd =>
    cases hd' : t.reimb with
    | none =>
      have ho : t.origin ≠ .reimburse := by cases t <;> simp [LedgerTask.origin, LedgerTask.reimb] at hd' ⊢
      have e := ((LedgerTask.resume_grew hr).reimbFrame T ho).reimbursed
      exact absurd h0 (by rw [← e]; exact h1)
    | some y =>
      obtain ⟨q, l, rest, rfl⟩ := LedgerTask.reimb_eq hd'
      have hm : (⟨id, .ledger (.reimburse y q l rest), some a⟩ : Pending) ∈ w.tasks := by rw [ht]; simp
      have hq := (reimb_claim h hm).1.waiting (y, q) (by simp)
      simp only [LedgerTask.resume] at hr
      rcases Mem.onReimburse_cases hr with ⟨i, c1, rfl, hi, hp, hl⟩ | ⟨_, hl⟩
      · have hcm := Mem.reimburseLoop_m hl
        obtain ⟨s, hs', rfl⟩ := Mem.process_iff.1 hp
        by_cases hxy : x = y
        · subst hxy
          exact ⟨q, hq, .inl (repaid_grows G (repaid_of_block h hm))⟩
        · have h1 : c.m.st.txs.reimbursed.get x ≠ none := h1
          rw [hcm] at h1
          exact absurd h0 (reimbursed_get ((known_of_tracks T).requests hq).1 hs' h1 hxy)
      · have h1 : c.m.st.txs.reimbursed.get x ≠ none := h1
        rw [Mem.reimburseLoop_m hl] at h1
        exact absurd h0 h1
  | drop pre post id t a c o ht hc ho hd =>
    cases hd' : t.reimb with
    | none =>
      have ho : t.origin ≠ .reimburse := by cases t <;> simp [LedgerTask.origin, LedgerTask.reimb] at hd' ⊢
      have e := ((Task.cleanup_grew hc).reimbFrame T ho).reimbursed
      exact absurd h0 (by rw [← e]; exact h1)
    | some y =>
      obtain ⟨q, l, rest, rfl⟩ := LedgerTask.reimb_eq hd'
      have hm : (⟨id, .ledger (.reimburse y q l rest), some a⟩ : Pending) ∈ w.tasks := by rw [ht]; simp
      have hq := (reimb_claim h hm).1.waiting (y, q) (by simp)
      simp only [Task.cleanup, Res.bind_ok, Res.pure_ok] at hc
      obtain ⟨c1, hp, rfl⟩ := hc
      obtain ⟨s, hs', rfl⟩ := Mem.process_iff.1 hp
      by_cases hxy : x = y
      · subst hxy
        refine ⟨q, hq, .inr ?_⟩
        show _ ∈ w.mem.m.log ++ [_]
        simp
      · have hx := applyEvent_txs hs'
        simp only [txEvent, Except.ok.injEq] at hx
        have h1 : s.txs.reimbursed.get x ≠ none := h1
        rw [← hx] at h1
        simp only [recordQuarantinedReimbursement, FMap.get_insert] at h1
        rw [if_neg hxy] at h1
        exact absurd h0 h1

theorem returned_of_repaid {w : World} {r : Request} {rr : ReimbRequest} (hj : Justified w.mem.m.log r rr) (hp : w.Repaid (.ofRequest r) rr) :
    w.Returned r := by
  obtain ⟨f, h1, h2, rfl⟩ := hj
  obtain ⟨b, hb, hc⟩ := hp
  refine ⟨_, _, h1, h2, b, hb, hc.trans ?_⟩
  cases r <;> rfl

/-- A refund that is completed was owed at some time before; it is paid, or in quarantine. -/
theorem completed {w : World} (h : Reachable w) {x : ReimbIndex} (hx : w.mem.m.st.txs.reimbursed.get x ≠ none) :
    (∃ w₀ rr, Reachable w₀ ∧ (∃ es, w.mem.m.log = w₀.mem.m.log ++ es) ∧ w₀.mem.m.st.txs.reimbursementRequests.get x = some rr ∧ w.Repaid x rr) ∨
      .quarantinedReimbursement x ∈ w.mem.m.log := by
  induction h with
  | init id a s blocks hi _ =>
    exfalso
    refine hx ?_
    show s.txs.reimbursed.get x = none
    rw [(ofInit_ok hi).2.2.2.2.2.2.2.1]
    rfl
  | step w w' hw hs ih =>
    have G := Step.grows hw hs
    obtain ⟨es, he⟩ := G.log
    by_cases h0 : w.mem.m.st.txs.reimbursed.get x = none
    · obtain ⟨rr, h1, h2 | h2⟩ := Step.completes hw hs h0 hx
      · exact .inl ⟨w, rr, hw, ⟨es, he⟩, h1, h2⟩
      · exact .inr h2
    · rcases ih h0 with ⟨w₀, rr, h1, ⟨es', h2⟩, h3, h4⟩ | h1
      · exact .inl ⟨w₀, rr, h1, ⟨es' ++ es, by rw [he, h2, List.append_assoc]⟩, h3, repaid_grows G h4⟩
      · exact .inr (by rw [he]; exact List.mem_append_left _ h1)

/-- A withdrawal has one receipt. -/
theorem receipt_unique {log : List Event} {s : State} (h : Run log s) (hn : NonceNeverLowered log) {i : LedgerBurnIndex} {rc rc' : Receipt}
    (h1 : .finalizedTransaction i rc ∈ log) (h2 : .finalizedTransaction i rc' ∈ log) : rc = rc' := by
  obtain ⟨inv, tl, _⟩ := run_txInv h hn
  obtain ⟨n, f, k1, rfl⟩ := tl.finIn _ _ h1
  obtain ⟨n', f', k2, rfl⟩ := tl.finIn _ _ h2
  rw [(MKM.Has.unique_alt inv.fw k1 k2).2]

/-- **C82.** No withdrawal is both paid and given back. -/
theorem C82_not_both {w : World} (h : Reachable w) (hn : NonceNeverLowered w.mem.m.log) {r : Request} : ¬ (w.PaidOut r ∧ w.Returned r) := by
  rintro ⟨⟨x, rc, h1, h2⟩, ⟨y, rc', h3, h4, -⟩⟩
  rw [← receipt_unique (run_of_reachable h hn) hn h1.mined h3.mined, h2] at h4
  cases h4

variable {ρ : Nat → World} {α : Nat → ExtAnswer} {N M M' N' : Nat}

/-- **C82.** In every endless execution in which the rounds that send withdrawals are answered and the chain mines (see C77), calls of the
ledgers return (see C74), and the ledger executes the refund from some time on: every withdrawal accepted is paid on the chain in the end,
or its amount is minted again, unless its refund was put into quarantine before. -/
theorem C82_ends (E : Endless ρ) (S : Serving ρ α N) (hm : Mines ρ α) (T : Steady ρ N') {r : Request} {i : Nat}
    (hr : r.intoEvent ∈ (ρ i).mem.m.log)
    (ha : ∀ j, M ≤ j → ∀ id g o, ⟨id, .ext (.retrieveCount g), o⟩ ∈ (ρ j).tasks → Affordable g r)
    (hq : Event.quarantinedReimbursement (.ofRequest r) ∉ (ρ N').mem.m.log) (hl : RepaysFrom ρ M' (.ofRequest r)) :
    ∃ j, (ρ j).PaidOut r ∨ (ρ j).Returned r := by
  obtain ⟨j₀, rc, hj₀⟩ := C77_served E S hm hr ha
  have log : ∀ {a b}, a ≤ b → ∀ e ∈ (ρ a).mem.m.log, e ∈ (ρ b).mem.m.log := by
    intro a b hab e he
    obtain ⟨es, h⟩ := (grows_between E hab).log
    rw [h]; exact List.mem_append_left _ he
  have never : ∀ i, NonceNeverLowered (ρ i).mem.m.log := by
    intro i
    obtain ⟨es, h⟩ := (grows_between E (Nat.le_max_left i N)).log
    have := S.never E (Nat.le_max_right i N)
    rw [h] at this
    exact nonceNeverLowered_prefix this
  -- a time at which all of this is known
  obtain ⟨k, hik, hjk, hNk, hN'k⟩ : ∃ k, i ≤ k ∧ j₀ ≤ k ∧ N ≤ k ∧ N' ≤ k := ⟨max (max i j₀) (max N N'), by omega, by omega, by omega, by omega⟩
  have hr' := log hik _ hr
  have hs : ∀ q, r = .native q → q.withdrawalAmount < 2 ^ 256 - 1 := fun q e => S.amounts k hNk q (by rw [e] at hr'; exact hr')
  have hR := S.run E hNk
  obtain ⟨inv, tl, hlast⟩ := run_txInv hR (never k)
  obtain ⟨n, f, hf, hrc⟩ := tl.finIn _ _ (log hjk _ hj₀)
  have hx := executed_of_has hR (never k) hr' hs hf
  cases hst : f.receipt.status with
  | success => exact ⟨k, .inl ⟨_, _, hx, hst⟩⟩
  | failure =>
    -- owed at a time from `N'` on, or completed before
    have key : (∃ m rr, N' ≤ m ∧ (ρ m).mem.m.st.txs.reimbursementRequests.get (.ofRequest r) = some rr) ∨
        (ρ N').mem.m.st.txs.reimbursed.get (.ofRequest r) ≠ none := by
      obtain ⟨r', hp⟩ : ∃ r', (ρ k).mem.m.st.txs.processed.get r.burnIndex = some r' := by
        obtain ⟨r', hp, -⟩ := inv.fProc _ _ _ hf
        exact ⟨r', hp⟩
      have e : r = r' := request_unique hR (never k) hr' ((tl.acc r').2 (.inr (by rw [inv.procIdx _ _ hp]; exact hp))) (inv.procIdx _ _ hp).symm
      subst e
      rcases tl.failed _ _ _ _ hf hst hp with h | h
      · obtain ⟨rr, h⟩ := Option.ne_none_iff_exists'.1 h
        exact .inl ⟨k, rr, hN'k, h⟩
      · clear hlast hf hrc hx hst hp inv tl hR hr' hs hjk hik hNk
        induction hN'k with
        | refl => exact .inr h
        | step hle ih =>
          rename_i m
          by_cases h0 : (ρ m).mem.m.st.txs.reimbursed.get (.ofRequest r) = none
          · rcases E.step m with e | s
            · rw [e] at h; exact absurd h0 h
            · obtain ⟨rr, h1, _⟩ := Step.completes (E.reachable m) s h0 h
              exact .inl ⟨m, rr, hle, h1⟩
          · exact ih h0
    rcases key with ⟨m, rr, h1, h2⟩ | h
    · obtain ⟨j, h3, h4⟩ := C74_repaid E T never hl h1 h2
      refine ⟨max j k, .inr (returned_of_repaid ?_ (repaid_mono E (Nat.le_max_left _ _) h4))⟩
      exact owed_executed (E.reachable m) (E.reachable _) (grows_between E (by omega)).log (never _) (log (by omega) _ hr) hs h2
    · obtain ⟨w₀, rr, h1, h2, h3, h4⟩ := (completed (E.reachable N') h).resolve_right hq
      obtain ⟨es, h2⟩ := h2
      obtain ⟨es', h5⟩ := (grows_between E hN'k).log
      refine ⟨k, .inr (returned_of_repaid ?_ (repaid_mono E hN'k h4))⟩
      exact owed_executed h1 (E.reachable _) ⟨es ++ es', by rw [h5, h2, List.append_assoc]⟩ (never _) hr' hs h3

end

namespace Example
attribute [local instance] keccak

/-- An endless execution that meets all conditions of `C82_ends`: of the two withdrawals of C55 the first is given back, the second is paid. -/
theorem C82_example : ∃ ρ α, Endless ρ ∧ Serving ρ α 0 ∧ Mines ρ α ∧ Steady ρ 0 ∧ (∀ x, RepaysFrom ρ 0 x) ∧
    ∃ r r', (ρ 0).mem.m.st.txs.pending = [r, r'] ∧
      (∀ x ∈ [r, r'], x.intoEvent ∈ (ρ 0).mem.m.log ∧ Event.quarantinedReimbursement (.ofRequest x) ∉ (ρ 0).mem.m.log ∧
        ∀ j, 0 ≤ j → ∀ id g o, ⟨id, .ext (.retrieveCount g), o⟩ ∈ (ρ j).tasks → Affordable g x) ∧
      (∃ j, (ρ j).Returned r) ∧ ∃ j, (ρ j).PaidOut r' := by
  obtain ⟨ρ, α, E, S, M, T, R, ⟨w₀, hw, rfl⟩, h1, h2⟩ := service_example
  refine ⟨_, α, E, S, M, T, R, ?_⟩
  simp only [servesB, Bool.and_eq_true] at hw
  obtain ⟨⟨⟨-, hb⟩, -, hw⟩, -⟩ := hw
  have zero : serve w₀ 0 = w₀ := by rw [serve]
  rw [zero] at h1 h2 ⊢
  generalize hp : w₀.mem.m.st.txs.pending = l at hw h1 h2
  split at hw
  · rename_i r r'
    simp only [Bool.and_eq_true, List.contains_eq_mem, decide_eq_true_eq] at hw
    have hq : ∀ x, Event.quarantinedReimbursement x ∉ w₀.mem.m.log := by
      intro x hx
      have h0 := List.all_eq_true.1 hb 0 (List.mem_range.2 (by omega))
      rw [zero] at h0
      simp only [boundsB, Bool.and_eq_true] at h0
      exact absurd (List.all_eq_true.1 h0.1.1.1.1 _ hx) (by simp)
    have log : ∀ {a b}, a ≤ b → ∀ e ∈ (serve w₀ a).mem.m.log, e ∈ (serve w₀ b).mem.m.log := by
      intro a b hab e he
      obtain ⟨es, h⟩ := (grows_between E hab).log
      rw [h]; exact List.mem_append_left _ he
    have ends : ∀ x ∈ [r, r'], ∀ rc, Event.finalizedTransaction x.burnIndex rc ∈ (serve w₀ 9).mem.m.log →
        ∃ j, (rc.status = .success ∧ (serve w₀ j).PaidOut x) ∨ (rc.status = .failure ∧ (serve w₀ j).Returned x) := by
      intro x hx rc hrc
      obtain ⟨j, hj⟩ := C82_ends E S M T (zero.symm ▸ (h2 x hx).1) (M := 0) (M' := 0) (h2 x hx).2 (zero.symm ▸ hq _) (R _)
      refine ⟨j, ?_⟩
      have same : ∀ rc', Event.finalizedTransaction x.burnIndex rc' ∈ (serve w₀ j).mem.m.log → rc = rc' := fun rc' h =>
        receipt_unique (S.run E (Nat.zero_le (max 9 j))) (S.never E (Nat.zero_le _)) (log (Nat.le_max_left _ _) _ hrc) (log (Nat.le_max_right _ _) _ h)
      rcases hj with hj | hj
      · obtain ⟨y, rc', k1, k2⟩ := id hj
        exact .inl ⟨same rc' k1.mined ▸ k2, hj⟩
      · obtain ⟨y, rc', k1, k2, -⟩ := id hj
        exact .inr ⟨same rc' k1.mined ▸ k2, hj⟩
    refine ⟨r, r', rfl, fun x hx => ⟨(h2 x hx).1, hq _, (h2 x hx).2⟩, ?_, ?_⟩
    · obtain ⟨j, ⟨h, -⟩ | ⟨-, h⟩⟩ := ends r (by simp) _ hw.1
      · cases h
      · exact ⟨j, h⟩
    · obtain ⟨j, ⟨-, h⟩ | ⟨h, -⟩⟩ := ends r' (by simp) _ hw.2
      · exact ⟨j, h⟩
      · cases h
  · cases hw

end Example
end EvmMinter
