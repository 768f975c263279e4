import Verif.Lemmas.ReimbInv
import Verif.Lemmas.Burns
import Verif.Props.C12
import Verif.Props.C30
/-!
# C20: reimbursements are paid at most once
-/

namespace EvmMinter
open Spec

namespace Spec

/-- The mints of a ledger that reimburse the burn with index `k` of the same ledger, recognised by their memo. -/
def World.reimbursements (w : World) (ledger : Principal) (k : LedgerBurnIndex) : List Block :=
  w.blocks.filter fun b => b.call.ledger == ledger &&
    match b.call.op, b.call.memo with
    | .mint _ _, some (.mint (.reimburseTransaction i _)) => i == k
    | .mint _ _, some (.mint (.reimburseWithdrawal i)) => i == k
    | _, _ => false

/-- A reimbursement is on the way: a call to a ledger is outstanding, or its answer. -/
def World.Reimbursing (w : World) : Prop := ∃ p ∈ w.tasks, ∃ x r l rest, p.task = .ledger (.reimburse x r l rest)

end Spec

/-- The ledger on which `x` is paid. -/
def ReimbIndex.paidOn (native : Principal) : ReimbIndex → Principal
  | .native _ => native
  | .erc20 _ l _ => l

theorem unique_of_nodup_flatMap {α β : Type} {f : α → List β} : ∀ {l : List α}, (l.flatMap f).Nodup → ∀ {a b : α} {x : β}, a ∈ l → b ∈ l →
    x ∈ f a → x ∈ f b → a = b := by
  intro l
  induction l with
  | nil => intro _ a b x ha; cases ha
  | cons c t ih =>
    intro h a b x ha hb hxa hxb
    rw [List.flatMap_cons, List.nodup_append] at h
    obtain ⟨_, h2, h3⟩ := h
    rcases List.mem_cons.1 ha with rfl | ha'
    · rcases List.mem_cons.1 hb with rfl | hb'
      · rfl
      · exact absurd rfl (h3 x hxa x (List.mem_flatMap.2 ⟨_, hb', hxb⟩))
    · rcases List.mem_cons.1 hb with rfl | hb'
      · exact absurd rfl (h3 x hxb x (List.mem_flatMap.2 ⟨_, ha', hxa⟩))
      · exact ih h2 ha' hb' hxa hxb

section
variable [Keccak]

omit [Keccak] in
theorem KnownReimb.burns {log : List Event} {native : Principal} {x : ReimbIndex} (h : KnownReimb log x) :
    ∃ e ∈ log, (x.paidOn native, x.burnInBlock) ∈ e.burns native ∧
      ((∃ r, e = .acceptedNativeWithdrawalRequest r ∧ x = .native r.ledgerBurnIndex) ∨
        (∃ r, e = .acceptedErc20WithdrawalRequest r ∧ x = .erc20 r.nativeLedgerBurnIndex r.erc20LedgerId r.erc20LedgerBurnIndex) ∨
        ∃ r, e = .failedErc20WithdrawalRequest r ∧ x = .native r.ledgerBurnIndex) := by
  rcases h with ⟨r, rfl, hr⟩ | ⟨r, rfl, hr⟩
  · cases r with
    | native q => exact ⟨_, hr, by simp [Request.event, Event.burns, ReimbIndex.ofRequest, ReimbIndex.paidOn, ReimbIndex.burnInBlock], .inl ⟨q, rfl, rfl⟩⟩
    | erc20 q => exact ⟨_, hr, by simp [Request.event, Event.burns, ReimbIndex.ofRequest, ReimbIndex.paidOn, ReimbIndex.burnInBlock], .inr (.inl ⟨q, rfl, rfl⟩)⟩
  · exact ⟨_, hr, by simp [Event.burns, ReimbIndex.paidOn, ReimbIndex.burnInBlock], .inr (.inr ⟨r, rfl, rfl⟩)⟩

/-- A reimbursement is known by the burn that it compensates. -/
theorem knownReimb_unique {w : World} (h : Reachable w) {x y : ReimbIndex} (hx : KnownReimb w.mem.m.log x) (hy : KnownReimb w.mem.m.log y)
    (h1 : x.paidOn w.mem.m.st.nativeLedgerId = y.paidOn w.mem.m.st.nativeLedgerId) (h2 : x.burnInBlock = y.burnInBlock) : x = y := by
  obtain ⟨e, e1, e2, e3⟩ := hx.burns (native := w.mem.m.st.nativeLedgerId)
  obtain ⟨f, f1, f2, f3⟩ := hy.burns (native := w.mem.m.st.nativeLedgerId)
  rw [← h1, ← h2] at f2
  have := unique_of_nodup_flatMap (burns_nodup h) e1 f1 e2 f2
  subst this
  rcases e3 with ⟨r, rfl, rfl⟩ | ⟨r, rfl, rfl⟩ | ⟨r, rfl, rfl⟩ <;> rcases f3 with ⟨q, hq, rfl⟩ | ⟨q, hq, rfl⟩ | ⟨q, hq, rfl⟩ <;> cases hq <;> rfl

omit [Keccak] in
theorem paidOn_eq (c : Mem) (x : ReimbIndex) : c.reimbursementLedger x = x.paidOn c.m.st.nativeLedgerId := by cases x <;> rfl

/-- What a reimbursing mint is. -/
theorem mem_reimbursements {w : World} (h : Reachable w) {l : Principal} {k : LedgerBurnIndex} {b : Block} (hb : b ∈ w.reimbursements l k) :
    ∃ x r, b.reimb = some x ∧ x.paidOn w.mem.m.st.nativeLedgerId = l ∧ x.burnInBlock = k ∧ b.call = reimbCall l r ∧
      WasOwed w.mem.m.log x r ∧ KnownReimb w.mem.m.log x := by
  simp only [World.reimbursements, List.mem_filter, Bool.and_eq_true, beq_iff_eq] at hb
  obtain ⟨hb, hl, hm⟩ := hb
  obtain ⟨call, by'⟩ := b
  cases by' with
  | none =>
    have := (blockInv h).foreign _ hb rfl
    obtain ⟨l', op, memo⟩ := call
    cases op with
    | mint _ _ => exact False.elim this
    | _ => cases hm
  | some p =>
    obtain ⟨id, t⟩ := p
    obtain ⟨hc, _⟩ := (blockInv h).own _ hb _ _ rfl
    simp only at hc hl hm
    subst hc
    cases t with
    | reimburse x r l' rest =>
      have hp := (reimbInv h).paid x
      have hin : (LedgerTask.reimburse x r l' rest).call w.mem.id ∈ repaidFor w.blocks x := by
        refine List.mem_map.2 ⟨_, List.mem_filter.2 ⟨hb, ?_⟩, rfl⟩
        simp [Block.reimb, LedgerTask.reimb]
      rcases hp with hp | ⟨r', hp, pre, s, ho1, ho2, ho3⟩
      · rw [hp] at hin; cases hin
      · rw [hp, List.mem_singleton] at hin
        have hk := (known_of_replay ho2).requests ho3
        have hll : l = w.mem.reimbursementLedger x := by rw [← hl, hin]; rfl
        have hkk : r'.ledgerBurnIndex = k := by
          rw [hin] at hm
          simp only [reimbCall, ReimbRequest.memo] at hm
          split at hm
          · rename_i heq
            split at heq
            · cases heq; simpa using hm
            · cases heq
          · rename_i heq
            split at heq
            · cases heq
            · cases heq; simpa using hm
          · cases hm
        refine ⟨x, r', rfl, ?_, hk.1.symm.trans hkk, ?_, ⟨pre, s, ho1, ho2, ho3⟩, hk.2.mono fun e he => ho1.subset he⟩
        · rw [hll, paidOn_eq]
        · rw [hin, hll]
    | _ => simp [LedgerTask.call, Deposit.memo] at hm <;> split at hm <;> simp at hm

/-- **C20**: in every execution, for every burn, the ledger executes at most one mint that reimburses it. -/
theorem C20_at_most_once {w : World} (h : Reachable w) (ledger : Principal) (k : LedgerBurnIndex) :
    (w.reimbursements ledger k).length ≤ 1 := by
  cases hl : w.reimbursements ledger k with
  | nil => simp
  | cons b t =>
    rw [← hl]
    obtain ⟨x, r, hx1, hx2, hx3, _, _, hx4⟩ := mem_reimbursements h (b := b) (by rw [hl]; simp)
    have hall : ∀ c ∈ w.reimbursements ledger k, c.reimb = some x := by
      intro c hc
      obtain ⟨y, _, hy1, hy2, hy3, _, _, hy4⟩ := mem_reimbursements h hc
      rw [hy1, knownReimb_unique h hy4 hx4 (hy2.trans hx2.symm) (hy3.trans hx3.symm)]
    have hsub : (w.reimbursements ledger k).length ≤ (repaidFor w.blocks x).length := by
      have : w.reimbursements ledger k = (w.reimbursements ledger k).filter fun c => c.reimb == some x := by
        symm
        rw [List.filter_eq_self]
        intro c hc
        simp [hall c hc]
      rw [this, repaidFor, List.length_map, World.reimbursements, List.filter_filter]
      have key : ∀ (p q : Block → Bool) (l : List Block), (l.filter fun b => p b && q b).length ≤ (l.filter p).length := by
        intro p q l
        rw [← List.countP_eq_length_filter, ← List.countP_eq_length_filter]
        refine List.countP_mono_left fun b _ hb => ?_
        rw [Bool.and_eq_true] at hb
        exact hb.1
      exact key _ _ _
    rcases (reimbInv h).paid x with hp | ⟨r', hp, _⟩ <;> rw [hp] at hsub
    · exact Nat.le_trans hsub (by simp)
    · simpa using hsub

theorem Spec.OwedBy.mono {log log' : List Event} (h : ∀ e ∈ log, e ∈ log') {x : ReimbIndex} {r : ReimbRequest} (ho : OwedBy log x r) :
    OwedBy log' x r := by
  cases ho with
  | failedNative r receipt j stx h1 h2 h3 h4 h5 => exact .failedNative r receipt j stx (h _ h1) (h _ h2) h3 (h _ h4) h5
  | failedErc20 r receipt h1 h2 h3 => exact .failedErc20 r receipt (h _ h1) (h _ h2) h3
  | failedBurn _ h1 => exact .failedBurn _ (h _ h1)

/-- **C20** (what is paid): unless an upgrade lowers the next nonce, a mint that reimburses a burn is owed because of a withdrawal
whose transaction failed or because the tokens of a withdrawal could not be burned, and it pays the account and the amount that
are owed. -/
theorem C20_owed {w : World} (h : Reachable w) (hn : NonceNeverLowered w.mem.m.log) {ledger : Principal} {k : LedgerBurnIndex} {b : Block}
    (hb : b ∈ w.reimbursements ledger k) :
    ∃ x r, OwedBy w.mem.m.log x r ∧ x.burnInBlock = k ∧
      ledger = (match x with | .native _ => w.mem.m.st.nativeLedgerId | .erc20 _ l _ => l) ∧
      b.call.op = .mint ⟨r.to, r.toSubaccount⟩ r.reimbursedAmount := by
  obtain ⟨x, r, _, h1, h2, h3, ⟨pre, s, ⟨post, ho1⟩, ho2, ho3⟩, _⟩ := mem_reimbursements h hb
  refine ⟨x, r, ?_, h2, ?_, by rw [h3]; rfl⟩
  · have := (C19_reimbursements_justified ho2 (nonceNeverLowered_prefix (ho1 ▸ hn))).1 x r ho3
    exact this.mono (fun e he => by rw [← ho1]; exact List.mem_append_left _ he)
  · rw [← h1]; cases x <;> rfl

/-- **C20** (what is owed is unpaid): a reimbursement that is still owed, while none is on the way, was not paid. So whatever
the schedule, the next attempt cannot pay it a second time. -/
theorem C20_owed_is_unpaid {w : World} (h : Reachable w) (hr : ¬ w.Reimbursing) {x : ReimbIndex} {r : ReimbRequest}
    (hx : w.mem.m.st.txs.reimbursementRequests.get x = some r) :
    w.reimbursements (match x with | .native _ => w.mem.m.st.nativeLedgerId | .erc20 _ l _ => l) x.burnInBlock = [] := by
  have hl : (match x with | .native _ => w.mem.m.st.nativeLedgerId | .erc20 _ l _ => l) = x.paidOn w.mem.m.st.nativeLedgerId := by
    cases x <;> rfl
  rw [hl]
  rw [List.eq_nil_iff_forall_not_mem]
  intro b hb
  obtain ⟨y, _, hy1, hy2, hy3, _, _, hy4⟩ := mem_reimbursements h hb
  have hk := (known_of_tracks (tracks h)).requests hx
  have := knownReimb_unique h hy4 hk.2 hy2 hy3
  subst this
  have h0 := (reimbInv h).waiting hx (by
    intro p hp he
    refine hr ⟨p, (List.mem_filter.1 hp).1, ?_⟩
    obtain ⟨id, t, o⟩ := p
    cases t with
    | ledger t =>
      obtain ⟨r, l, rest, rfl⟩ := LedgerTask.reimb_eq he
      exact ⟨_, _, _, _, rfl⟩
    | ext t => cases he)
  simp only [repaidFor, List.map_eq_nil_iff, List.filter_eq_nil_iff] at h0
  exact h0 b (List.mem_filter.1 hb).1 (by simp [hy1])

end

namespace Example
attribute [local instance] keccak

/-- A withdrawal whose tokens could not be burned: the burn 1 of the transaction fee is owed. -/
def owing : List Action := [.start (.addToken manager usdcArg) 4,
  .start (.withdrawErc20 alice 700 usdcLedger to (some gasEstimate)) 5, .execute 0, .deliver 0 7, .execute 0, .deliver 0 9,
  .refuse 0 (.insufficientFunds 3), .deliver 0 10, .refuse 0 (.insufficientAllowance 0), .deliver 0 11]

/-- A first attempt is refused, the second succeeds, with two more timers firing before and after. -/
theorem C20_example : ∃ w, Reachable w ∧ decide (
    (w.reimbursements ledger 1).map (·.call.op) = [.mint ⟨alice, none⟩ 2729990] ∧
    w.mem.m.st.txs.reimbursementRequests.get (.native 1) = none ∧
    w.mem.m.st.txs.reimbursed.get (.native 1) = some (.ok ⟨2, 1, 2729990, none⟩)) = true :=
  after_reachable (arg := initArg) (l := owing ++ [.start .reimbursement 20, .refuse 0 .temporarilyUnavailable, .deliver 0 21,
    .start .reimbursement 30, .start .reimbursement 31, .execute 0, .start .reimbursement 32, .deliver 0 33, .start .reimbursement 40])
    (by decide +kernel)

/-- A trap after the ledger has executed the mint: the reimbursement is quarantined and not paid again. -/
theorem C20_example_trap : ∃ w, Reachable w ∧ decide (
    (w.reimbursements ledger 1).map (·.call.op) = [.mint ⟨alice, none⟩ 2729990] ∧
    w.mem.m.st.txs.reimbursementRequests.get (.native 1) = none ∧
    w.mem.m.st.txs.reimbursed.get (.native 1) = some .quarantined ∧ w.tasks.length = 0) = true :=
  after_reachable (arg := initArg) (l := owing ++ [.start .reimbursement 20, .execute 0, .kill 0, .start .reimbursement 40])
    (by decide +kernel)

/-- A trap before the ledger has executed the mint: the reimbursement is quarantined all the same, and never paid. -/
theorem C20_example_lost : ∃ w, Reachable w ∧ decide (
    w.reimbursements ledger 1 = [] ∧ w.mem.m.st.txs.reimbursementRequests.get (.native 1) = none ∧
    w.mem.m.st.txs.reimbursed.get (.native 1) = some .quarantined ∧ w.tasks.length = 0) = true :=
  after_reachable (arg := initArg) (l := owing ++ [.start .reimbursement 20, .reject 0, .kill 0, .start .reimbursement 40])
    (by decide +kernel)

end Example

end EvmMinter
