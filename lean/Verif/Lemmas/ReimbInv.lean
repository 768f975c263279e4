import Verif.Lemmas.MintInv
import Verif.Lemmas.Known
import Verif.Lemmas.Resume
/-!
# Reimbursements in reachable worlds
-/

namespace EvmMinter
open Spec

/-! ## Calls made for a reimbursement -/

/-- The reimbursement that the task pays. -/
def LedgerTask.reimb : LedgerTask → Option ReimbIndex
  | .reimburse x _ _ _ => some x
  | _ => none

def Task.reimb : Task → Option ReimbIndex
  | .ledger t => t.reimb
  | .ext _ => none

namespace Spec

/-- The reimbursement that the block was made for. -/
def Block.reimb (b : Block) : Option ReimbIndex := b.by'.bind fun x => x.2.reimb

/-- The reimbursement that the task pays. -/
def Pending.reimb (p : Pending) : Option ReimbIndex := p.task.reimb

end Spec

/-- The calls executed for the reimbursement `x`. -/
def repaidFor (bs : List Block) (x : ReimbIndex) : List LedgerCall := (bs.filter fun b => b.reimb == some x).map (·.call)

def reimbCall (ledger : Principal) (r : ReimbRequest) : LedgerCall :=
  ⟨ledger, .mint ⟨r.to, r.toSubaccount⟩ r.reimbursedAmount, some r.memo⟩

/-- The calls that were executed for the current reimbursement of a task. -/
def Spec.Pending.repaid (p : Pending) : List LedgerCall :=
  match p.task with
  | .ledger (.reimburse _ r l _) => if executed p.answer then [reimbCall l r] else []
  | _ => []

/-- The reimbursements `l` are outstanding. -/
structure ReimbQueue (s : State) (l : List (ReimbIndex × ReimbRequest)) : Prop where
  nodup : (l.map (·.1)).Nodup
  waiting : ∀ y ∈ l, s.txs.reimbursementRequests.get y.1 = some y.2

/-- What a suspended reimbursement relies on. -/
def ReimbClaim (c : Mem) : LedgerTask → Prop
  | .reimburse x r l rest => ReimbQueue c.m.st ((x, r) :: rest) ∧ l = c.reimbursementLedger x
  | _ => True

/-- The request was outstanding at some time. -/
def WasOwed [Keccak] (log : List Event) (x : ReimbIndex) (r : ReimbRequest) : Prop :=
  ∃ pre s, pre <+: log ∧ replay pre = .ok s ∧ s.txs.reimbursementRequests.get x = some r

/-- The calls `l` are right for the reimbursement `x`. -/
def Repaid [Keccak] (c : Mem) (x : ReimbIndex) (l : List LedgerCall) : Prop :=
  l = [] ∨ ∃ r, l = [reimbCall (c.reimbursementLedger x) r] ∧ WasOwed c.m.log x r

/-- Nothing is known about the reimbursement. -/
def State.ReimbUnseen (s : State) (x : ReimbIndex) : Prop :=
  s.txs.reimbursementRequests.get x = none ∧ s.txs.reimbursed.get x = none

/-- The suspended reimbursements. -/
def reimbTasks (l : List Pending) : List Pending := l.filter fun p => p.reimb.isSome

/-- The blocks agree with the outstanding and the suspended reimbursements `ts`. -/
structure ReimbInv [Keccak] (c : Mem) (bs : List Block) (ts : List Pending) : Prop where
  waiting : ∀ {x r}, c.m.st.txs.reimbursementRequests.get x = some r → (∀ p ∈ ts, p.reimb ≠ some x) → repaidFor bs x = []
  current : ∀ {p x}, p ∈ ts → p.reimb = some x → repaidFor bs x = p.repaid
  unseen : ∀ {x}, c.m.st.ReimbUnseen x → repaidFor bs x = []
  paid : ∀ x, Repaid c x (repaidFor bs x)
  claim : ∀ {p t}, p ∈ ts → p.task = .ledger t → ReimbClaim c t

/-! ## Events -/

/-- Outstanding reimbursements stay where they are, or are new. -/
structure ReimbFrame (t t' : Transactions) : Prop where
  keep : ∀ {x r}, t.reimbursementRequests.get x = some r → t'.reimbursementRequests.get x = some r
  back : ∀ {x r}, t'.reimbursementRequests.get x = some r → t.reimbursementRequests.get x = some r ∨
    (t.reimbursementRequests.get x = none ∧ t.reimbursed.get x = none)
  reimbursed : t'.reimbursed = t.reimbursed

theorem ReimbFrame.of_eq {t t' : Transactions} (h : t'.reimbursementRequests = t.reimbursementRequests) (h' : t'.reimbursed = t.reimbursed) :
    ReimbFrame t t' := ⟨fun hx => by rw [h]; exact hx, fun hx => .inl (by rw [← h]; exact hx), h'⟩

theorem ReimbFrame.insert {t t' : Transactions} {x : ReimbIndex} {r : ReimbRequest} (h1 : t.reimbursementRequests.get x = none)
    (h2 : t.reimbursed.get x = none) (h : t'.reimbursementRequests = t.reimbursementRequests.insert x r) (h' : t'.reimbursed = t.reimbursed) :
    ReimbFrame t t' := by
  refine ⟨fun {y q} hy => ?_, fun {y q} hy => ?_, h'⟩
  · rw [h, FMap.get_insert, if_neg (by rintro rfl; rw [h1] at hy; cases hy)]; exact hy
  · rw [h, FMap.get_insert] at hy
    split at hy
    · rename_i he; subst he; exact .inr ⟨h1, h2⟩
    · exact .inl hy

theorem ReimbFrame.refl (t : Transactions) : ReimbFrame t t := .of_eq rfl rfl

theorem ReimbFrame.unseen {s s' : State} (h : ReimbFrame s.txs s'.txs) {x : ReimbIndex} (hu : s'.ReimbUnseen x) : s.ReimbUnseen x := by
  refine ⟨?_, h.reimbursed ▸ hu.2⟩
  cases hx : s.txs.reimbursementRequests.get x with
  | none => rfl
  | some r => have := h.keep hx; rw [hu.1] at this; cases this

theorem ReimbFrame.trans {t t' t'' : Transactions} (h : ReimbFrame t t') (h' : ReimbFrame t' t'') : ReimbFrame t t'' := by
  refine ⟨fun hx => h'.keep (h.keep hx), fun {x r} hx => ?_, h'.reimbursed.trans h.reimbursed⟩
  rcases h'.back hx with h1 | ⟨h1, h2⟩
  · exact h.back h1
  · refine .inr ⟨?_, h.reimbursed ▸ h2⟩
    cases hx : t.reimbursementRequests.get x with
    | none => rfl
    | some r => rw [h.keep hx] at h1; cases h1

variable [Keccak]

theorem txEvent_reimbFrame {t t' : Transactions} {e : Event} (w : t.MapsWF) (h : txEvent t e = .ok t') (he : e.origin ≠ .reimburse) :
    ReimbFrame t t' := by
  cases e <;> simp only [txEvent] at h
  case acceptedNativeWithdrawalRequest r =>
    obtain ⟨rfl, _⟩ := Transactions.recordWithdrawalRequest_ok w h
    exact .of_eq rfl rfl
  case acceptedErc20WithdrawalRequest r =>
    obtain ⟨rfl, _⟩ := Transactions.recordWithdrawalRequest_ok w h
    exact .of_eq rfl rfl
  case createdTransaction i tx =>
    obtain ⟨_, _, _, _, _, _, _, _, _, _, _, _, rfl⟩ := Transactions.recordCreatedTransaction_ok h
    exact .of_eq rfl rfl
  case signedTransaction i tx =>
    obtain ⟨_, _, _, _, _, _, _, _, rfl⟩ := Transactions.recordSignedTransaction_ok h
    exact .of_eq rfl rfl
  case replacedTransaction i tx =>
    obtain ⟨_, _, _, _, _, _, _, _, _, _, rfl⟩ := Transactions.recordResubmitTransaction_ok h
    exact .of_eq rfl rfl
  case finalizedTransaction i receipt =>
    obtain ⟨_, _, _, _, _, _, _, _, _, _, _, _, _, _, _, _, _, k6⟩ := Transactions.recordFinalizedTransaction_ok w h
    rcases k6 with ⟨_, rfl⟩ | ⟨_, _, k7, k8, rfl⟩
    · exact .of_eq rfl rfl
    · exact .insert k8 k7 rfl rfl
  case failedErc20WithdrawalRequest r =>
    obtain ⟨_, k7, k8, rfl⟩ := Transactions.recordReimbursementRequest_ok h
    exact .insert k8 k7 rfl rfl
  case upgrade a =>
    cases h
    unfold withNonce
    split <;> exact .of_eq rfl rfl
  all_goals first
    | exact absurd rfl he
    | (cases h; exact .refl _)

theorem Grew.reimbFrame {o : Origin} {m m' : Minter} (h : Grew o m m') (ht : Tracks m.log m.st) (ho : o ≠ .reimburse) :
    ReimbFrame m.st.txs m'.st.txs := by
  obtain ⟨es, h1, h2⟩ := h.ext
  have ht' := h.tracks ht
  rw [h1] at ht'
  obtain ⟨s₀, s₀', e0, e1, e2, e3⟩ := ht.between' ht'
  have : (∃ l, KnownInv l s₀'.txs) ∧ ReimbFrame s₀.txs s₀'.txs := by
    refine applyEvents_induct (P := fun x => (∃ l, KnownInv l x.txs) ∧ ReimbFrame s₀.txs x.txs) (fun e he a b hp ha => ?_)
      ⟨⟨_, known_of_replay e0⟩, .refl _⟩ e3
    obtain ⟨⟨l, hl⟩, hp⟩ := hp
    have hx := applyEvent_txs ha
    exact ⟨⟨_, hl.event hx⟩, hp.trans (txEvent_reimbFrame hl.maps hx (by rw [h2 e he]; exact ho))⟩
  rw [e1, e2]
  exact ⟨this.2.keep, this.2.back, this.2.reimbursed⟩

theorem wasOwed_of_tracks {log : List Event} {s : State} (h : Tracks log s) {x : ReimbIndex} {r : ReimbRequest}
    (hr : s.txs.reimbursementRequests.get x = some r) : WasOwed log x r := by
  obtain ⟨s₀, h1, _, _, h4⟩ := h
  rw [h4] at hr
  exact ⟨log, s₀, List.prefix_rfl, h1, hr⟩

theorem WasOwed.mono {log log' : List Event} (h : log <+: log') {x : ReimbIndex} {r : ReimbRequest} (hr : WasOwed log x r) :
    WasOwed log' x r := by
  obtain ⟨pre, s, h1, h2⟩ := hr
  exact ⟨pre, s, h1.trans h, h2⟩

omit [Keccak] in
theorem repaidFor_append (bs bs' : List Block) (x : ReimbIndex) : repaidFor (bs ++ bs') x = repaidFor bs x ++ repaidFor bs' x := by
  simp [repaidFor]

omit [Keccak] in
theorem reimbursementLedger_eq {c c' : Mem} (h : c'.m.st.fixed = c.m.st.fixed) (x : ReimbIndex) :
    c'.reimbursementLedger x = c.reimbursementLedger x := by
  cases x
  · exact congrArg FixedConfig.nativeLedgerId h
  · rfl

theorem Repaid.shift {c c' : Mem} {o : Origin} {x : ReimbIndex} {l : List LedgerCall} (h : Repaid c x l) (hs : Shift o c.m c'.m) :
    Repaid c' x l := by
  obtain ⟨es, he⟩ := hs.log
  rcases h with h | ⟨r, h1, h2⟩
  · exact .inl h
  · refine .inr ⟨r, ?_, h2.mono ⟨es, he.symm⟩⟩
    rw [reimbursementLedger_eq hs.fixed]; exact h1

/-- Messages that do not reimburse. -/
theorem ReimbInv.shift {c c' : Mem} {o : Origin} {bs : List Block} {ts : List Pending} (h : ReimbInv c bs ts)
    (hg : Grew o c.m c'.m) (ho : o ≠ .reimburse) (ht : Tracks c.m.log c.m.st) : ReimbInv c' bs ts := by
  have hs := hg.shift ht
  have F := hg.reimbFrame ht ho
  refine ⟨fun {x r} hd hp => ?_, fun hp hm => h.current hp hm, fun hu => h.unseen (F.unseen hu), fun x => (h.paid x).shift hs,
    fun {p t} hp he => ?_⟩
  · rcases F.back hd with h1 | h1
    · exact h.waiting h1 hp
    · exact h.unseen h1
  · have hc := h.claim hp he
    cases t with
    | reimburse x r l rest =>
      exact ⟨⟨hc.1.nodup, fun y hy => F.keep (hc.1.waiting y hy)⟩, hc.2.trans (reimbursementLedger_eq hs.fixed x).symm⟩
    | _ => trivial

theorem ReimbInv.of_m {c c' : Mem} {bs : List Block} {ts : List Pending} (h : ReimbInv c bs ts) (hm : c'.m = c.m) : ReimbInv c' bs ts := by
  have hl : ∀ x, c'.reimbursementLedger x = c.reimbursementLedger x := reimbursementLedger_eq (by rw [hm])
  refine ⟨fun {x r} hd hp => h.waiting (hm ▸ hd) hp, fun hp hx => h.current hp hx, fun hu => h.unseen (hm ▸ hu), fun x => ?_, fun {p t} hp he => ?_⟩
  · have := h.paid x
    unfold Repaid at this ⊢
    rw [hm, hl]; exact this
  · have hc := h.claim hp he
    cases t with
    | reimburse x r l rest => exact ⟨hm ▸ hc.1, hc.2.trans (hl x).symm⟩
    | _ => trivial

/-- Blocks that are not reimbursements. -/
theorem ReimbInv.block {c : Mem} {bs : List Block} {ts : List Pending} (h : ReimbInv c bs ts) {b : Block} (hb : b.reimb = none) :
    ReimbInv c (bs ++ [b]) ts := by
  have hp : ∀ x, repaidFor (bs ++ [b]) x = repaidFor bs x := by
    intro x
    rw [repaidFor_append]
    simp [repaidFor, hb]
  exact ⟨fun hd hs => hp _ ▸ h.waiting hd hs, fun hs hm => hp _ ▸ h.current hs hm, fun hu => hp _ ▸ h.unseen hu,
    fun x => hp _ ▸ h.paid x, h.claim⟩

theorem ReimbInv.refused {c : Mem} {bs : List Block} {id : Nat} {t : LedgerTask} {a : LedgerAnswer}
    (h : ReimbInv c bs [⟨id, .ledger t, none⟩]) (ha : executed (some a) = false) : ReimbInv c bs [⟨id, .ledger t, some a⟩] := by
  refine ⟨fun hd hs => h.waiting hd (fun p hp => ?_), fun {p x} hp hm => ?_, h.unseen, h.paid, fun {p t'} hp he => ?_⟩
  · rw [List.mem_singleton] at hp; subst hp
    exact hs ⟨id, .ledger t, some a⟩ (by simp)
  · rw [List.mem_singleton] at hp; subst hp
    rw [h.current (p := ⟨id, .ledger t, none⟩) (by simp) hm]
    have hn : executed none = false := rfl
    cases t <;> simp [Pending.repaid, ha, hn]
  · rw [List.mem_singleton] at hp; subst hp
    exact h.claim (p := ⟨id, .ledger t, none⟩) (by simp) he

/-- The ledger executes a reimbursement. -/
theorem ReimbInv.execute {c : Mem} {bs : List Block} {id : Nat} {i : Nat} {x : ReimbIndex} {r : ReimbRequest} {l : Principal}
    {rest : List (ReimbIndex × ReimbRequest)} (h : ReimbInv c bs [⟨id, .ledger (.reimburse x r l rest), none⟩])
    (ht : Tracks c.m.log c.m.st) :
    ReimbInv c (bs ++ [⟨(LedgerTask.reimburse x r l rest).call c.id, some (id, .reimburse x r l rest)⟩])
      [⟨id, .ledger (.reimburse x r l rest), some (.block i)⟩] := by
  generalize hB : (⟨(LedgerTask.reimburse x r l rest).call c.id, some (id, .reimburse x r l rest)⟩ : Block) = B
  have hb : B.reimb = some x := by subst hB; rfl
  have hp : ∀ y, y ≠ x → repaidFor (bs ++ [B]) y = repaidFor bs y := by
    intro y hy
    rw [repaidFor_append]
    simp [repaidFor, hb, hy.symm]
  have hcur := h.current (p := ⟨id, .ledger (.reimburse x r l rest), none⟩) (by simp) rfl
  have hcl := h.claim (p := ⟨id, .ledger (.reimburse x r l rest), none⟩) (by simp) rfl
  have hdone : repaidFor (bs ++ [B]) x = [reimbCall l r] := by
    rw [repaidFor_append, hcur]
    have : repaidFor [B] x = [B.call] := by simp [repaidFor, hb]
    rw [this]
    subst hB
    rfl
  have hw : c.m.st.txs.reimbursementRequests.get x = some r := hcl.1.waiting (x, r) (by simp)
  refine ⟨fun {y r'} hd' hs => ?_, fun {p y} hpm hpm' => ?_, fun {y} hu => ?_, fun y => ?_, fun {p t'} hpm he => ?_⟩
  · have hne : y ≠ x := fun e => hs _ (List.mem_singleton_self _) (e ▸ rfl)
    rw [hp y hne]
    refine h.waiting hd' (fun p hpm => ?_)
    rw [List.mem_singleton] at hpm; subst hpm
    exact fun e => hne (Option.some.inj e).symm
  · rw [List.mem_singleton] at hpm; subst hpm
    cases hpm'
    rw [hdone]
    rfl
  · have hne : y ≠ x := by rintro rfl; rw [hu.1] at hw; cases hw
    rw [hp y hne]
    exact h.unseen hu
  · by_cases hne : y = x
    · subst hne
      exact .inr ⟨r, by rw [hdone, hcl.2], wasOwed_of_tracks ht hw⟩
    · rw [hp y hne]; exact h.paid y
  · rw [List.mem_singleton] at hpm; subst hpm
    cases he
    exact hcl

/-- The task gives up its current reimbursement, for which nothing was executed. -/
theorem ReimbInv.skip {c : Mem} {bs : List Block} {p : Pending} {x : ReimbIndex} (h : ReimbInv c bs [p]) (hm : p.reimb = some x)
    (hd : p.repaid = []) : ReimbInv c bs [] := by
  refine ⟨fun {y r} hd' _ => ?_, fun hp => (by cases hp), h.unseen, h.paid, fun hp => (by cases hp)⟩
  by_cases hs : y = x
  · subst hs
    rw [h.current (List.mem_singleton_self _) hm, hd]
  · refine h.waiting hd' (fun q hq => ?_)
    rw [List.mem_singleton] at hq; subst hq
    rw [hm]; exact fun e => hs (Option.some.inj e).symm

/-- The reimbursement is settled: paid or quarantined. -/
structure ReimbSettles (t t' : Transactions) (x : ReimbIndex) : Prop where
  keep : ∀ {y r}, y ≠ x → t.reimbursementRequests.get y = some r → t'.reimbursementRequests.get y = some r
  back : ∀ {y r}, t'.reimbursementRequests.get y = some r → t.reimbursementRequests.get y = some r ∧ y ≠ x
  unseen : ∀ {y}, t'.reimbursementRequests.get y = none → t'.reimbursed.get y = none →
    t.reimbursementRequests.get y = none ∧ t.reimbursed.get y = none

omit [Keccak] in
theorem settles_reimb {t t' : Transactions} {x : ReimbIndex} {q : ReimbResult} (h : t'.reimbursementRequests = t.reimbursementRequests.erase x)
    (h' : t'.reimbursed = t.reimbursed.insert x q) : ReimbSettles t t' x := by
  refine ⟨fun {y r} hn hd => ?_, fun {y r} hd => ?_, fun {y} u1 u2 => ?_⟩
  · simp only [h, FMap.get_erase, if_neg hn]; exact hd
  · simp only [h, FMap.get_erase] at hd
    split at hd
    · cases hd
    · exact ⟨hd, ‹_›⟩
  · rw [h, FMap.get_erase] at u1
    rw [h', FMap.get_insert] at u2
    split at u2
    · cases u2
    · rename_i hh
      rw [if_neg hh] at u1
      exact ⟨u1, u2⟩

theorem settles_reimbursed {s s' : State} {x : ReimbIndex} {r : ReimbRequest} {b : Nat} (hb : r.ledgerBurnIndex = x.burnInBlock)
    (h : applyEvent s (reimbursedEvent x r b) = .ok s') : ReimbSettles s.txs s'.txs x := by
  have hx := applyEvent_txs h
  cases x with
  | native n =>
    have hx : s.txs.recordFinalizedReimbursement (.native r.ledgerBurnIndex) b = .ok s'.txs := hx
    rw [hb] at hx
    obtain ⟨_, _, _, he⟩ := Transactions.recordFinalizedReimbursement_ok hx
    rw [he]
    exact settles_reimb rfl rfl
  | erc20 n l k =>
    have hx : s.txs.recordFinalizedReimbursement (.erc20 n l r.ledgerBurnIndex) b = .ok s'.txs := hx
    rw [hb] at hx
    obtain ⟨_, _, _, he⟩ := Transactions.recordFinalizedReimbursement_ok hx
    rw [he]
    exact settles_reimb rfl rfl

theorem settles_quarantinedReimb {s s' : State} {x : ReimbIndex} (h : applyEvent s (.quarantinedReimbursement x) = .ok s') :
    ReimbSettles s.txs s'.txs x := by
  have hx := applyEvent_txs h
  simp only [txEvent, Except.ok.injEq] at hx
  rw [← hx]
  exact settles_reimb rfl rfl

theorem ReimbInv.settle {c c' : Mem} {bs : List Block} {p : Pending} {x : ReimbIndex} {o : Origin} (h : ReimbInv c bs [p])
    (hm : p.reimb = some x) (hs : ReimbSettles c.m.st.txs c'.m.st.txs x) (hsh : Shift o c.m c'.m) : ReimbInv c' bs [] := by
  refine ⟨fun {y r} hd' _ => ?_, fun hp => (by cases hp), fun hu => h.unseen (hs.unseen hu.1 hu.2), fun y => (h.paid y).shift hsh,
    fun hp => (by cases hp)⟩
  obtain ⟨h1, h2⟩ := hs.back hd'
  refine h.waiting h1 (fun q hq => ?_)
  rw [List.mem_singleton] at hq; subst hq
  rw [hm]; exact fun e => h2 (Option.some.inj e).symm

theorem ReimbInv.loop {c c' : Mem} {bs : List Block} {l : List (ReimbIndex × ReimbRequest)} {n : Next} {id : Nat} (h : ReimbInv c bs [])
    (hq : ReimbQueue c.m.st l) (hr : c.reimburseLoop l = .ok (c', n)) : ReimbInv c' bs (reimbTasks (n.pending id)) := by
  cases l with
  | nil =>
    cases hr
    exact h.of_m rfl
  | cons y rest =>
    obtain ⟨x, r⟩ := y
    cases hr
    have hp : ∀ {p : Pending}, p ∈ reimbTasks (Next.pending id (.await (.ledger (.reimburse x r (c.reimbursementLedger x) rest)))) →
        p = ⟨id, .ledger (.reimburse x r (c.reimbursementLedger x) rest), none⟩ := by
      intro p hp
      have := (List.mem_filter.1 hp).1
      simpa [Next.pending] using this
    refine ⟨fun hd _ => h.waiting hd (by simp), fun {p y} hpm hm => ?_, h.unseen, h.paid, fun {p t} hpm he => ?_⟩
    · cases hp hpm
      cases hm
      rw [h.waiting (hq.waiting (x, r) (by simp)) (by simp)]
      rfl
    · cases hp hpm
      cases he
      exact ⟨hq, rfl⟩

/-! ## Worlds -/

omit [Keccak] in
theorem reimb_iff (p : Pending) : p.reimb.isSome = true ↔ .reimbursement ∈ p.task.running := by
  obtain ⟨id, t, a⟩ := p
  cases t with
  | ledger t => cases t <;> simp [Pending.reimb, Task.reimb, LedgerTask.reimb, Task.running]
  | ext t => cases t <;> simp [Pending.reimb, Task.reimb, Task.running]

omit [Keccak] in
@[simp] theorem reimbTasks_append (l l' : List Pending) : reimbTasks (l ++ l') = reimbTasks l ++ reimbTasks l' := by simp [reimbTasks]

omit [Keccak] in
theorem reimbTasks_cons (p : Pending) (l : List Pending) :
    reimbTasks (p :: l) = (if p.reimb.isSome then [p] else []) ++ reimbTasks l := by
  simp only [reimbTasks, List.filter_cons]
  split <;> simp

omit [Keccak] in
theorem reimbTasks_eq_nil {l : List Pending} : reimbTasks l = [] ↔ TaskType.reimbursement ∉ runningOf l := by
  simp only [reimbTasks, List.filter_eq_nil_iff, reimb_iff, runningOf, List.mem_flatMap, not_exists, not_and]

omit [Keccak] in
/-- There is at most one suspended reimbursement. -/
theorem reimbTasks_split {c : Mem} {pre post : List Pending} {p : Pending} (h : LockInv c (pre ++ p :: post))
    (hp : p.reimb.isSome = true) : reimbTasks pre = [] ∧ reimbTasks post = [] := by
  have hn := h.rnodup
  rw [runningOf_append, runningOf_cons] at hn
  have hm := (reimb_iff p).1 hp
  simp only [List.nodup_append, List.mem_append] at hn
  obtain ⟨_, ⟨_, _, h4⟩, h5⟩ := hn
  rw [reimbTasks_eq_nil, reimbTasks_eq_nil]
  exact ⟨fun hh => h5 _ hh _ (.inl hm) rfl, fun hh => h4 _ hm _ hh rfl⟩

omit [Keccak] in
theorem reimbTasks_next {n : Next} {id : Nat} (h : TaskType.reimbursement ∉ n.running) : reimbTasks (n.pending id) = [] := by
  rw [reimbTasks_eq_nil, runningOf_next]; exact h

omit [Keccak] in
theorem reimbQueue_all (s : State) : ReimbQueue s s.txs.reimbursementRequests.toList :=
  ⟨FMap.keys_nodup _, fun _ hy => FMap.mem_toList.1 hy⟩

omit [Keccak] in
theorem LedgerTask.reimb_eq {t : LedgerTask} {x : ReimbIndex} (h : t.reimb = some x) : ∃ r l rest, t = .reimburse x r l rest := by
  cases t <;> simp only [LedgerTask.reimb, reduceCtorEq, Option.some.injEq] at h
  subst h
  exact ⟨_, _, _, rfl⟩

/-- An answer to a reimbursement. -/
theorem ReimbInv.deliver {c c' : Mem} {bs : List Block} {id : Nat} {x : ReimbIndex} {r : ReimbRequest} {l : Principal}
    {rest : List (ReimbIndex × ReimbRequest)} {a : LedgerAnswer} {n : Next}
    (h : ReimbInv c bs [⟨id, .ledger (.reimburse x r l rest), some a⟩]) (ht : Tracks c.m.log c.m.st)
    (hr : c.onReimburse x r rest a = .ok (c', n)) : ReimbInv c' bs (reimbTasks (n.pending id)) := by
  have hcl := (h.claim (p := ⟨id, .ledger (.reimburse x r l rest), some a⟩) (by simp) rfl).1
  have hnd := List.nodup_cons.1 hcl.nodup
  rcases Mem.onReimburse_cases hr with ⟨i, c1, rfl, hi, hp, hl⟩ | ⟨hne, hl⟩
  · have hg : Grew .reimburse c.m c1.m := Grew.process (by cases x <;> rfl) hp
    have hsh := hg.shift ht
    simp only [Mem.process, Minter.processEvent, Res.bind_ok, Res.pure_ok] at hp
    obtain ⟨m, ⟨s, hs, rfl⟩, rfl⟩ := hp
    have hb := ((known_of_tracks ht).requests (hcl.waiting (x, r) (by simp))).1
    have hset := settles_reimbursed hb hs
    refine (h.settle rfl hset hsh).loop ⟨hnd.2, fun y hy => hset.keep (fun e => ?_) (hcl.waiting y (by simp [hy]))⟩ hl
    refine hnd.1 ?_
    rw [show (fun z : ReimbIndex × ReimbRequest => z.1) (x, r) = y.1 from e.symm]
    exact List.mem_map_of_mem hy
  · refine (h.skip rfl ?_).loop ⟨hnd.2, fun y hy => hcl.waiting y (by simp [hy])⟩ hl
    cases a with
    | block i => exact absurd rfl (hne i)
    | _ => rfl

/-- A reimbursement is dropped. -/
theorem ReimbInv.dropped {c c' : Mem} {bs : List Block} {id : Nat} {x : ReimbIndex} {r : ReimbRequest} {l : Principal}
    {rest : List (ReimbIndex × ReimbRequest)} {o : Option LedgerAnswer}
    (h : ReimbInv c bs [⟨id, .ledger (.reimburse x r l rest), o⟩]) (ht : Tracks c.m.log c.m.st)
    (hr : (Task.ledger (.reimburse x r l rest)).cleanup c = .ok c') : ReimbInv c' bs [] := by
  have hsh := (Task.cleanup_grew hr).shift ht
  simp only [Task.cleanup, Res.bind_ok, Res.pure_ok] at hr
  obtain ⟨c1, h1, rfl⟩ := hr
  simp only [Mem.process, Minter.processEvent, Res.bind_ok, Res.pure_ok] at h1
  obtain ⟨m, ⟨s, hs, rfl⟩, rfl⟩ := h1
  exact h.settle rfl (settles_quarantinedReimb hs) hsh

theorem reimbInv {w : World} (h : Reachable w) : ReimbInv w.mem w.blocks (reimbTasks w.tasks) := by
  induction h with
  | init id a s blocks hs hb =>
    have hp : ∀ x, repaidFor blocks x = [] := by
      intro x
      simp only [repaidFor, List.map_eq_nil_iff, List.filter_eq_nil_iff]
      intro b hm
      simp [Block.reimb, (hb b hm).1]
    refine ⟨fun _ _ => hp _, fun {p x} hh => ?_, fun _ => hp _, fun x => .inl (hp x), fun {p t} hh => ?_⟩
    · cases hh
    · cases hh
  | step w w' hr hs ih =>
    have T := tracks hr
    have L := lockInv hr
    have hother : ∀ {o : Origin} {c' : Mem}, Grew o w.mem.m c'.m → o ≠ .reimburse → ReimbInv c' w.blocks (reimbTasks w.tasks) :=
      fun g h1 => ih.shift g h1 T
    have hext : ∀ (t : ExtTask), t.origin ≠ .reimburse ∧ TaskType.reimbursement ∉ (Task.ext t).running := by
      intro t; cases t <;> simp [ExtTask.origin, Task.running]
    have hled : ∀ (t : LedgerTask), t.reimb = none → t.origin ≠ .reimburse ∧ TaskType.reimbursement ∉ (Task.ledger t).running := by
      intro t; cases t <;> simp [LedgerTask.origin, LedgerTask.reimb, Task.running]
    -- a task that is not a reimbursement is exchanged for tasks that are not
    have hsame : ∀ {pre post l : List Pending} {p : Pending}, w.tasks = pre ++ p :: post → TaskType.reimbursement ∉ p.task.running →
        reimbTasks l = [] → reimbTasks (pre ++ l ++ post) = reimbTasks w.tasks := by
      intro pre post l p ht hp hl
      have hp' : ¬ p.reimb.isSome = true := fun hh => hp ((reimb_iff p).1 hh)
      rw [ht]
      simp [reimbTasks_cons, hp', hl]
    have hsame' : ∀ {pre post : List Pending} {p q : Pending}, w.tasks = pre ++ p :: post → TaskType.reimbursement ∉ p.task.running →
        TaskType.reimbursement ∉ q.task.running → reimbTasks (pre ++ q :: post) = reimbTasks w.tasks := by
      intro pre post p q ht hp hq
      have := hsame (l := [q]) ht hp (by rw [reimbTasks_eq_nil]; simpa [runningOf] using hq)
      simpa using this
    -- a reimbursement is the only one
    have hone : ∀ {pre post : List Pending} {p : Pending}, w.tasks = pre ++ p :: post → p.reimb.isSome = true →
        (∀ l, reimbTasks (pre ++ l ++ post) = reimbTasks l) ∧ reimbTasks w.tasks = [p] := by
      intro pre post p ht hp
      rw [ht] at L
      obtain ⟨h1, h2⟩ := reimbTasks_split L hp
      refine ⟨fun l => by simp [h1, h2], ?_⟩
      rw [ht]
      simp [reimbTasks_cons, hp, h1, h2]
    have hone' : ∀ {pre post : List Pending} {p q : Pending}, w.tasks = pre ++ p :: post → p.reimb.isSome = true → q.reimb.isSome = true →
        reimbTasks (pre ++ q :: post) = [q] ∧ reimbTasks w.tasks = [p] := by
      intro pre post p q ht hp hq
      obtain ⟨h1, h2⟩ := hone ht hp
      have := h1 [q]
      simp only [List.append_assoc, List.cons_append, List.nil_append] at this
      exact ⟨by rw [this]; simp [hq, reimbTasks], h2⟩
    cases hs with
    | start msg now c n _ hr =>
      show ReimbInv c w.blocks (reimbTasks (w.tasks ++ n.pending w.nextId ++ []))
      rw [List.append_nil, reimbTasks_append]
      by_cases hmsg : msg = .reimbursement
      · subst hmsg
        simp only [Message.run] at hr
        unfold Mem.startReimbursement at hr
        split at hr
        · cases hr
          simpa [Next.pending, reimbTasks] using ih
        · rename_i c1 h1
          have hm1 := Mem.acquire_m h1
          have hfree : TaskType.reimbursement ∉ w.mem.active := by
            unfold Mem.acquire at h1
            split at h1
            · cases h1
            · assumption
          have hnil : reimbTasks w.tasks = [] := by
            rw [reimbTasks_eq_nil, ← L.active]; exact hfree
          rw [hnil] at ih ⊢
          exact (ih.of_m hm1).loop (reimbQueue_all _) hr
      · have hno : TaskType.reimbursement ∉ n.running := fun hh => hmsg ((Message.run_running hr).2 hh)
        rw [reimbTasks_next hno, List.append_nil]
        refine hother (Message.run_grew hr) ?_
        cases msg <;> simp [Message.origin] at hmsg ⊢
    | startTrap msg now e _ hr => simpa [World.drop, World.begin] using ih
    | execute pre post id t ht _ =>
      show ReimbInv w.mem _ (reimbTasks (pre ++ _ :: post))
      cases hd : t.reimb with
      | none =>
        rw [hsame' ht (hled t hd).2 (hled t hd).2]
        exact ih.block (by simp [Block.reimb, hd])
      | some x =>
        obtain ⟨r, l, rest, rfl⟩ := LedgerTask.reimb_eq hd
        obtain ⟨h1, h2⟩ := hone' (q := ⟨id, .ledger (.reimburse x r l rest), some (.block (w.height l))⟩) ht rfl rfl
        rw [h2] at ih
        rw [show (LedgerTask.call w.mem.id (.reimburse x r l rest)).ledger = l from rfl, h1]
        exact ih.execute T
    | refuse pre post id t e ht _ =>
      show ReimbInv w.mem _ (reimbTasks (pre ++ _ :: post))
      cases hd : t.reimb with
      | none => rw [hsame' ht (hled t hd).2 (hled t hd).2]; exact ih
      | some x =>
        obtain ⟨r, l, rest, rfl⟩ := LedgerTask.reimb_eq hd
        obtain ⟨h1, h2⟩ := hone' (q := ⟨id, .ledger (.reimburse x r l rest), some (.refused e)⟩) ht rfl rfl
        rw [h2] at ih
        rw [h1]
        exact ih.refused rfl
    | reject pre post id t ht =>
      show ReimbInv w.mem _ (reimbTasks (pre ++ _ :: post))
      cases hd : t.reimb with
      | none => rw [hsame' ht (hled t hd).2 (hled t hd).2]; exact ih
      | some x =>
        obtain ⟨r, l, rest, rfl⟩ := LedgerTask.reimb_eq hd
        obtain ⟨h1, h2⟩ := hone' (q := ⟨id, .ledger (.reimburse x r l rest), some .rejected⟩) ht rfl rfl
        rw [h2] at ih
        rw [h1]
        exact ih.refused rfl
    | deliver pre post id t a now c n ht hr =>
      show ReimbInv c w.blocks (reimbTasks (pre ++ n.pending id ++ post))
      have hlk := LedgerTask.resume_locks hr
      cases hd : t.reimb with
      | none =>
        rw [hsame ht (hled t hd).2 (reimbTasks_next fun hh => (hled t hd).2 (hlk.run _ hh))]
        exact hother (LedgerTask.resume_grew hr) (hled t hd).1
      | some x =>
        obtain ⟨r, l, rest, rfl⟩ := LedgerTask.reimb_eq hd
        obtain ⟨h1, h2⟩ := hone ht rfl
        rw [h1]
        rw [h2] at ih
        exact ih.deliver T hr
    | deliverTrap pre post id t a now e c ht hr hc =>
      show ReimbInv c w.blocks (reimbTasks (pre ++ post))
      cases hd : t.reimb with
      | none =>
        have := hsame (l := []) ht (hled t hd).2 rfl
        rw [List.append_nil] at this
        rw [this]
        exact hother (Task.cleanup_grew hc) (hled t hd).1
      | some x =>
        obtain ⟨r, l, rest, rfl⟩ := LedgerTask.reimb_eq hd
        obtain ⟨h1, h2⟩ := hone ht rfl
        have := h1 []
        rw [List.append_nil] at this
        rw [this]
        rw [h2] at ih
        exact ih.dropped T hc
    | kill pre post id t a c ht hc =>
      show ReimbInv c w.blocks (reimbTasks (pre ++ post))
      cases hd : t.reimb with
      | none =>
        have := hsame (l := []) ht (hled t hd).2 rfl
        rw [List.append_nil] at this
        rw [this]
        exact hother (Task.cleanup_grew hc) (hled t hd).1
      | some x =>
        obtain ⟨r, l, rest, rfl⟩ := LedgerTask.reimb_eq hd
        obtain ⟨h1, h2⟩ := hone ht rfl
        have := h1 []
        rw [List.append_nil] at this
        rw [this]
        rw [h2] at ih
        exact ih.dropped T hc
    | answer pre post id t o a now c n ht _ hr =>
      show ReimbInv c w.blocks (reimbTasks (pre ++ n.pending id ++ post))
      have hlk := ExtTask.resume_locks hr
      rw [hsame ht (hext t).2 (reimbTasks_next fun hh => (hext t).2 (hlk.run _ hh))]
      exact hother (ExtTask.resume_grew hr) (hext t).1
    | answerTrap pre post id t o a now e c ht _ hr hc =>
      show ReimbInv c w.blocks (reimbTasks (pre ++ post))
      have := hsame (l := []) ht (hext t).2 rfl
      rw [List.append_nil] at this
      rw [this]
      exact hother (Task.cleanup_grew hc) (hext t).1
    | killExt pre post id t o c ht hc =>
      show ReimbInv c w.blocks (reimbTasks (pre ++ post))
      have := hsame (l := []) ht (hext t).2 rfl
      rw [List.append_nil] at this
      rw [this]
      exact hother (Task.cleanup_grew hc) (hext t).1
    | foreign call hf => exact ih.block rfl
    | upgrade arg log s ht hp =>
      obtain ⟨h1, es, h2, h3⟩ := postUpgrade_grew hp
      have g : Grew .lifecycle w.mem.m ⟨s, log⟩ := ⟨⟨es, h2, h3⟩, fun _ => h1, fun _ h => absurd rfl h, fun _ h => absurd rfl h⟩
      show ReimbInv _ w.blocks (reimbTasks w.tasks)
      exact ih.shift (c' := ⟨w.mem.id, ⟨s, log⟩, none, none, [], []⟩) g (by simp) T

end EvmMinter
