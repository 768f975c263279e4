import Verif.Lemmas.Shift
/-!
# Mints of deposits in reachable worlds
-/

namespace EvmMinter
open Spec

/-! ## Calls made for a deposit -/

/-- The deposit that the task mints. -/
def LedgerTask.deposit : LedgerTask → Option Deposit
  | .mintUser _ d _ _ _ _ | .mintFee _ d _ _ _ _ _ => some d
  | _ => none

def Task.deposit : Task → Option Deposit
  | .ledger t => t.deposit
  | .ext _ => none

namespace Spec

/-- The source of the deposit that the block was made for. -/
def Block.source (b : Block) : Option EventSource := b.by'.bind fun x => x.2.deposit.map Deposit.source

/-- The source of the deposit that the task mints. -/
def Pending.minting (p : Pending) : Option EventSource := p.task.deposit.map Deposit.source

end Spec

/-- The calls executed for the deposit from `src`. -/
def paidFor (bs : List Block) (src : EventSource) : List LedgerCall :=
  (bs.filter fun b => b.source == some src).map (·.call)

def userCall (d : Deposit) (ledger : Principal) (amount : Nat) : LedgerCall :=
  ⟨ledger, .mint ⟨d.principal, d.subaccount⟩ amount, some d.memo⟩

def feeCall (self ledger : Principal) (fee : Nat) : LedgerCall :=
  ⟨ledger, .mint ⟨self, some feesSubaccount⟩ fee, none⟩

def executed : Option LedgerAnswer → Bool
  | some (.block _) => true
  | _ => false

/-- The calls that were executed for the current deposit of a task. -/
def Spec.Pending.done (self : Principal) (p : Pending) : List LedgerCall :=
  match p.task with
  | .ledger (.mintUser _ d _ l a _) => if executed p.answer then [userCall d l a] else []
  | .ledger (.mintFee _ d _ l fee _ _) =>
    userCall d l (d.value - fee) :: (if executed p.answer then [feeCall self l fee] else [])
  | _ => []

/-- The deposits `l` wait for their mint. -/
structure MintQueue (s : State) (env : MintEnv) (l : List Deposit) : Prop where
  ledger : env.ledger = s.nativeLedgerId
  fee : env.fee = s.depositNativeFee
  nodup : (l.map Deposit.source).Nodup
  waiting : ∀ d ∈ l, s.eventsToMint.get d.source = some d

/-- What a suspended mint relies on. -/
def MintClaim (c : Mem) : LedgerTask → Prop
  | .mintUser env d sym l a rest => MintQueue c.m.st env (d :: rest) ∧ c.mintTarget env d = .ok (sym, l) ∧ d.mintAmount env.fee = .ok a
  | .mintFee env d sym l fee _ rest => MintQueue c.m.st env (d :: rest) ∧ c.mintTarget env d = .ok (sym, l) ∧ env.fee = some fee ∧
      ∃ e, d = .native e ∧ fee ≤ e.value
  | _ => True

/-- The calls `l` are right for the deposit from `src`. -/
def Paid (c : Mem) (src : EventSource) (l : List LedgerCall) : Prop :=
  l = [] ∨ ∃ d ledger, d.source = src ∧ d.intoEvent ∈ c.m.log ∧
    ((∃ e, d = .native e ∧ ledger = c.m.st.nativeLedgerId ∧ ∃ fee, fee ≤ e.value ∧
        (l = [userCall d ledger (e.value - fee)] ∨ l = [userCall d ledger (e.value - fee), feeCall c.id ledger fee])) ∨
      (∃ e sym, d = .erc20 e ∧ c.m.st.erc20Tokens.Has ledger e.erc20ContractAddress sym ∧ l = [userCall d ledger e.value]))

/-- The suspended mints. -/
def mintTasks (l : List Pending) : List Pending := l.filter fun p => p.minting.isSome

/-- The blocks agree with the deposits and the suspended mints `ts`. -/
structure MintInv (c : Mem) (bs : List Block) (ts : List Pending) : Prop where
  waiting : ∀ {src d}, c.m.st.eventsToMint.get src = some d → (∀ p ∈ ts, p.minting ≠ some src) → paidFor bs src = []
  current : ∀ {p src}, p ∈ ts → p.minting = some src → paidFor bs src = p.done c.id
  unseen : ∀ {src}, c.m.st.Unseen src → paidFor bs src = []
  paid : ∀ src, Paid c src (paidFor bs src)
  claim : ∀ {p t}, p ∈ ts → p.task = .ledger t → MintClaim c t

variable [Keccak]

omit [Keccak] in
theorem paidFor_append (bs bs' : List Block) (src : EventSource) : paidFor (bs ++ bs') src = paidFor bs src ++ paidFor bs' src := by
  simp [paidFor]

omit [Keccak] in
theorem mintTarget_eq {c c' : Mem} (env : MintEnv) (d : Deposit) {x : String × Principal}
    (hk : ∀ a y, c.m.st.erc20Tokens.getEntryAlt a = some y → c'.m.st.erc20Tokens.getEntryAlt a = some y)
    (h : c.mintTarget env d = .ok x) : c'.mintTarget env d = .ok x := by
  cases d with
  | native e => exact h
  | erc20 e =>
    simp only [Mem.mintTarget, Res.bind_ok, Res.expect_ok] at h ⊢
    obtain ⟨y, h1, h2⟩ := h
    exact ⟨y, hk _ _ h1, h2⟩

omit [Keccak] in
theorem Paid.shift {c c' : Mem} {o : Origin} {src : EventSource} {l : List LedgerCall} (h : Paid c src l) (hs : Shift o c.m c'.m)
    (hi : c'.id = c.id) : Paid c' src l := by
  obtain ⟨es, he⟩ := hs.log
  have hl : c'.m.st.nativeLedgerId = c.m.st.nativeLedgerId := congrArg FixedConfig.nativeLedgerId hs.fixed
  rcases h with h | ⟨d, ledger, h1, h2, h3⟩
  · exact .inl h
  · refine .inr ⟨d, ledger, h1, he ▸ List.mem_append_left _ h2, ?_⟩
    rcases h3 with ⟨e, k1, k2, k3⟩ | ⟨e, sym, k1, k2, k3⟩
    · exact .inl ⟨e, k1, k2.trans hl.symm, hi ▸ k3⟩
    · exact .inr ⟨e, sym, k1, hs.tokens k2, k3⟩

/-- Messages that do not mint. -/
theorem MintInv.shift {c c' : Mem} {o : Origin} {bs : List Block} {ts : List Pending} (h : MintInv c bs ts)
    (hs : Shift o c.m c'.m) (ho : o ≠ .mint) (hl : o ≠ .lifecycle ∨ ts = []) (hi : c'.id = c.id)
    (ht : Tracks c.m.log c.m.st) (ht' : Tracks c'.m.log c'.m.st) : MintInv c' bs ts := by
  have D := hs.deposits ho
  refine ⟨fun {src d} hd hp => ?_, fun {p src} hp hm => ?_, fun hu => h.unseen (D.unseen hu), fun src => (h.paid src).shift hs hi,
    fun {p t} hp he => ?_⟩
  · rcases D.back hd with h1 | h1
    · exact h.waiting h1 hp
    · exact h.unseen h1
  · rw [hi]; exact h.current hp hm
  · have ho' : o ≠ .lifecycle := by
      rcases hl with hl | rfl
      · exact hl
      · cases hp
    have hled : c'.m.st.nativeLedgerId = c.m.st.nativeLedgerId := congrArg FixedConfig.nativeLedgerId hs.fixed
    have hfee : c'.m.st.depositNativeFee = c.m.st.depositNativeFee := congrArg UpgradableConfig.depositNativeFee (hs.upgradable ho')
    have hq : ∀ {env l}, MintQueue c.m.st env l → MintQueue c'.m.st env l := fun q =>
      ⟨q.ledger.trans hled.symm, q.fee.trans hfee.symm, q.nodup, fun d hd => D.keep (q.waiting d hd)⟩
    have hc := h.claim hp he
    cases t with
    | mintUser env d sym l a rest => exact ⟨hq hc.1, mintTarget_eq _ _ (fun _ _ => hs.entry ht ht') hc.2.1, hc.2.2⟩
    | mintFee env d sym l fee b rest => exact ⟨hq hc.1, mintTarget_eq _ _ (fun _ _ => hs.entry ht ht') hc.2.1, hc.2.2⟩
    | _ => trivial

omit [Keccak] in
theorem MintInv.of_m {c c' : Mem} {bs : List Block} {ts : List Pending} (h : MintInv c bs ts) (hm : c'.m = c.m) (hi : c'.id = c.id) :
    MintInv c' bs ts := by
  refine ⟨fun {src d} hd hp => h.waiting (hm ▸ hd) hp, fun {p src} hp hx => ?_, fun hu => h.unseen (hm ▸ hu), fun src => ?_,
    fun {p t} hp he => ?_⟩
  · rw [hi]; exact h.current hp hx
  · have := h.paid src
    unfold Paid at this ⊢
    rw [hm, hi]; exact this
  · have := h.claim hp he
    cases t with
    | mintUser env d sym l a rest =>
      exact ⟨hm ▸ this.1, mintTarget_eq _ _ (fun _ _ hh => by rw [hm]; exact hh) this.2.1, this.2.2⟩
    | mintFee env d sym l fee b rest =>
      exact ⟨hm ▸ this.1, mintTarget_eq _ _ (fun _ _ hh => by rw [hm]; exact hh) this.2.1, this.2.2⟩
    | _ => trivial

omit [Keccak] in
/-- Blocks that are not mints of deposits. -/
theorem MintInv.block {c : Mem} {bs : List Block} {ts : List Pending} (h : MintInv c bs ts) {b : Block} (hb : b.source = none) :
    MintInv c (bs ++ [b]) ts := by
  have hp : ∀ src, paidFor (bs ++ [b]) src = paidFor bs src := by
    intro src
    rw [paidFor_append]
    simp [paidFor, hb]
  exact ⟨fun hd hs => hp _ ▸ h.waiting hd hs, fun hs hm => hp _ ▸ h.current hs hm, fun hu => hp _ ▸ h.unseen hu,
    fun src => hp _ ▸ h.paid src, h.claim⟩

omit [Keccak] in
theorem MintInv.refused {c : Mem} {bs : List Block} {id : Nat} {t : LedgerTask} {a : LedgerAnswer}
    (h : MintInv c bs [⟨id, .ledger t, none⟩]) (ha : executed (some a) = false) : MintInv c bs [⟨id, .ledger t, some a⟩] := by
  refine ⟨fun hd hs => h.waiting hd (fun p hp => ?_), fun {p src} hp hm => ?_, h.unseen, h.paid, fun {p t'} hp he => ?_⟩
  · rw [List.mem_singleton] at hp; subst hp
    exact hs ⟨id, .ledger t, some a⟩ (by simp)
  · rw [List.mem_singleton] at hp; subst hp
    rw [h.current (p := ⟨id, .ledger t, none⟩) (by simp) hm]
    have hn : executed none = false := rfl
    cases t <;> simp [Pending.done, ha, hn]
  · rw [List.mem_singleton] at hp; subst hp
    exact h.claim (p := ⟨id, .ledger t, none⟩) (by simp) he

/-- The ledger executes a mint. -/
theorem MintInv.execute {c : Mem} {bs : List Block} {id : Nat} {t : LedgerTask} {i : Nat} {d : Deposit}
    (h : MintInv c bs [⟨id, .ledger t, none⟩]) (ht : Tracks c.m.log c.m.st) (hd : t.deposit = some d) :
    MintInv c (bs ++ [⟨t.call c.id, some (id, t)⟩]) [⟨id, .ledger t, some (.block i)⟩] := by
  have hb : (⟨t.call c.id, some (id, t)⟩ : Block).source = some d.source := by simp [Block.source, hd]
  have hp : ∀ src, src ≠ d.source → paidFor (bs ++ [⟨t.call c.id, some (id, t)⟩]) src = paidFor bs src := by
    intro src hs
    rw [paidFor_append]
    simp [paidFor, hb, hs.symm]
  have hp' : paidFor (bs ++ [⟨t.call c.id, some (id, t)⟩]) d.source = paidFor bs d.source ++ [t.call c.id] := by
    rw [paidFor_append]
    simp [paidFor, hb]
  have hm : (⟨id, .ledger t, none⟩ : Pending).minting = some d.source := by simp [Pending.minting, Task.deposit, hd]
  have hm' : (⟨id, .ledger t, some (.block i)⟩ : Pending).minting = some d.source := by simp [Pending.minting, Task.deposit, hd]
  have hcur := h.current (p := ⟨id, .ledger t, none⟩) (by simp) hm
  have hcl := h.claim (p := ⟨id, .ledger t, none⟩) (by simp) rfl
  have hdone : paidFor (bs ++ [⟨t.call c.id, some (id, t)⟩]) d.source = (⟨id, .ledger t, some (.block i)⟩ : Pending).done c.id := by
    rw [hp', hcur]
    cases t <;> simp only [LedgerTask.deposit, reduceCtorEq] at hd <;> simp [Pending.done, executed, LedgerTask.call, userCall, feeCall]
  have hw : c.m.st.eventsToMint.get d.source = some d := by
    cases t <;> simp only [LedgerTask.deposit, reduceCtorEq, Option.some.injEq] at hd
    · subst hd; exact hcl.1.waiting _ (by simp)
    · subst hd; exact hcl.1.waiting _ (by simp)
  refine ⟨fun {src d'} hd' hs => ?_, fun {p src} hpm hpm' => ?_, fun {src} hu => ?_, fun src => ?_, fun {p t'} hpm he => ?_⟩
  · have hne : src ≠ d.source := fun e => hs _ (List.mem_singleton_self _) (e ▸ hm')
    rw [hp src hne]
    refine h.waiting hd' (fun p hpm => ?_)
    rw [List.mem_singleton] at hpm; subst hpm
    rw [hm]; exact fun e => hne (Option.some.inj e).symm
  · rw [List.mem_singleton] at hpm; subst hpm
    rw [hm'] at hpm'
    cases hpm'
    exact hdone
  · have hne : src ≠ d.source := by rintro rfl; rw [hu.1] at hw; cases hw
    rw [hp src hne]
    exact h.unseen hu
  · by_cases hne : src = d.source
    · subst hne
      obtain ⟨_, hacc⟩ := accepted_of_tracks ht hw
      rw [hdone]
      cases t <;> simp only [LedgerTask.deposit, reduceCtorEq, Option.some.injEq] at hd
      · rename_i env d' sym l a rest
        subst hd
        obtain ⟨q, h1, h2⟩ := hcl
        refine .inr ⟨d', l, rfl, hacc, ?_⟩
        cases d' with
        | native e =>
          left
          simp only [Mem.mintTarget, Except.ok.injEq, Prod.mk.injEq] at h1
          obtain ⟨_, rfl⟩ := h1
          unfold Deposit.mintAmount at h2
          split at h2
          · rename_i e' f he _
            cases he
            split at h2
            · cases h2
              exact ⟨e, rfl, q.ledger, f, ‹_›, .inl (by simp [Pending.done, executed])⟩
            · cases h2
          · cases h2
            exact ⟨e, rfl, q.ledger, 0, Nat.zero_le _, .inl (by simp [Pending.done, executed, Deposit.value])⟩
        | erc20 e =>
          right
          simp only [Mem.mintTarget, Res.bind_ok, Res.expect_ok, Res.pure_ok, Prod.mk.injEq] at h1
          obtain ⟨⟨l', sym'⟩, h1, rfl, rfl⟩ := h1
          simp only [Deposit.mintAmount, Except.ok.injEq] at h2
          subst h2
          exact ⟨e, sym', rfl, (DMKM.getEntryAlt_eq (registry_of_tracks ht).wf).1 h1, by simp [Pending.done, executed, Deposit.value]⟩
      · rename_i env d' sym l fee b rest
        subst hd
        obtain ⟨q, h1, h2, e, rfl, h3⟩ := hcl
        simp only [Mem.mintTarget, Except.ok.injEq, Prod.mk.injEq] at h1
        obtain ⟨_, rfl⟩ := h1
        exact .inr ⟨_, _, rfl, hacc, .inl ⟨e, rfl, q.ledger, fee, h3, .inr (by simp [Pending.done, executed, Deposit.value])⟩⟩
    · rw [hp src hne]; exact h.paid src
  · rw [List.mem_singleton] at hpm; subst hpm
    cases he
    exact hcl

omit [Keccak] in
/-- The task gives up its current deposit, for which nothing was executed. -/
theorem MintInv.skip {c : Mem} {bs : List Block} {p : Pending} {src : EventSource} (h : MintInv c bs [p]) (hm : p.minting = some src)
    (hd : p.done c.id = []) : MintInv c bs [] := by
  refine ⟨fun {src' d} hd' _ => ?_, fun hp => (by cases hp), h.unseen, h.paid, fun hp => (by cases hp)⟩
  by_cases hs : src' = src
  · subst hs
    rw [h.current (List.mem_singleton_self _) hm, hd]
  · refine h.waiting hd' (fun q hq => ?_)
    rw [List.mem_singleton] at hq; subst hq
    rw [hm]; exact fun e => hs (Option.some.inj e).symm

/-- The deposit is settled: minted or quarantined. -/
structure MintSettles (s s' : State) (src : EventSource) : Prop where
  keep : ∀ {src' d}, src' ≠ src → s.eventsToMint.get src' = some d → s'.eventsToMint.get src' = some d
  back : ∀ {src' d}, s'.eventsToMint.get src' = some d → s.eventsToMint.get src' = some d ∧ src' ≠ src
  unseen : ∀ {src'}, s'.Unseen src' → s.Unseen src'

theorem settles_minted {s s' : State} {d : Deposit} {sym : String} {b : Nat} (h : applyEvent s (d.mintedEvent sym b) = .ok s') :
    MintSettles s s' d.source := by
  have key : ∃ sym c, s.recordSuccessfulMint d.source sym b c = .ok s' := by
    cases d <;> exact ⟨_, _, h⟩
  obtain ⟨sym, c, h⟩ := key
  obtain ⟨_, _, d', h3, rfl⟩ := recordSuccessfulMint_ok h
  refine ⟨fun {src' d} hn hd => ?_, fun {src' d} hd => ?_, fun {src'} hu => ?_⟩
  · simp only [FMap.get_erase, if_neg hn]; exact hd
  · simp only [FMap.get_erase] at hd
    split at hd
    · cases hd
    · exact ⟨hd, ‹_›⟩
  · obtain ⟨u1, u2, u3⟩ := hu
    simp only [FMap.get_erase, FMap.get_insert] at u1 u2
    split at u2
    · cases u2
    · rename_i hh
      rw [if_neg hh] at u1
      exact ⟨u1, u2, u3⟩

theorem settles_quarantined {s s' : State} {src : EventSource} (h : applyEvent s (.quarantinedDeposit src) = .ok s') :
    MintSettles s s' src := by
  simp only [applyEvent, Except.ok.injEq] at h
  subst h
  rw [recordQuarantinedDeposit_frame]
  refine ⟨fun {src' d} hn hd => ?_, fun {src' d} hd => ?_, fun {src'} hu => ?_⟩
  · simp only [FMap.get_erase, if_neg hn]; exact hd
  · simp only [FMap.get_erase] at hd
    split at hd
    · cases hd
    · exact ⟨hd, ‹_›⟩
  · obtain ⟨u1, u2, u3⟩ := hu
    simp only [FMap.get_erase] at u1 u3
    by_cases hs : src' = src
    · subst hs
      exfalso
      split at u3
      · rename_i hc
        rw [FMap.contains_eq_true] at hc
        obtain ⟨x, hx⟩ := hc
        rw [u3] at hx; cases hx
      · rw [FMap.get_insert_self] at u3; cases u3
    · rw [if_neg hs] at u1
      refine ⟨u1, u2, ?_⟩
      split at u3
      · exact u3
      · rw [FMap.get_insert, if_neg hs] at u3; exact u3

omit [Keccak] in
theorem MintInv.settle {c c' : Mem} {bs : List Block} {p : Pending} {src : EventSource} (h : MintInv c bs [p]) (hm : p.minting = some src)
    (hs : MintSettles c.m.st c'.m.st src) (hsh : Shift .mint c.m c'.m) (hi : c'.id = c.id) : MintInv c' bs [] := by
  refine ⟨fun {src' d} hd' _ => ?_, fun hp => (by cases hp), fun hu => h.unseen (hs.unseen hu), fun src => (h.paid src).shift hsh hi,
    fun hp => (by cases hp)⟩
  obtain ⟨h1, h2⟩ := hs.back hd'
  refine h.waiting h1 (fun q hq => ?_)
  rw [List.mem_singleton] at hq; subst hq
  rw [hm]; exact fun e => h2 (Option.some.inj e).symm

omit [Keccak] in
theorem MintInv.loop {c c' : Mem} {bs : List Block} {env : MintEnv} {l : List Deposit} {n : Next} {id : Nat} (h : MintInv c bs [])
    (hq : MintQueue c.m.st env l) (hr : c.mintLoop env l = .ok (c', n)) : MintInv c' bs (mintTasks (n.pending id)) := by
  cases l with
  | nil =>
    cases hr
    exact h.of_m rfl rfl
  | cons d rest =>
    simp only [Mem.mintLoop, Res.bind_ok, Res.pure_ok, Prod.mk.injEq] at hr
    obtain ⟨x, h1, a, h2, rfl, rfl⟩ := hr
    have hp : ∀ {p : Pending}, p ∈ mintTasks (Next.pending id (.await (.ledger (.mintUser env d x.1 x.2 a rest)))) → 
        p = ⟨id, .ledger (.mintUser env d x.1 x.2 a rest), none⟩ := by
      intro p hp
      have := (List.mem_filter.1 hp).1
      simpa [Next.pending] using this
    refine ⟨fun hd _ => h.waiting hd (by simp), fun {p src} hpm hm => ?_, h.unseen, h.paid, fun {p t} hpm he => ?_⟩
    · cases hp hpm
      simp only [Pending.minting, Task.deposit, LedgerTask.deposit, Option.map_some, Option.some.injEq] at hm
      subst hm
      rw [h.waiting (hq.waiting d (by simp)) (by simp)]
      simp [Pending.done, executed]
    · cases hp hpm
      cases he
      exact ⟨hq, h1, h2⟩

/-! ## Worlds -/

omit [Keccak] in
theorem minting_iff (p : Pending) : p.minting.isSome = true ↔ .mint ∈ p.task.running := by
  obtain ⟨id, t, a⟩ := p
  cases t with
  | ledger t => cases t <;> simp [Pending.minting, Task.deposit, LedgerTask.deposit, Task.running]
  | ext t => cases t <;> simp [Pending.minting, Task.deposit, Task.running]

omit [Keccak] in
@[simp] theorem mintTasks_append (l l' : List Pending) : mintTasks (l ++ l') = mintTasks l ++ mintTasks l' := by simp [mintTasks]

omit [Keccak] in
theorem mintTasks_cons (p : Pending) (l : List Pending) :
    mintTasks (p :: l) = (if p.minting.isSome then [p] else []) ++ mintTasks l := by
  simp only [mintTasks, List.filter_cons]
  split <;> simp

omit [Keccak] in
theorem mintTasks_eq_nil {l : List Pending} : mintTasks l = [] ↔ TaskType.mint ∉ runningOf l := by
  simp only [mintTasks, List.filter_eq_nil_iff, minting_iff, runningOf, List.mem_flatMap, not_exists, not_and]

omit [Keccak] in
/-- There is at most one suspended mint. -/
theorem mintTasks_split {c : Mem} {pre post : List Pending} {p : Pending} (h : LockInv c (pre ++ p :: post))
    (hp : p.minting.isSome = true) : mintTasks pre = [] ∧ mintTasks post = [] := by
  have hn := h.rnodup
  rw [runningOf_append, runningOf_cons] at hn
  have hm := (minting_iff p).1 hp
  simp only [List.nodup_append, List.mem_append] at hn
  obtain ⟨_, ⟨_, _, h4⟩, h5⟩ := hn
  rw [mintTasks_eq_nil, mintTasks_eq_nil]
  exact ⟨fun hh => h5 _ hh _ (.inl hm) rfl, fun hh => h4 _ hm _ hh rfl⟩

omit [Keccak] in
theorem mintTasks_next {n : Next} {id : Nat} (h : TaskType.mint ∉ n.running) : mintTasks (n.pending id) = [] := by
  rw [mintTasks_eq_nil, runningOf_next]; exact h

omit [Keccak] in
theorem Mem.onErc20Gas_running {c c' : Mem} {q : Erc20Call} {g : Option GasFeeEstimate} {now : Nat} {n : Next}
    (h : c.onErc20Gas q g now = .ok (c', n)) : n.running = [] := by
  unfold Mem.onErc20Gas at h
  split at h
  · cases h; rfl
  · simp only [] at h
    split at h
    · simp only [Res.bind_ok, Res.pure_ok, Prod.mk.injEq] at h
      obtain ⟨_, _, _, rfl⟩ := h
      rfl
    · cases h; rfl

/-- Only the mint timer starts mints, only the reimbursement timer starts reimbursements. -/
theorem Message.run_running {c c' : Mem} {msg : Message} {now : Nat} {n : Next} (h : msg.run c now = .ok (c', n)) :
    (TaskType.mint ∈ n.running → msg = .mint) ∧ (TaskType.reimbursement ∈ n.running → msg = .reimbursement) := by
  have weak : n.running = [] → (TaskType.mint ∈ n.running → msg = .mint) ∧
      (TaskType.reimbursement ∈ n.running → msg = .reimbursement) := by
    intro h; rw [h]; simp
  have weak' : (TaskType.mint ∉ n.running ∧ TaskType.reimbursement ∉ n.running) → (TaskType.mint ∈ n.running → msg = .mint) ∧
      (TaskType.reimbursement ∈ n.running → msg = .reimbursement) := 
    fun h => ⟨fun h' => absurd h' h.1, fun h' => absurd h' h.2⟩
  cases msg <;> simp only [Message.run] at h
  case mint =>
    refine ⟨fun _ => rfl, fun hr => ?_⟩
    unfold Mem.startMint at h
    split at h
    · cases h; cases hr
    · generalize Minter.st _ = s at h
      rename_i c1 _ _
      generalize State.eventsToMint _ = l at h
      generalize l.values = l at h
      cases l with
      | nil => cases h; cases hr
      | cons d t =>
        simp only [Mem.mintLoop, Res.bind_ok, Res.pure_ok, Prod.mk.injEq] at h
        obtain ⟨_, _, _, _, rfl, rfl⟩ := h
        simp [Next.running, Task.running] at hr
  case reimbursement =>
    refine ⟨fun hr => ?_, fun _ => rfl⟩
    unfold Mem.startReimbursement at h
    split at h
    · cases h; cases hr
    · rename_i c1 _
      generalize c1.m.st.txs.reimbursementRequests.toList = l at h
      cases l with
      | nil => cases h; cases hr
      | cons d t =>
        cases h
        simp [Next.running, Task.running] at hr
  case retrieve =>
    apply weak'
    unfold Mem.startRetrieve at h
    split at h
    · cases h; simp [Next.running]
    · split at h
      · cases h; simp [Next.running]
      · split at h
        · cases h; simp [Next.running, Task.running]
        · split at h
          · cases h; simp [Next.running]
          · cases h; simp [Next.running, Task.running]
  case scrape =>
    apply weak'
    split at h <;> (cases h; simp [Next.running, Task.running])
  case gas =>
    apply weak'
    split at h <;> (cases h; simp [Next.running, Task.running])
  case withdrawNative =>
    apply weak
    simp only [Mem.startNative, Res.bind_ok] at h
    obtain ⟨c1, h1, h⟩ := h
    split at h
    · cases h; rfl
    · simp only [Res.bind_ok] at h
      obtain ⟨_, _, h⟩ := h
      split at h
      · cases h; rfl
      · split at h
        · simp only [Res.bind_ok, Res.pure_ok] at h
          obtain ⟨_, _, h⟩ := h
          cases h; rfl
        · cases h; rfl
  case withdrawErc20 =>
    simp only [Mem.startErc20, Res.bind_ok] at h
    obtain ⟨c1, h1, h⟩ := h
    split at h
    · cases h; exact weak rfl
    · simp only [Res.bind_ok] at h
      obtain ⟨_, _, h⟩ := h
      split at h
      · cases h; exact weak rfl
      · split at h
        · exact weak (Mem.onErc20Gas_running h)
        · split at h
          · exact weak (Mem.onErc20Gas_running h)
          · cases h
            exact weak' (by simp [Next.running, Task.running])
  case addToken =>
    simp only [Res.bind_ok, Res.pure_ok] at h
    obtain ⟨x, _, h⟩ := h
    cases h
    exact weak rfl

/-- Blocks are what the tasks asked for, or foreign. -/
structure BlockInv (w : World) : Prop where
  foreign : ∀ b ∈ w.blocks, b.by' = none → b.call.op.Foreign
  own : ∀ b ∈ w.blocks, ∀ i t, b.by' = some (i, t) → b.call = t.call w.mem.id ∧ i < w.nextId

omit [Keccak] in
theorem BlockInv.mono {w w' : World} (h : BlockInv w) (hb : w'.blocks = w.blocks) (hi : w'.mem.id = w.mem.id)
    (hn : w.nextId ≤ w'.nextId) : BlockInv w' := by
  refine ⟨fun b hm => h.foreign b (hb ▸ hm), fun b hm i t ht => ?_⟩
  obtain ⟨h1, h2⟩ := h.own b (hb ▸ hm) i t ht
  exact ⟨by rw [hi]; exact h1, Nat.lt_of_lt_of_le h2 hn⟩

theorem blockInv {w : World} (h : Reachable w) : BlockInv w := by
  induction h with
  | init id a s blocks _ hb =>
    refine ⟨fun b hm _ => (hb b hm).2, fun b hm i t ht => ?_⟩
    rw [(hb b hm).1] at ht; cases ht
  | step w w' hr hs ih =>
    cases hs with
    | start msg now c n _ hr => exact ih.mono rfl (Message.run_takes hr).id (Nat.le_succ _)
    | startTrap msg now e _ hr => exact ih.mono rfl rfl (Nat.le_succ _)
    | execute pre post id t ht _ =>
      refine ⟨fun b hm hn => ?_, fun b hm i t' ht' => ?_⟩
      · rcases List.mem_append.1 hm with hm | hm
        · exact ih.foreign b hm hn
        · rw [List.mem_singleton] at hm; subst hm; cases hn
      · rcases List.mem_append.1 hm with hm | hm
        · exact ih.own b hm i t' ht'
        · rw [List.mem_singleton] at hm; subst hm; cases ht'
          exact ⟨rfl, (idInv hr).lt _ (by rw [ht]; simp)⟩
    | refuse pre post id t e ht _ => exact ih.mono rfl rfl (Nat.le_refl _)
    | reject pre post id t ht => exact ih.mono rfl rfl (Nat.le_refl _)
    | deliver pre post id t a now c n ht hr => exact ih.mono rfl (LedgerTask.resume_locks hr).id (Nat.le_refl _)
    | deliverTrap pre post id t a now e c ht hr hc => exact ih.mono rfl (Task.cleanup_locks hc).id (Nat.le_refl _)
    | kill pre post id t a c ht hc => exact ih.mono rfl (Task.cleanup_locks hc).id (Nat.le_refl _)
    | answer pre post id t o a now c n ht _ hr => exact ih.mono rfl (ExtTask.resume_locks hr).id (Nat.le_refl _)
    | answerTrap pre post id t o a now e c ht _ hr hc => exact ih.mono rfl (Task.cleanup_locks hc).id (Nat.le_refl _)
    | killExt pre post id t o c ht hc => exact ih.mono rfl (Task.cleanup_locks hc).id (Nat.le_refl _)
    | foreign call hf =>
      refine ⟨fun b hm hn => ?_, fun b hm i t' ht' => ?_⟩
      · rcases List.mem_append.1 hm with hm | hm
        · exact ih.foreign b hm hn
        · rw [List.mem_singleton] at hm; subst hm; exact hf
      · rcases List.mem_append.1 hm with hm | hm
        · exact ih.own b hm i t' ht'
        · rw [List.mem_singleton] at hm; subst hm; cases ht'
    | upgrade arg log s ht _ => exact ih.mono rfl rfl (Nat.le_refl _)

omit [Keccak] in
theorem LedgerTask.deposit_origin (t : LedgerTask) : t.origin = .mint ↔ t.deposit.isSome = true := by
  cases t <;> simp [LedgerTask.origin, LedgerTask.deposit]

theorem mintQueue_all {c : Mem} (ht : Tracks c.m.log c.m.st) :
    MintQueue c.m.st ⟨c.m.st.nativeLedgerId, c.m.st.depositNativeFee⟩ c.m.st.eventsToMint.values := by
  have hk : ∀ x ∈ c.m.st.eventsToMint.toList, x.2.source = x.1 := fun x hx => (accepted_of_tracks ht (FMap.mem_toList.1 hx)).1
  refine ⟨rfl, rfl, ?_, fun d hd => ?_⟩
  · have : c.m.st.eventsToMint.values.map Deposit.source = c.m.st.eventsToMint.keys := by
      simp only [FMap.values, FMap.keys, List.map_map]
      exact List.map_congr_left hk
    rw [this]
    exact FMap.keys_nodup _
  · obtain ⟨src, hs⟩ := FMap.mem_values.1 hd
    rw [(accepted_of_tracks ht hs).1]; exact hs

/-- An answer to a mint. -/
theorem MintInv.deliver {c c' : Mem} {bs : List Block} {id : Nat} {t : LedgerTask} {a : LedgerAnswer} {now : Nat} {n : Next} {d : Deposit}
    (h : MintInv c bs [⟨id, .ledger t, some a⟩]) (ht : Tracks c.m.log c.m.st) (hd : t.deposit = some d)
    (hr : t.resume c a now = .ok (c', n)) : MintInv c' bs (mintTasks (n.pending id)) := by
  have hm : (⟨id, .ledger t, some a⟩ : Pending).minting = some d.source := by simp [Pending.minting, Task.deposit, hd]
  have hcl := h.claim (p := ⟨id, .ledger t, some a⟩) (by simp) rfl
  have hrec : ∀ {env sym b rest}, MintQueue c.m.st env (d :: rest) → c.mintRecord env d sym b rest = .ok (c', n) →
      MintInv c' bs (mintTasks (n.pending id)) := by
    intro env sym b rest q hr
    simp only [Mem.mintRecord, Res.bind_ok] at hr
    obtain ⟨c1, h1, h2⟩ := hr
    have hg : Grew .mint c.m c1.m := Grew.process (by cases d <;> rfl) h1
    have hsh := hg.shift ht
    simp only [Mem.process, Minter.processEvent, Res.bind_ok, Res.pure_ok] at h1
    obtain ⟨m, ⟨s, hs, rfl⟩, rfl⟩ := h1
    have hset := settles_minted hs
    refine (h.settle hm hset hsh rfl).loop ?_ h2
    refine ⟨q.ledger.trans (congrArg FixedConfig.nativeLedgerId hsh.fixed).symm,
      q.fee.trans (congrArg UpgradableConfig.depositNativeFee (hsh.upgradable (by simp))).symm, (List.nodup_cons.1 q.nodup).2, fun x hx => ?_⟩
    refine hset.keep (fun e => ?_) (q.waiting x (by simp [hx]))
    exact (List.nodup_cons.1 q.nodup).1 (e ▸ List.mem_map_of_mem hx)
  have hskip : ∀ {env rest}, MintQueue c.m.st env (d :: rest) → (⟨id, .ledger t, some a⟩ : Pending).done c.id = [] →
      c.mintLoop env rest = .ok (c', n) → MintInv c' bs (mintTasks (n.pending id)) := by
    intro env rest q hdone hr
    exact (h.skip hm hdone).loop ⟨q.ledger, q.fee, (List.nodup_cons.1 q.nodup).2, fun x hx => q.waiting x (by simp [hx])⟩ hr
  cases t <;> simp only [LedgerTask.deposit, reduceCtorEq, Option.some.injEq] at hd
  · rename_i env d' sym l amount rest
    subst hd
    simp only [LedgerTask.resume] at hr
    unfold Mem.onMintUser at hr
    split at hr
    · rename_i i
      simp only [Res.bind_ok] at hr
      obtain ⟨b, _, hr⟩ := hr
      split at hr
      · rename_i e fee hfee
        cases hr
        obtain ⟨q, h1, h2⟩ := hcl
        simp only [Deposit.mintAmount, hfee] at h2
        split at h2
        · rename_i hle
          cases h2
          have hp : ∀ {p : Pending}, p ∈ mintTasks (Next.pending id (.await (.ledger (.mintFee env (.native e) sym l fee b rest)))) → 
              p = ⟨id, .ledger (.mintFee env (.native e) sym l fee b rest), none⟩ := by
            intro p hp
            have := (List.mem_filter.1 hp).1
            simpa [Next.pending] using this
          have hin : (⟨id, .ledger (.mintFee env (.native e) sym l fee b rest), none⟩ : Pending) ∈
              mintTasks (Next.pending id (.await (.ledger (.mintFee env (.native e) sym l fee b rest)))) := by
            simp [mintTasks, Next.pending, Pending.minting, Task.deposit, LedgerTask.deposit]
          refine ⟨fun {src d'} hw hs => h.waiting hw (fun p hp' => ?_), fun {p src} hp' hm' => ?_, h.unseen, h.paid, fun {p t'} hp' he => ?_⟩
          · rw [List.mem_singleton] at hp'; subst hp'
            have := hs _ hin
            simpa [Pending.minting, Task.deposit, LedgerTask.deposit] using this
          · cases hp hp'
            simp only [Pending.minting, Task.deposit, LedgerTask.deposit, Option.map_some, Option.some.injEq] at hm'
            subst hm'
            rw [h.current (List.mem_singleton_self _) hm]
            simp [Pending.done, executed, Deposit.value]
          · cases hp hp'
            cases he
            exact ⟨q, h1, hfee, e, rfl, hle⟩
        · cases h2
      · exact hrec hcl.1 hr
    · rename_i hne
      refine hskip hcl.1 ?_ hr
      cases a with
      | block i => exact absurd rfl (hne i)
      | _ => simp [Pending.done, executed]
  · rename_i env d' sym l fee b rest
    subst hd
    exact hrec hcl.1 hr

/-- A mint is dropped. -/
theorem MintInv.dropped {c c' : Mem} {bs : List Block} {id : Nat} {t : LedgerTask} {o : Option LedgerAnswer} {d : Deposit}
    (h : MintInv c bs [⟨id, .ledger t, o⟩]) (ht : Tracks c.m.log c.m.st) (hd : t.deposit = some d)
    (hr : (Task.ledger t).cleanup c = .ok c') : MintInv c' bs [] := by
  have hm : (⟨id, .ledger t, o⟩ : Pending).minting = some d.source := by simp [Pending.minting, Task.deposit, hd]
  have hsh := (Task.cleanup_grew hr).shift ht
  have key : ∃ c1, c.process (.quarantinedDeposit d.source) = .ok c1 ∧ c1.release .mint = c' := by
    cases t <;> simp only [LedgerTask.deposit, reduceCtorEq, Option.some.injEq] at hd <;> subst hd <;>
      simp only [Task.cleanup, Res.bind_ok, Res.pure_ok] at hr <;> exact hr
  obtain ⟨c1, h1, rfl⟩ := key
  simp only [Mem.process, Minter.processEvent, Res.bind_ok, Res.pure_ok] at h1
  obtain ⟨m, ⟨s, hs, rfl⟩, rfl⟩ := h1
  refine h.settle hm (settles_quarantined hs) ?_ rfl
  have : t.origin = .mint := (LedgerTask.deposit_origin t).2 (by simp [hd])
  simpa [Task.origin, this] using hsh

theorem mintInv {w : World} (h : Reachable w) : MintInv w.mem w.blocks (mintTasks w.tasks) := by
  induction h with
  | init id a s blocks hs hb =>
    have hp : ∀ src, paidFor blocks src = [] := by
      intro src
      simp only [paidFor, List.map_eq_nil_iff, List.filter_eq_nil_iff]
      intro b hm
      simp [Block.source, (hb b hm).1]
    refine ⟨fun _ _ => hp _, fun {p src} hh => ?_, fun _ => hp _, fun src => .inl (hp src), fun {p t} hh => ?_⟩
    · cases hh
    · cases hh
  | step w w' hr hs ih =>
    have T := tracks hr
    have L := lockInv hr
    have hother : ∀ {o : Origin} {c' : Mem}, Grew o w.mem.m c'.m → o ≠ .mint → o ≠ .lifecycle → c'.id = w.mem.id →
        MintInv c' w.blocks (mintTasks w.tasks) := fun g h1 h2 hi => ih.shift (g.shift T) h1 (.inl h2) hi T (g.tracks T)
    have hext : ∀ (t : ExtTask), t.origin ≠ .mint ∧ t.origin ≠ .lifecycle ∧ TaskType.mint ∉ (Task.ext t).running := by
      intro t; cases t <;> simp [ExtTask.origin, Task.running]
    have hled : ∀ (t : LedgerTask), t.deposit = none → t.origin ≠ .mint ∧ t.origin ≠ .lifecycle ∧ TaskType.mint ∉ (Task.ledger t).running := by
      intro t; cases t <;> simp [LedgerTask.origin, LedgerTask.deposit, Task.running]
    -- a task that is not a mint is exchanged for tasks that are not mints
    have hsame : ∀ {pre post l : List Pending} {p : Pending}, w.tasks = pre ++ p :: post → TaskType.mint ∉ p.task.running → mintTasks l = [] →
        mintTasks (pre ++ l ++ post) = mintTasks w.tasks := by
      intro pre post l p ht hp hl
      have hp' : ¬ p.minting.isSome = true := fun hh => hp ((minting_iff p).1 hh)
      rw [ht]
      simp [mintTasks_cons, hp', hl]
    -- a mint is the only one
    have hone : ∀ {pre post : List Pending} {p : Pending}, w.tasks = pre ++ p :: post → p.minting.isSome = true →
        (∀ l, mintTasks (pre ++ l ++ post) = mintTasks l) ∧ mintTasks w.tasks = [p] := by
      intro pre post p ht hp
      rw [ht] at L
      obtain ⟨h1, h2⟩ := mintTasks_split L hp
      refine ⟨fun l => by simp [h1, h2], ?_⟩
      rw [ht]
      simp [mintTasks_cons, hp, h1, h2]
    cases hs with
    | start msg now c n _ hr =>
      show MintInv c w.blocks (mintTasks (w.tasks ++ n.pending w.nextId ++ []))
      rw [List.append_nil, mintTasks_append]
      by_cases hmsg : msg = .mint
      · subst hmsg
        simp only [Message.run] at hr
        unfold Mem.startMint at hr
        split at hr
        · cases hr
          simpa [Next.pending, mintTasks] using ih
        · rename_i c1 h1
          have hm1 := Mem.acquire_m h1
          have hi1 : c1.id = w.mem.id := by
            unfold Mem.acquire at h1
            split at h1 <;> cases h1
            rfl
          have hfree : TaskType.mint ∉ w.mem.active := by
            unfold Mem.acquire at h1
            split at h1
            · cases h1
            · assumption
          have hnil : mintTasks w.tasks = [] := by
            rw [mintTasks_eq_nil, ← L.active]; exact hfree
          rw [hnil] at ih ⊢
          have := ih.of_m hm1 hi1
          refine (ih.of_m hm1 hi1).loop (mintQueue_all (c := c1) (by rw [hm1]; exact T)) hr
      · have hno : TaskType.mint ∉ n.running := fun hh => hmsg ((Message.run_running hr).1 hh)
        rw [mintTasks_next hno, List.append_nil]
        refine hother (Message.run_grew hr) ?_ ?_ (Message.run_takes hr).id
        · cases msg <;> simp [Message.origin] at hmsg ⊢
        · cases msg <;> simp [Message.origin]
    | startTrap msg now e _ hr => simpa [World.drop, World.begin] using ih
    | execute pre post id t ht _ =>
      cases hd : t.deposit with
      | none =>
        have := hsame (l := [⟨id, .ledger t, some (.block (w.height (t.call w.mem.id).ledger))⟩]) ht (hled t hd).2.2
          (by rw [mintTasks_eq_nil]; simpa [runningOf] using (hled t hd).2.2)
        simp only [List.append_assoc, List.cons_append, List.nil_append] at this
        show MintInv w.mem _ (mintTasks (pre ++ _ :: post))
        rw [this]
        exact ih.block (by simp [Block.source, hd])
      | some d =>
        have hp : (⟨id, .ledger t, none⟩ : Pending).minting.isSome = true := by simp [Pending.minting, Task.deposit, hd]
        obtain ⟨h1, h2⟩ := hone ht hp
        have := h1 [⟨id, .ledger t, some (.block (w.height (t.call w.mem.id).ledger))⟩]
        simp only [List.append_assoc, List.cons_append, List.nil_append] at this
        show MintInv w.mem _ (mintTasks (pre ++ _ :: post))
        rw [this]
        rw [h2] at ih
        have := ih.execute (i := w.height (t.call w.mem.id).ledger) T hd
        simpa [mintTasks, Pending.minting, Task.deposit, hd] using this
    | refuse pre post id t e ht _ =>
      cases hd : t.deposit with
      | none =>
        have := hsame (l := [⟨id, .ledger t, some (.refused e)⟩]) ht (hled t hd).2.2
          (by rw [mintTasks_eq_nil]; simpa [runningOf] using (hled t hd).2.2)
        simp only [List.append_assoc, List.cons_append, List.nil_append] at this
        show MintInv w.mem _ (mintTasks (pre ++ _ :: post))
        rw [this]
        exact ih
      | some d =>
        have hp : (⟨id, .ledger t, none⟩ : Pending).minting.isSome = true := by simp [Pending.minting, Task.deposit, hd]
        obtain ⟨h1, h2⟩ := hone ht hp
        have := h1 [⟨id, .ledger t, some (.refused e)⟩]
        simp only [List.append_assoc, List.cons_append, List.nil_append] at this
        show MintInv w.mem _ (mintTasks (pre ++ _ :: post))
        rw [this]
        rw [h2] at ih
        have := ih.refused (a := .refused e) rfl
        simpa [mintTasks, Pending.minting, Task.deposit, hd] using this
    | reject pre post id t ht =>
      cases hd : t.deposit with
      | none =>
        have := hsame (l := [⟨id, .ledger t, some .rejected⟩]) ht (hled t hd).2.2
          (by rw [mintTasks_eq_nil]; simpa [runningOf] using (hled t hd).2.2)
        simp only [List.append_assoc, List.cons_append, List.nil_append] at this
        show MintInv w.mem _ (mintTasks (pre ++ _ :: post))
        rw [this]
        exact ih
      | some d =>
        have hp : (⟨id, .ledger t, none⟩ : Pending).minting.isSome = true := by simp [Pending.minting, Task.deposit, hd]
        obtain ⟨h1, h2⟩ := hone ht hp
        have := h1 [⟨id, .ledger t, some .rejected⟩]
        simp only [List.append_assoc, List.cons_append, List.nil_append] at this
        show MintInv w.mem _ (mintTasks (pre ++ _ :: post))
        rw [this]
        rw [h2] at ih
        have := ih.refused (a := .rejected) rfl
        simpa [mintTasks, Pending.minting, Task.deposit, hd] using this
    | deliver pre post id t a now c n ht hr =>
      show MintInv c w.blocks (mintTasks (pre ++ n.pending id ++ post))
      have hlk := LedgerTask.resume_locks hr
      cases hd : t.deposit with
      | none =>
        rw [hsame ht (hled t hd).2.2 (mintTasks_next fun hh => (hled t hd).2.2 (hlk.run _ hh))]
        exact hother (LedgerTask.resume_grew hr) (hled t hd).1 (hled t hd).2.1 hlk.id
      | some d =>
        have hp : (⟨id, .ledger t, some a⟩ : Pending).minting.isSome = true := by simp [Pending.minting, Task.deposit, hd]
        obtain ⟨h1, h2⟩ := hone ht hp
        rw [h1]
        rw [h2] at ih
        exact ih.deliver T hd hr
    | deliverTrap pre post id t a now e c ht hr hc =>
      show MintInv c w.blocks (mintTasks (pre ++ post))
      cases hd : t.deposit with
      | none =>
        have := hsame (l := []) ht (hled t hd).2.2 rfl
        rw [List.append_nil] at this
        rw [this]
        exact hother (Task.cleanup_grew hc) (hled t hd).1 (hled t hd).2.1 (Task.cleanup_locks hc).id
      | some d =>
        have hp : (⟨id, .ledger t, some a⟩ : Pending).minting.isSome = true := by simp [Pending.minting, Task.deposit, hd]
        obtain ⟨h1, h2⟩ := hone ht hp
        have := h1 []
        rw [List.append_nil] at this
        rw [this]
        rw [h2] at ih
        exact ih.dropped T hd hc
    | kill pre post id t a c ht hc =>
      show MintInv c w.blocks (mintTasks (pre ++ post))
      cases hd : t.deposit with
      | none =>
        have := hsame (l := []) ht (hled t hd).2.2 rfl
        rw [List.append_nil] at this
        rw [this]
        exact hother (Task.cleanup_grew hc) (hled t hd).1 (hled t hd).2.1 (Task.cleanup_locks hc).id
      | some d =>
        have hp : (⟨id, .ledger t, some a⟩ : Pending).minting.isSome = true := by simp [Pending.minting, Task.deposit, hd]
        obtain ⟨h1, h2⟩ := hone ht hp
        have := h1 []
        rw [List.append_nil] at this
        rw [this]
        rw [h2] at ih
        exact ih.dropped T hd hc
    | answer pre post id t o a now c n ht _ hr =>
      show MintInv c w.blocks (mintTasks (pre ++ n.pending id ++ post))
      have hlk := ExtTask.resume_locks hr
      rw [hsame ht (hext t).2.2 (mintTasks_next fun hh => (hext t).2.2 (hlk.run _ hh))]
      exact hother (ExtTask.resume_grew hr) (hext t).1 (hext t).2.1 hlk.id
    | answerTrap pre post id t o a now e c ht _ hr hc =>
      show MintInv c w.blocks (mintTasks (pre ++ post))
      have := hsame (l := []) ht (hext t).2.2 rfl
      rw [List.append_nil] at this
      rw [this]
      exact hother (Task.cleanup_grew hc) (hext t).1 (hext t).2.1 (Task.cleanup_locks hc).id
    | killExt pre post id t o c ht hc =>
      show MintInv c w.blocks (mintTasks (pre ++ post))
      have := hsame (l := []) ht (hext t).2.2 rfl
      rw [List.append_nil] at this
      rw [this]
      exact hother (Task.cleanup_grew hc) (hext t).1 (hext t).2.1 (Task.cleanup_locks hc).id
    | foreign call hf => exact ih.block rfl
    | upgrade arg log s ht hp =>
      obtain ⟨h1, es, h2, h3⟩ := postUpgrade_grew hp
      have g : Grew .lifecycle w.mem.m ⟨s, log⟩ := ⟨⟨es, h2, h3⟩, fun _ => h1, fun _ h => absurd rfl h, fun _ h => absurd rfl h⟩
      have hn : mintTasks w.tasks = [] := by rw [ht]; rfl
      show MintInv _ w.blocks (mintTasks w.tasks)
      exact ih.shift (c' := ⟨w.mem.id, ⟨s, log⟩, none, none, [], []⟩) (g.shift T) (by simp) (.inr hn) rfl T h1

end EvmMinter
