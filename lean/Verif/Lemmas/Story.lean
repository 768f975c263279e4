import Verif.Lemmas.Endpoint
/-!
# What the endpoints for withdrawals do, from start to end
-/

namespace EvmMinter
open Spec

/-- The block of a call of message `id`. -/
def blk (W : World) (id : Nat) (t : LedgerTask) : Block := ⟨t.call W.mem.id, some (id, t)⟩

/-- The block of the current call, if the ledger executed it. -/
def ownBlock (W : World) (id : Nat) (t : LedgerTask) : Option LedgerAnswer → List Block
  | some (.block _) => [blk W id t]
  | _ => []

section
variable [Keccak]

/-- The arguments of a call of `withdraw_native_token`, and the configuration when it started. -/
structure NativeCall.Of (W : World) (id : Nat) (caller : Principal) (amount : Nat) (recipient : List Char) (q : NativeCall) : Prop where
  caller_eq : q.caller = caller
  amount_eq : q.amount = amount
  lt : amount < U256
  destination : validateDestination recipient = some q.destination
  config : ∃ w, Arrived w W id ∧ w.mem.m.st.withdrawalNativeFee = q.fee ∧ w.mem.m.st.nativeLedgerTransferFee = q.transferFee

/-- The blocks before the burn of `am`: none, or the transfer of the withdrawal fee. -/
def NativeCall.Paid (W : World) (id : Nat) (q : NativeCall) (am : Wei) (bl : List Block) : Prop :=
  (q.fee = none ∧ am = q.amount ∧ bl = []) ∨
    ∃ fee t, q.fee = some fee ∧ q.amount = am + fee ∧ fee = t + q.transferFee ∧ bl = [blk W id (.nativeFee q W.mem.m.st.nativeLedgerId fee t)]

/-- What a failed call may leave: nothing, the transfer of the withdrawal fee, or that and its refund. -/
def NativeCall.Lost (W : World) (id : Nat) (q : NativeCall) (bl : List Block) : Prop :=
  bl = [] ∨ ∃ fee t, q.fee = some fee ∧ fee = t + q.transferFee ∧
    (bl = [blk W id (.nativeFee q W.mem.m.st.nativeLedgerId fee t)] ∨
      ∃ e, bl = [blk W id (.nativeFee q W.mem.m.st.nativeLedgerId fee t),
        blk W id (.nativeRefund q W.mem.m.st.nativeLedgerId (refundAmount fee q.transferFee) e)])

/-- The blocks before the current call of `withdraw_native_token`. -/
def NativeBefore (W : World) (id : Nat) (caller : Principal) (amount : Nat) (recipient : List Char) (bl : List Block) : LedgerTask → Prop
  | .nativeFee q l fee t => q.Of W id caller amount recipient ∧ l = W.mem.m.st.nativeLedgerId ∧ q.fee = some fee ∧
      fee = t + q.transferFee ∧ bl = []
  | .nativeBurn q l am _ => q.Of W id caller amount recipient ∧ l = W.mem.m.st.nativeLedgerId ∧ q.Paid W id am bl
  | .nativeRefund q l am _ => q.Of W id caller amount recipient ∧ l = W.mem.m.st.nativeLedgerId ∧ ∃ fee t, q.fee = some fee ∧
      fee = t + q.transferFee ∧ am = refundAmount fee q.transferFee ∧ bl = [blk W id (.nativeFee q l fee t)]
  | _ => False

def NativeFailed (W : World) (id : Nat) (caller : Principal) (amount : Nat) (recipient : List Char) (bl : List Block) : Prop :=
  bl = [] ∨ ∃ q : NativeCall, q.Of W id caller amount recipient ∧ q.Lost W id bl

/-- The whole story of a call of `withdraw_native_token`. -/
def NativeStory (W : World) (id : Nat) (caller : Principal) (amount : Nat) (recipient : List Char) (bl : List Block) (ev : List Event) :
    Progress → Prop
  | .waiting (.ledger t) a => ev = [] ∧ ∃ bl', bl = bl' ++ ownBlock W id t a ∧ NativeBefore W id caller amount recipient bl' t
  | .waiting (.ext _) _ => False
  | .done (.replied (some (.native (.ok i)))) => ∃ (q : NativeCall) (am : Wei) (now : Nat) (bl' : List Block), q.Of W id caller amount recipient ∧
      q.Paid W id am bl' ∧ bl = bl' ++ [blk W id (.nativeBurn q W.mem.m.st.nativeLedgerId am now)] ∧
      W.blockAt W.mem.m.st.nativeLedgerId i = some (blk W id (.nativeBurn q W.mem.m.st.nativeLedgerId am now)) ∧
      ev = [.acceptedNativeWithdrawalRequest ⟨am, q.destination, i, q.caller, none, some now⟩]
  | .done (.replied (some (.native (.error _)))) => ev = [] ∧ NativeFailed W id caller amount recipient bl
  | .done (.replied _) => False
  | .done .trapped => ev = [] ∧ NativeFailed W id caller amount recipient bl
  | .done .killed => ev = []

theorem Thread.native {W : World} {id : Nat} {caller : Principal} {amount : Nat} {recipient : List Char} {bl : List Block} {ev : List Event}
    {st : Progress} (h : Thread W id (.withdrawNative caller amount recipient) bl ev st) :
    NativeStory W id caller amount recipient bl ev st := by
  have hcall : ∀ {w : World} {t : LedgerTask}, Before W w → (⟨t.call w.mem.id, some (id, t)⟩ : Block) = blk W id t := by
    intro w t hb; rw [blk, hb.grows.id]
  have ledger : ∀ {w : World}, Before W w → w.mem.m.st.nativeLedgerId = W.mem.m.st.nativeLedgerId := fun hb => hb.grows.nativeLedger.symm
  have own : ∀ {t : LedgerTask} {a : LedgerAnswer}, (∀ i, a ≠ .block i) → ownBlock W id t (some a) = [] := by
    intro t a h
    cases a with
    | block i => exact absurd rfl (h i)
    | _ => rfl
  induction h with
  | start w now c n hb hn hty hr =>
    simp only [Message.run] at hr
    obtain ⟨c1, h1, h⟩ := Mem.startNative_cases hr
    have hm := Mem.lockCaller_m h1
    rcases h with ⟨e, rfl, rfl⟩ | ⟨dest, hd, hlt, _, rfl, ⟨fee, t, hf, ht, rfl⟩ | ⟨hf, rfl⟩⟩
    · exact ⟨news_same hm, .inl rfl⟩
    · exact ⟨news_same hm, [], rfl, ⟨rfl, rfl, hlt, hd, w, hn, hf, rfl⟩, ledger hb, rfl, csub_eq_some.1 ht, rfl⟩
    · exact ⟨news_same hm, [], rfl, ⟨rfl, rfl, hlt, hd, w, hn, hf, rfl⟩, ledger hb, .inl ⟨rfl, rfl, rfl⟩⟩
  | startTrap w now e hb hn hty hr => exact ⟨rfl, .inl rfl⟩
  | execute w bl ev t hT hb hm hh h0 h1 ih =>
    obtain ⟨rfl, bl', rfl, h⟩ := ih
    exact ⟨rfl, bl', by simp [ownBlock, hcall hb], h⟩
  | refuse w bl ev t e hT hb hm hr ih => exact ih
  | reject w bl ev t hT hb hm ih => exact ih
  | deliver w bl ev t a now c n hT hb hm hr ih =>
    obtain ⟨rfl, bl', rfl, ih⟩ := ih
    clear hT
    cases t <;> simp only [LedgerTask.resume] at hr <;> try exact ih.elim
    case nativeFee q l fee t =>
      obtain ⟨hq, rfl, hf, hft, rfl⟩ := ih
      rcases Mem.onNativeFee_cases hr with ⟨i, am, rfl, _, ha, rfl, rfl⟩ | ⟨hna, e, rfl, rfl⟩
      · exact ⟨by simp [news_same], [blk W id (.nativeFee q W.mem.m.st.nativeLedgerId fee t)], by simp [ownBlock], hq, ledger hb,
          .inr ⟨fee, t, hf, csub_eq_some.1 ha, hft, rfl⟩⟩
      · exact ⟨(news_same rfl : _), .inl (by simp [own hna])⟩
    case nativeBurn q l am at' =>
      obtain ⟨hq, rfl, hp⟩ := ih
      rcases Mem.onNativeBurn_cases hr with ⟨i, c1, rfl, hi, hpr, rfl, rfl⟩ | ⟨hna, e, fee, hf, rfl, rfl⟩ | ⟨hna, hf, e, rfl, rfl⟩
      · refine ⟨q, am, at', bl', hq, hp, rfl, (hb.madeBy hm).1, ?_⟩
        rw [List.nil_append]
        exact (news_eq (c' := c1) rfl).trans (news_process hpr)
      · refine ⟨by simp [news_same], bl', by rw [own hna]; rfl, hq, rfl, ?_⟩
        rcases hp with ⟨h1, _⟩ | ⟨fee', t, h1, _, h2, rfl⟩
        · rw [hf] at h1; cases h1
        · rw [hf] at h1; cases h1
          exact ⟨fee, t, hf, h2, rfl, rfl⟩
      · refine ⟨(news_same rfl : _), .inl ?_⟩
        rcases hp with ⟨_, _, rfl⟩ | ⟨fee', t, h1, _⟩
        · simp [own hna]
        · rw [hf] at h1; cases h1
    case nativeRefund q l am e =>
      obtain ⟨hq, rfl, fee, t, hf, hft, rfl, rfl⟩ := ih
      obtain ⟨e', rfl, rfl⟩ := Mem.onNativeRefund_cases hr
      refine ⟨(news_same rfl : _), .inr ⟨q, hq, .inr ⟨fee, t, hf, hft, ?_⟩⟩⟩
      cases a with
      | block i => exact .inr ⟨e, rfl⟩
      | _ => exact .inl rfl
  | deliverTrap w bl ev t a now e c hT hb hm hr hc ih =>
    obtain ⟨rfl, bl', rfl, ih⟩ := ih
    clear hT
    cases t <;> simp only [LedgerTask.resume] at hr <;> try exact ih.elim
    case nativeFee q l fee t =>
      obtain ⟨hq, rfl, hf, hft, rfl⟩ := ih
      cases hc
      refine ⟨(news_same rfl : _), .inr ⟨q, hq, ?_⟩⟩
      cases a with
      | block i => exact .inr ⟨fee, t, hf, hft, .inl rfl⟩
      | _ => exact .inl rfl
    case nativeBurn q l am at' =>
      obtain ⟨hq, rfl, hp⟩ := ih
      cases hc
      refine ⟨(news_same rfl : _), ?_⟩
      have hna : ∀ i, a ≠ .block i := by
        rintro i rfl
        rw [← ledger hb] at hm
        obtain ⟨c', hc'⟩ := record_native_ok (r := ⟨am, q.destination, i, q.caller, none, some at'⟩) hb.reachable hm rfl
        have hi := ((answerInv hb.reachable).block hm rfl rfl).1
        have : w.mem.onNativeBurn q W.mem.m.st.nativeLedgerId am at' (.block i) = .ok (c'.nativeReturn q.caller (.ok i)) := by
          simp only [Mem.onNativeBurn, Res.bind_ok]
          exact ⟨_, burnResult_ok.2 ⟨rfl, hi⟩, by simp only [Res.bind_ok]; exact ⟨c', hc', rfl⟩⟩
        rw [this] at hr; cases hr
      rw [own hna]
      rcases hp with ⟨_, _, rfl⟩ | ⟨fee, t, h1, _, h2, rfl⟩
      · exact .inl rfl
      · exact .inr ⟨q, hq, .inr ⟨fee, t, h1, h2, .inl rfl⟩⟩
    case nativeRefund q l am e =>
      obtain ⟨hq, rfl, fee, t, hf, hft, rfl, rfl⟩ := ih
      cases hc
      refine ⟨(news_same rfl : _), .inr ⟨q, hq, .inr ⟨fee, t, hf, hft, ?_⟩⟩⟩
      cases a with
      | block i => exact .inr ⟨e, rfl⟩
      | _ => exact .inl rfl
  | kill w bl ev t a c hT hb hm hc ih =>
    obtain ⟨rfl, bl', rfl, ih⟩ := ih
    cases t <;> try exact ih.elim
    all_goals (cases hc; exact (news_same rfl : _))
  | answer w bl ev t o a now c n hT hb hm ht hr ih => exact ih.elim
  | answerTrap w bl ev t o a now e c hT hb hm ht hr hc ih => exact ih.elim
  | killExt w bl ev t o c hT hb hm hc ih => exact ih.elim

/-- The arguments of a call of `withdraw_erc20`, and the configuration when it started. -/
structure Erc20Call.Of (W : World) (id : Nat) (caller : Principal) (amount : Nat) (ledger : Principal) (recipient : List Char)
    (q : Erc20Call) : Prop where
  caller_eq : q.caller = caller
  amount_eq : q.amount = amount
  lt : amount < U256
  destination : validateDestination recipient = some q.destination
  config : ∃ w, Arrived w W id ∧ w.mem.m.st.findErc20TokenByLedgerId ledger = some q.token ∧
    w.mem.m.st.nativeLedgerTransferFee = q.transferFee
  ledger_eq : q.nativeLedger = W.mem.m.st.nativeLedgerId

/-- Waiting for a ledger never leads to waiting for a fee estimate. -/
theorem LedgerTask.resume_not_gas {c c' : Mem} {t : LedgerTask} {a : LedgerAnswer} {now : Nat} {n : Next}
    (h : t.resume c a now = .ok (c', n)) (q : Erc20Call) : n ≠ .await (.ext (.erc20Gas q)) := by
  have mint : ∀ {c c' : Mem} {env : MintEnv} {l : List Deposit} {n : Next}, c.mintLoop env l = .ok (c', n) → n ≠ .await (.ext (.erc20Gas q)) := by
    intro c c' env l n h
    rcases Mem.mintLoop_next h with rfl | ⟨_, _, _, _, _, _, rfl⟩ <;> intro h <;> cases h
  have reimb : ∀ {c c' : Mem} {l : List (ReimbIndex × ReimbRequest)} {n : Next}, c.reimburseLoop l = .ok (c', n) → n ≠ .await (.ext (.erc20Gas q)) := by
    intro c c' l n h
    rcases Mem.reimburseLoop_next h with rfl | ⟨_, _, _, _, rfl⟩ <;> intro h <;> cases h
  have fail : ∀ {c c' : Mem} {q' : Erc20Charged} {e : WithdrawErc20Error} {n : Next}, c.erc20Fail q' e = (c', n) → n ≠ .await (.ext (.erc20Gas q)) := by
    intro c c' q' e n h
    rcases Mem.erc20Fail_cases c q' e with ⟨fee, _, h1⟩ | ⟨_, h1⟩ <;> rw [h1] at h <;> cases h <;> intro h <;> cases h
  cases t <;> simp only [LedgerTask.resume] at h
  case mintUser env d sym l amount rest =>
    rcases Mem.onMintUser_cases h with ⟨i, fee, e, rfl, hi, rfl, hf, rfl, rfl⟩ | ⟨i, c1, rfl, hi, _, hp, hl⟩ | ⟨_, hl⟩
    · intro h; cases h
    · exact mint hl
    · exact mint hl
  case mintFee env d sym l fee block rest =>
    simp only [Mem.mintRecord, Res.bind_ok] at h
    obtain ⟨c1, hp, hl⟩ := h
    exact mint hl
  case reimburse x r l rest =>
    rcases Mem.onReimburse_cases h with ⟨i, c1, rfl, hi, hp, hl⟩ | ⟨_, hl⟩
    · exact reimb hl
    · exact reimb hl
  case nativeFee q l fee t =>
    rcases Mem.onNativeFee_cases h with ⟨i, amount, _, _, _, rfl, rfl⟩ | ⟨_, e, rfl, rfl⟩ <;> intro h <;> cases h
  case nativeBurn q l amount at' =>
    rcases Mem.onNativeBurn_cases h with ⟨i, c1, rfl, hi, hp, rfl, rfl⟩ | ⟨_, e, fee, _, rfl, rfl⟩ | ⟨_, _, e, rfl, rfl⟩ <;> intro h <;> cases h
  case nativeRefund q l amount e =>
    obtain ⟨e', rfl, rfl⟩ := Mem.onNativeRefund_cases h
    intro h; cases h
  case erc20Fee q t =>
    rcases Mem.onErc20Fee_cases h with ⟨i, _, _, rfl, rfl⟩ | ⟨_, e, rfl, rfl⟩ <;> intro h <;> cases h
  case erc20NativeBurn q at' =>
    rcases Mem.onErc20NativeBurn_cases h with ⟨i, rfl, _, rfl, rfl⟩ | ⟨_, e, hf⟩
    · intro h; cases h
    · exact fail hf
  case erc20TokenBurn q at' ni =>
    rcases Mem.onErc20TokenBurn_cases h with ⟨i, c1, rfl, hi, hp, rfl, rfl⟩ | ⟨_, e, c1, _, hc, hf⟩
    · intro h; cases h
    · exact fail hf
  case erc20Refund q amount e =>
    obtain ⟨rfl, rfl⟩ := Mem.onErc20Refund_cases h
    intro h; cases h

/-- Only upgrades change the configuration. -/
theorem Step.upgradable {w w' : World} (h : Reachable w) (hs : Step w w') (hne : w'.tasks ≠ [] ∨ w.tasks ≠ []) :
    w'.mem.m.st.upgradable = w.mem.m.st.upgradable := by
  have T := tracks h
  cases hs with
  | start msg now c n hty hrun => exact ((Message.run_grew hrun).shift T).upgradable (by cases msg <;> simp [Message.origin])
  | startTrap msg now e hty hrun => rfl
  | execute pre post id t ht _ => rfl
  | refuse pre post id t e ht _ => rfl
  | reject pre post id t ht => rfl
  | deliver pre post id t a now c n ht hr => exact ((LedgerTask.resume_grew hr).shift T).upgradable (by cases t <;> simp [LedgerTask.origin])
  | deliverTrap pre post id t a now e c ht hr hc => exact ((Task.cleanup_grew hc).shift T).upgradable (by cases t <;> simp [Task.origin, LedgerTask.origin])
  | kill pre post id t a c ht hc => exact ((Task.cleanup_grew hc).shift T).upgradable (by cases t <;> simp [Task.origin, LedgerTask.origin])
  | answer pre post id t o a now c n ht _ hr => exact ((ExtTask.resume_grew hr).shift T).upgradable (by cases t <;> simp [ExtTask.origin])
  | answerTrap pre post id t o a now e c ht _ hr hc => exact ((Task.cleanup_grew hc).shift T).upgradable (by cases t <;> simp [Task.origin, ExtTask.origin])
  | killExt pre post id t o c ht hc => exact ((Task.cleanup_grew hc).shift T).upgradable (by cases t <;> simp [Task.origin, ExtTask.origin])
  | foreign call _ => rfl
  | upgrade arg log s ht hp => rcases hne with hne | hne <;> exact absurd ht hne

/-- The configuration has not changed since a suspended message arrived. -/
theorem pending_config {w : World} (h : Reachable w) : ∀ {id : Nat} {t : Task} {a : Option LedgerAnswer}, ⟨id, t, a⟩ ∈ w.tasks →
    ∃ w₀, Arrived w₀ w id ∧ w.mem.m.st.upgradable = w₀.mem.m.st.upgradable ∧
      ∀ q, t = .ext (.erc20Gas q) → (∃ ledger, w₀.mem.m.st.findErc20TokenByLedgerId ledger = some q.token) ∧
        w₀.mem.m.st.nativeLedgerTransferFee = q.transferFee := by
  induction h with
  | init id a s blocks _ _ => intro id t a h; cases h
  | step w w' hr hs ih =>
    intro id t a hp
    have hu := Step.upgradable hr hs (.inl (by intro h; rw [h] at hp; cases hp))
    have hs0 := hs
    have keep : ∀ {a'}, ⟨id, t, a'⟩ ∈ w.tasks → ∃ w₀, Arrived w₀ w' id ∧ w'.mem.m.st.upgradable = w₀.mem.m.st.upgradable ∧
        ∀ q, t = .ext (.erc20Gas q) → (∃ ledger, w₀.mem.m.st.findErc20TokenByLedgerId ledger = some q.token) ∧
          w₀.mem.m.st.nativeLedgerTransferFee = q.transferFee := by
      intro a' h
      obtain ⟨w₀, h1, h2, h3⟩ := ih h
      exact ⟨w₀, h1.step hs, hu.trans h2, h3⟩
    have go : ∀ {t' a'}, ⟨id, t', a'⟩ ∈ w.tasks → (∀ q, t ≠ .ext (.erc20Gas q)) → ∃ w₀, Arrived w₀ w' id ∧ w'.mem.m.st.upgradable = w₀.mem.m.st.upgradable ∧
        ∀ q, t = .ext (.erc20Gas q) → (∃ ledger, w₀.mem.m.st.findErc20TokenByLedgerId ledger = some q.token) ∧
          w₀.mem.m.st.nativeLedgerTransferFee = q.transferFee := by
      intro t' a' h hne
      obtain ⟨w₀, h1, h2, _⟩ := ih h
      exact ⟨w₀, h1.step hs, hu.trans h2, fun q hq => absurd hq (hne q)⟩
    clear ih
    have adv : ∀ {pre post : List Pending} {p : Pending} {n : Next}, w.tasks = pre ++ p :: post → (⟨id, t, a⟩ : Pending) ∈ pre ++ n.pending p.id ++ post →
        (⟨id, t, a⟩ : Pending) ∈ w.tasks ∨ (id = p.id ∧ n = .await t) := by
      intro pre post p n ht h
      rw [ht]
      simp only [List.mem_append, List.mem_cons] at h ⊢
      rcases h with (h | h) | h
      · exact .inl (.inl h)
      · cases n with
        | await t' => simp only [Next.pending, List.mem_singleton, Pending.mk.injEq] at h; exact .inr ⟨h.1, by rw [h.2.1]⟩
        | finish r => cases h
      · exact .inl (.inr (.inr h))
    have mem : ∀ {pre post : List Pending} {p : Pending}, w.tasks = pre ++ p :: post → p ∈ w.tasks := by
      intro pre post p ht; rw [ht]; simp
    have set : ∀ {pre post : List Pending} {i : Nat} {t' : LedgerTask} {x y}, w.tasks = pre ++ ⟨i, .ledger t', x⟩ :: post →
        (⟨id, t, a⟩ : Pending) ∈ pre ++ ⟨i, .ledger t', y⟩ :: post → ∃ a', (⟨id, t, a'⟩ : Pending) ∈ w.tasks := by
      intro pre post i t' x y ht h
      rw [ht]
      simp only [List.mem_append, List.mem_cons, Pending.mk.injEq] at h ⊢
      rcases h with h | ⟨rfl, rfl, rfl⟩ | h
      · exact ⟨a, .inl h⟩
      · exact ⟨x, .inr (.inl ⟨rfl, rfl, rfl⟩)⟩
      · exact ⟨a, .inr (.inr h)⟩
    have sub : ∀ {pre post : List Pending} {p : Pending}, w.tasks = pre ++ p :: post → (⟨id, t, a⟩ : Pending) ∈ pre ++ post →
        (⟨id, t, a⟩ : Pending) ∈ w.tasks := by
      intro pre post p ht h
      rw [ht]
      simp only [List.mem_append, List.mem_cons] at h ⊢
      rcases h with h | h
      · exact .inl h
      · exact .inr (.inr h)
    cases hs with
    | start msg now c n hty hrun =>
      have : (⟨id, t, a⟩ : Pending) ∈ w.tasks ++ n.pending w.nextId ++ [] := hp
      simp only [List.append_nil, List.mem_append] at this
      rcases this with h | h
      · exact keep h
      · cases n with
        | finish r => cases h
        | await t' =>
          simp only [Next.pending, List.mem_singleton, Pending.mk.injEq] at h
          obtain ⟨rfl, rfl, rfl⟩ := h
          refine ⟨w, ⟨hr, rfl, _, hs0, rfl, .refl _⟩, hu, ?_⟩
          intro q hq
          subst hq
          cases msg
          case withdrawErc20 caller amount ledger recipient cached =>
            simp only [Message.run] at hrun
            obtain ⟨c1, h1, h | ⟨dest, token, hd, hlt, hk, h⟩⟩ := Mem.startErc20_cases hrun
            · obtain ⟨e, _, h⟩ := h; cases h
            · have gas : ∀ {c c' : Mem} {q' : Erc20Call} {g : Option GasFeeEstimate}, ¬ c.onErc20Gas q' g now = .ok (c', .await (.ext (.erc20Gas q))) := by
                intro c c' q' g h
                rcases Mem.onErc20Gas_cases h with ⟨_, _, h⟩ | ⟨g', _, _, ⟨fee, t, _, _, h⟩ | ⟨_, h⟩⟩ <;> cases h
              rcases h with ⟨g, _, h⟩ | ⟨_, h⟩ | ⟨_, h, h'⟩
              · exact (gas h).elim
              · exact (gas h).elim
              · cases h'
                exact ⟨⟨ledger, hk⟩, rfl⟩
          all_goals
            exfalso
            simp only [Message.run] at hrun
          case mint =>
            unfold Mem.startMint at hrun
            split at hrun
            · cases hrun
            · rcases Mem.mintLoop_next hrun with h | ⟨d, sym, l, a, rest, _, h⟩ <;> cases h
          case reimbursement =>
            unfold Mem.startReimbursement at hrun
            split at hrun
            · cases hrun
            · rcases Mem.reimburseLoop_next hrun with h | ⟨x, r, rest, hl, h⟩ <;> cases h
          case retrieve =>
            unfold Mem.startRetrieve at hrun
            split at hrun
            · cases hrun
            · split at hrun
              · cases hrun
              · split at hrun
                · cases hrun
                · split at hrun <;> cases hrun
          case scrape => split at hrun <;> cases hrun
          case gas => split at hrun <;> cases hrun
          case withdrawNative =>
            obtain ⟨c1, h1, h⟩ := Mem.startNative_cases hrun
            rcases h with ⟨_, _, h⟩ | ⟨_, _, _, _, _, ⟨_, _, _, _, h⟩ | ⟨_, h⟩⟩ <;> cases h
          case addToken caller arg =>
            simp only [Res.bind_ok, Res.pure_ok] at hrun
            obtain ⟨x, _, h⟩ := hrun
            cases h
    | startTrap msg now e hty hrun =>
      have : (⟨id, t, a⟩ : Pending) ∈ w.tasks ++ [] := hp
      rw [List.append_nil] at this
      exact keep this
    | execute pre post i t' ht _ => obtain ⟨a', h⟩ := set ht hp; exact keep h
    | refuse pre post i t' e ht _ => obtain ⟨a', h⟩ := set ht hp; exact keep h
    | reject pre post i t' ht => obtain ⟨a', h⟩ := set ht hp; exact keep h
    | deliver pre post i t' a' now c n ht hr' =>
      rcases adv (p := ⟨i, .ledger t', some a'⟩) ht hp with h | ⟨rfl, rfl⟩
      · exact keep h
      · exact go (mem ht) fun q hq => LedgerTask.resume_not_gas hr' q (by rw [hq])
    | deliverTrap pre post i t' a' now e c ht hr' hc => exact keep (sub ht hp)
    | kill pre post i t' a' c ht hc => exact keep (sub ht hp)
    | answer pre post i t' o a' now c n ht _ hr' =>
      rcases adv (p := ⟨i, .ext t', o⟩) ht hp with h | ⟨rfl, rfl⟩
      · exact keep h
      · refine go (mem ht) fun q hq => ?_
        subst hq
        rcases ExtTask.resume_next hr' with ⟨q', g, _, h, _⟩ | ⟨_, ⟨t'', h, h'⟩ | h⟩
        · rcases Mem.onErc20Gas_cases h with ⟨_, _, h⟩ | ⟨g', _, _, ⟨fee, t, _, _, h⟩ | ⟨_, h⟩⟩ <;> cases h
        · cases h; exact h' q rfl
        · cases h
    | answerTrap pre post i t' o a' now e c ht _ hr' hc => exact keep (sub ht hp)
    | killExt pre post i t' o c ht hc => exact keep (sub ht hp)
    | foreign call _ => exact keep hp
    | upgrade arg log s ht hpu =>
      have : (⟨id, t, a⟩ : Pending) ∈ w.tasks := hp
      exact keep this

/-- ... and the fees when they were read. -/
structure Erc20Charged.Of (W : World) (id : Nat) (caller : Principal) (amount : Nat) (ledger : Principal) (recipient : List Char)
    (q : Erc20Charged) : Prop where
  call : q.toErc20Call.Of W id caller amount ledger recipient
  config : ∃ (w : World) (g : GasFeeEstimate), Arrived w W id ∧ (∃ l, w.mem.m.st.findErc20TokenByLedgerId l = some q.token) ∧
    w.mem.m.st.nativeLedgerTransferFee = q.transferFee ∧ w.mem.m.st.withdrawalNativeFee = q.fee ∧ g.Bounded ∧
    q.txFee = (g.toPrice erc20GasLimit).maxTransactionFee

/-- The blocks before the burn of the transaction fee: none, or the transfer of the withdrawal fee. -/
def Erc20Charged.Paid (W : World) (id : Nat) (q : Erc20Charged) (bl : List Block) : Prop :=
  (q.fee = none ∧ bl = []) ∨ ∃ fee t, q.fee = some fee ∧ fee = t + q.transferFee ∧ bl = [blk W id (.erc20Fee q t)]

/-- The transaction fee was burnt in block `ni`, nothing else after `bl'`. -/
def Erc20Charged.Burnt (W : World) (id : Nat) (q : Erc20Charged) (now ni : Nat) (bl : List Block) : Prop :=
  ∃ bl', q.Paid W id bl' ∧ bl = bl' ++ [blk W id (.erc20NativeBurn q now)] ∧
    W.blockAt W.mem.m.st.nativeLedgerId ni = some (blk W id (.erc20NativeBurn q now))

/-- A burn failed: what was recorded. -/
def Erc20Charged.Aftermath (W : World) (id : Nat) (q : Erc20Charged) (bl : List Block) (ev : List Event) (e : WithdrawErc20Error) : Prop :=
  (q.Paid W id bl ∧ ev = [] ∧ ∃ le, e = .nativeLedgerError le) ∨
    ∃ now ni le, q.Burnt W id now ni bl ∧ e = .erc20LedgerError ni le ∧
      ((0 < erc20ReimbursedAmount q.txFee q.transferFee le ∧
          ev = [.failedErc20WithdrawalRequest ⟨ni, erc20ReimbursedAmount q.txFee q.transferFee le, q.caller, none, none⟩]) ∨
        (erc20ReimbursedAmount q.txFee q.transferFee le = 0 ∧ ev = []))

/-- The blocks and records before the current call of `withdraw_erc20`. -/
def Erc20Before (W : World) (id : Nat) (caller : Principal) (amount : Nat) (ledger : Principal) (recipient : List Char) (bl : List Block)
    (ev : List Event) : LedgerTask → Prop
  | .erc20Fee q t => q.Of W id caller amount ledger recipient ∧ ev = [] ∧ bl = [] ∧ ∃ fee, q.fee = some fee ∧ fee = t + q.transferFee
  | .erc20NativeBurn q _ => q.Of W id caller amount ledger recipient ∧ ev = [] ∧ q.Paid W id bl
  | .erc20TokenBurn q now ni => q.Of W id caller amount ledger recipient ∧ ev = [] ∧ q.Burnt W id now ni bl
  | .erc20Refund q am e => q.Of W id caller amount ledger recipient ∧ (∃ fee, q.fee = some fee ∧ am = refundAmount fee q.transferFee) ∧
      q.Aftermath W id bl ev e
  | _ => False

/-- The whole story of a call of `withdraw_erc20`. -/
def Erc20Story (W : World) (id : Nat) (caller : Principal) (amount : Nat) (ledger : Principal) (recipient : List Char) (bl : List Block)
    (ev : List Event) : Progress → Prop
  | .waiting (.ledger t) a => ∃ bl', bl = bl' ++ ownBlock W id t a ∧ Erc20Before W id caller amount ledger recipient bl' ev t
  | .waiting (.ext (.erc20Gas q)) _ => q.Of W id caller amount ledger recipient ∧ bl = [] ∧ ev = []
  | .waiting (.ext _) _ => False
  | .done (.replied (some (.erc20 (.ok (ni, i))))) => ∃ (q : Erc20Charged) (now : Nat) (bl' : List Block),
      q.Of W id caller amount ledger recipient ∧ q.Burnt W id now ni bl' ∧ bl = bl' ++ [blk W id (.erc20TokenBurn q now ni)] ∧
      W.blockAt q.token.erc20LedgerId i = some (blk W id (.erc20TokenBurn q now ni)) ∧
      ev = [.acceptedErc20WithdrawalRequest (q.request now ni i)]
  | .done (.replied (some (.erc20 (.error e)))) => (bl = [] ∧ ev = []) ∨ ∃ (q : Erc20Charged) (bl' : List Block),
      q.Of W id caller amount ledger recipient ∧ q.Aftermath W id bl' ev e ∧
      (bl = bl' ∨ ∃ fee e, q.fee = some fee ∧ bl = bl' ++ [blk W id (.erc20Refund q (refundAmount fee q.transferFee) e)])
  | .done (.replied _) => False
  | .done .trapped => bl = [] ∧ ev = []
  | .done .killed => ev = [] ∨ ∃ (q : Erc20Charged) (e : WithdrawErc20Error) (bl' : List Block),
      q.Of W id caller amount ledger recipient ∧ q.Aftermath W id bl' ev e ∧
      (bl = bl' ∨ ∃ fee e, q.fee = some fee ∧ bl = bl' ++ [blk W id (.erc20Refund q (refundAmount fee q.transferFee) e)])

theorem Erc20Story.gas {W w : World} {id : Nat} {caller : Principal} {amount : Nat} {ledger : Principal} {recipient : List Char} {q : Erc20Call}
    {c c' : Mem} {n : Next} {g : Option GasFeeEstimate} {now : Nat} (hb : Arrived w W id) (hq : q.Of W id caller amount ledger recipient)
    (hk : ∃ l, w.mem.m.st.findErc20TokenByLedgerId l = some q.token) (htf : w.mem.m.st.nativeLedgerTransferFee = q.transferFee)
    (hm : c.m.st.upgradable = w.mem.m.st.upgradable) (hg : ∀ g', g = some g' → g'.Bounded) (h : c.onErc20Gas q g now = .ok (c', n)) :
    Erc20Story W id caller amount ledger recipient [] [] n.status := by
  have hm : c.m.st.withdrawalNativeFee = w.mem.m.st.withdrawalNativeFee := congrArg UpgradableConfig.withdrawalNativeFee hm
  rcases Mem.onErc20Gas_cases h with ⟨_, _, rfl⟩ | ⟨g', rfl, rfl, ⟨fee, t, hf, ht, rfl⟩ | ⟨hf, rfl⟩⟩
  · exact .inl ⟨rfl, rfl⟩
  · exact ⟨[], rfl, ⟨hq, w, g', hb, hk, htf, hm.symm.trans hf, hg g' rfl, rfl⟩, rfl, rfl, fee, rfl, csub_eq_some.1 ht⟩
  · exact ⟨[], rfl, ⟨hq, w, g', hb, hk, htf, hm.symm.trans hf, hg g' rfl, rfl⟩, rfl, .inl ⟨rfl, rfl⟩⟩

omit [Keccak] in
/-- The answer to a transfer is understood. -/
theorem transferResult_total {a : LedgerAnswer} (hi : ∀ i, a = .block i → i < 2 ^ 64)
    (hr : ∀ e, a = .refused e → MayRefuse (.transfer x y z) e) : ∃ r, transferResult a = .ok r := by
  cases a with
  | block i => exact ⟨.ok i, transferResult_ok.2 ⟨rfl, hi i rfl⟩⟩
  | refused e =>
    have := hr e rfl
    cases e <;> simp [MayRefuse, transferResult] at this ⊢
  | rejected => exact ⟨_, rfl⟩

omit [Keccak] in
/-- The answer to a burn is understood. -/
theorem burnResult_total {a : LedgerAnswer} (hi : ∀ i, a = .block i → i < 2 ^ 64)
    (hr : ∀ e, a = .refused e → MayRefuse (.burn x y) e) : ∃ r, burnResult a = .ok r := by
  cases a with
  | block i => exact ⟨.ok i, burnResult_ok.2 ⟨rfl, hi i rfl⟩⟩
  | refused e =>
    have := hr e rfl
    cases e <;> simp [MayRefuse, burnResult] at this ⊢
  | rejected => exact ⟨_, rfl⟩

theorem Thread.erc20 {W : World} {id : Nat} {caller : Principal} {amount : Nat} {ledger : Principal} {recipient : List Char}
    {cached : Option GasFeeEstimate} {bl : List Block} {ev : List Event} {st : Progress}
    (h : Thread W id (.withdrawErc20 caller amount ledger recipient cached) bl ev st) :
    Erc20Story W id caller amount ledger recipient bl ev st := by
  have hcall : ∀ {w : World} {t : LedgerTask}, Before W w → (⟨t.call w.mem.id, some (id, t)⟩ : Block) = blk W id t := by
    intro w t hb; rw [blk, hb.grows.id]
  have own : ∀ {t : LedgerTask} {a : LedgerAnswer}, (∀ i, a ≠ .block i) → ownBlock W id t (some a) = [] := by
    intro t a h
    cases a with
    | block i => exact absurd rfl (h i)
    | _ => rfl
  have quiet : ∀ {c c' : Mem}, c'.m = c.m → ([] : List Event) ++ news c c' = [] := fun h => by simp [news_same h]
  have keep : ∀ {c c' : Mem} {ev : List Event}, c'.m = c.m → ev ++ news c c' = ev := fun h => by simp [news_same h]
  induction h with
  | start w now c n hb hn hty hr =>
    simp only [Message.run] at hr
    obtain ⟨c1, h1, h⟩ := Mem.startErc20_cases hr
    have hm := Mem.lockCaller_m h1
    rcases h with ⟨e, rfl, rfl⟩ | ⟨dest, token, hd, hlt, hk, h⟩
    · exact .inl ⟨rfl, news_same hm⟩
    · have hq : (⟨caller, amount, dest, token, w.mem.m.st.nativeLedgerTransferFee, w.mem.m.st.nativeLedgerId⟩ : Erc20Call).Of W id
          caller amount ledger recipient := ⟨rfl, rfl, hlt, hd, ⟨w, hn, hk, rfl⟩, hb.grows.nativeLedger.symm⟩
      rcases h with ⟨g, rfl, h⟩ | ⟨rfl, h⟩ | ⟨rfl, h, rfl⟩
      · rw [news_same ((Mem.onErc20Gas_m h).trans hm)]
        exact Erc20Story.gas hn hq ⟨_, hk⟩ rfl (by rw [hm]) (fun g' hg => by cases hg; exact hty) h
      · rw [news_same ((Mem.onErc20Gas_m h).trans hm)]
        exact Erc20Story.gas hn hq ⟨_, hk⟩ rfl (by rw [hm]) (fun g' hg => by cases hg) h
      · exact ⟨hq, rfl, news_same ((Mem.acquire_m h).trans hm)⟩
  | startTrap w now e hb hn hty hr => exact ⟨rfl, rfl⟩
  | execute w bl ev t hT hb hm hh h0 h1 ih =>
    obtain ⟨bl', rfl, h⟩ := ih
    exact ⟨bl', by simp [ownBlock, hcall hb], h⟩
  | refuse w bl ev t e hT hb hm hr ih => exact ih
  | reject w bl ev t hT hb hm ih => exact ih
  | deliver w bl ev t a now c n hT hb hm hr ih =>
    obtain ⟨bl', rfl, ih⟩ := ih
    clear hT
    cases t <;> simp only [LedgerTask.resume] at hr <;> try exact ih.elim
    case erc20Fee q t =>
      obtain ⟨hq, rfl, rfl, fee, hf, hft⟩ := ih
      rcases Mem.onErc20Fee_cases hr with ⟨i, rfl, _, rfl, rfl⟩ | ⟨hna, e, rfl, rfl⟩
      · exact ⟨[blk W id (.erc20Fee q t)], rfl, hq, quiet rfl, .inr ⟨fee, t, hf, hft, rfl⟩⟩
      · exact .inl ⟨by rw [own hna]; rfl, quiet rfl⟩
    case erc20NativeBurn q at' =>
      obtain ⟨hq, rfl, hp⟩ := ih
      rcases Mem.onErc20NativeBurn_cases hr with ⟨i, rfl, _, rfl, rfl⟩ | ⟨hna, e, hf⟩
      · refine ⟨bl' ++ [blk W id (.erc20NativeBurn q at')], by simp [ownBlock], hq, quiet rfl, bl', hp, rfl, ?_⟩
        have := (hb.madeBy hm).1
        rwa [show (LedgerTask.call W.mem.id (.erc20NativeBurn q at')).ledger = W.mem.m.st.nativeLedgerId from hq.call.ledger_eq] at this
      · rcases Mem.erc20Fail_cases w.mem q (.nativeLedgerError e) with ⟨fee, hfee, h1⟩ | ⟨_, h1⟩ <;> rw [h1] at hf <;> cases hf
        · exact ⟨bl', by rw [own hna]; rfl, hq, ⟨fee, hfee, rfl⟩, .inl ⟨hp, quiet rfl, e, rfl⟩⟩
        · exact .inr ⟨q, bl', hq, .inl ⟨hp, quiet rfl, e, rfl⟩, .inl (by rw [own hna]; simp)⟩
    case erc20TokenBurn q at' ni =>
      obtain ⟨hq, rfl, hp⟩ := ih
      rcases Mem.onErc20TokenBurn_cases hr with ⟨i, c1, rfl, hi, hpr, rfl, rfl⟩ | ⟨hna, e, c1, _, hc, hf⟩
      · refine ⟨q, at', bl', hq, hp, rfl, (hb.madeBy hm).1, ?_⟩
        rw [List.nil_append]
        exact (news_eq (c' := c1) rfl).trans (news_process hpr)
      · have hcm : c.m = c1.m := by
          have := Mem.erc20Fail_m c1 q (.erc20LedgerError ni e)
          rw [hf] at this; exact this
        have haft : q.Aftermath W id bl' ([] ++ news w.mem c) (.erc20LedgerError ni e) := by
          rw [List.nil_append, news_eq hcm]
          refine .inr ⟨at', ni, e, hp, rfl, ?_⟩
          rcases hc with ⟨hpos, hpr⟩ | ⟨h0, rfl⟩
          · exact .inl ⟨hpos, news_process hpr⟩
          · exact .inr ⟨h0, news_same rfl⟩
        rcases Mem.erc20Fail_cases c1 q (.erc20LedgerError ni e) with ⟨fee, hfee, h1⟩ | ⟨_, h1⟩ <;> rw [h1] at hf <;> cases hf
        · exact ⟨bl', by rw [own hna]; rfl, hq, ⟨fee, hfee, rfl⟩, haft⟩
        · exact .inr ⟨q, bl', hq, haft, .inl (by rw [own hna]; simp)⟩
    case erc20Refund q am e =>
      obtain ⟨hq, ⟨fee, hf, rfl⟩, haft⟩ := ih
      obtain ⟨rfl, rfl⟩ := Mem.onErc20Refund_cases hr
      rw [keep (c := w.mem) (c' := w.mem.leave q.caller) rfl]
      refine .inr ⟨q, bl', hq, haft, ?_⟩
      cases a with
      | block i => exact .inr ⟨fee, e, hf, rfl⟩
      | _ => exact .inl (by simp [ownBlock])
  | deliverTrap w bl ev t a now e c hT hb hm hr hc ih =>
    obtain ⟨bl', rfl, ih⟩ := ih
    clear hT
    exfalso
    have A := answerInv hb.reachable
    have hi : ∀ i, a = .block i → i < 2 ^ 64 := by rintro i rfl; exact (A.block hm rfl rfl).1
    have href : ∀ e, a = .refused e → MayRefuse (t.call w.mem.id).op e := by rintro e rfl; exact A.refused hm rfl rfl
    cases t <;> simp only [LedgerTask.resume] at hr <;> try exact ih.elim
    case erc20Fee q t =>
      obtain ⟨r, h1⟩ := transferResult_total hi href
      cases r <;> simp [Mem.onErc20Fee, h1, bind, Except.bind, pure, Except.pure] at hr
    case erc20NativeBurn q at' =>
      obtain ⟨r, h1⟩ := burnResult_total hi href
      cases r <;> simp [Mem.onErc20NativeBurn, h1, bind, Except.bind, pure, Except.pure] at hr
    case erc20TokenBurn q at' ni =>
      obtain ⟨r, h1⟩ := burnResult_total hi href
      cases r with
      | ok i =>
        obtain ⟨c', hc'⟩ := record_erc20_ok (r := q.request at' ni i) hb.reachable hm rfl rfl
        simp only [Mem.onErc20TokenBurn, h1, bind, Except.bind] at hr
        generalize hE : Event.acceptedErc20WithdrawalRequest _ = E at hr
        rw [show E = _ from hE.symm.trans (show _ = Event.acceptedErc20WithdrawalRequest (q.request at' ni i) from rfl)] at hr
        rw [hc'] at hr
        cases hr
      | error e =>
        simp only [Mem.onErc20TokenBurn, h1, bind, Except.bind, Mem.erc20Reimburse] at hr
        split at hr
        · rename_i h2
          split at h2
          · obtain ⟨c', hc'⟩ := record_failed_ok (r := ⟨ni, erc20ReimbursedAmount q.txFee q.transferFee e, q.caller, none, none⟩) hb.reachable hm rfl
            rw [hc'] at h2; cases h2
          · cases h2
        · cases hr
    case erc20Refund q am e =>
      obtain ⟨r, h1⟩ := transferResult_total hi href
      cases r <;> simp [Mem.onErc20Refund, h1, bind, Except.bind, pure, Except.pure] at hr
  | kill w bl ev t a c hT hb hm hc ih =>
    obtain ⟨bl', rfl, ih⟩ := ih
    clear hT
    cases t <;> try exact ih.elim
    case erc20Refund q am e =>
      obtain ⟨hq, ⟨fee, hf, rfl⟩, haft⟩ := ih
      cases hc
      rw [keep (c := w.mem) (c' := w.mem.leave q.caller) rfl]
      refine .inr ⟨q, e, bl', hq, haft, ?_⟩
      cases a with
      | block i => exact .inr ⟨fee, e, hf, rfl⟩
      | _ => exact .inl (by simp [ownBlock])
    all_goals
      obtain ⟨_, rfl, _⟩ := ih
      cases hc
      exact .inl (quiet rfl)
  | answer w bl ev t o a now c n hT hb hm ht hr ih =>
    clear hT
    cases t <;> try exact ih.elim
    rename_i q
    obtain ⟨hq, rfl, rfl⟩ := ih
    rcases ExtTask.resume_next hr with ⟨q', g, hqq, h, rfl⟩ | ⟨hne, _⟩
    · cases hqq
      rw [quiet (c := w.mem) ((Mem.onErc20Gas_m h).trans rfl)]
      obtain ⟨w₀, p1, p2, p3⟩ := pending_config hb.reachable hm
      obtain ⟨p3, p4⟩ := p3 q rfl
      exact Erc20Story.gas (c := w.mem.release .refreshGasFeeEstimate) (p1.leads hb.leads) hq p3 p4 p2 (fun g' hg => by cases hg; exact ht) h
    · exact absurd rfl (hne q)
  | answerTrap w bl ev t o a now e c hT hb hm ht hr hc ih =>
    clear hT
    cases t <;> try exact ih.elim
    obtain ⟨hq, rfl, rfl⟩ := ih
    cases hc
    exact ⟨rfl, quiet rfl⟩
  | killExt w bl ev t o c hT hb hm hc ih =>
    clear hT
    cases t <;> try exact ih.elim
    obtain ⟨hq, rfl, rfl⟩ := ih
    cases hc
    exact .inl (quiet rfl)

end
end EvmMinter
