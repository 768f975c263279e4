import Verif.Lemmas.MintInv
import Verif.Spec.Mint
import Verif.Props.C01
import Verif.Spec.ExampleWorld
/-!
# C02, C03: mints for deposits in every execution
-/

namespace EvmMinter
open Spec

section
variable [Keccak]

omit [Keccak] in
theorem Block.source_eq (b : Block) : b.source = b.deposit.map Deposit.source := by
  obtain ⟨c, _ | ⟨i, t⟩⟩ := b
  · rfl
  · cases t <;> rfl

omit [Keccak] in
theorem LedgerTask.credits_call {t : LedgerTask} {self : Principal} {src : EventSource} (h : (t.call self).credits src = true) :
    ∃ env d sym l a rest, t = .mintUser env d sym l a rest ∧ d.source = src := by
  cases t with
  | mintUser env d sym l a rest =>
    refine ⟨env, d, sym, l, a, rest, rfl, ?_⟩
    simpa [LedgerTask.call, LedgerCall.credits, Deposit.memo] using h
  | reimburse x r l rest =>
    simp only [LedgerTask.call, LedgerCall.credits, ReimbRequest.memo] at h
    cases hh : r.transactionHash <;> simp [hh] at h
  | _ => simp [LedgerTask.call, LedgerCall.credits] at h

omit [Keccak] in
theorem LedgerCall.credits_foreign {c : LedgerCall} {src : EventSource} (h : c.credits src = true) : ¬ c.op.Foreign := by
  intro hf
  unfold LedgerCall.credits at h
  split at h
  · rename_i h1 _; rw [h1] at hf; exact hf
  · cases h

theorem source_of_credits {w : World} (h : Reachable w) {b : Block} (hb : b ∈ w.blocks) {src : EventSource}
    (hc : b.call.credits src = true) : b.source = some src := by
  have B := blockInv h
  cases ht : b.by' with
  | none => exact absurd (B.foreign b hb ht) (LedgerCall.credits_foreign hc)
  | some x =>
    obtain ⟨i, t⟩ := x
    rw [(B.own b hb i t ht).1] at hc
    obtain ⟨env, d, sym, l, a, rest, rfl, hd⟩ := LedgerTask.credits_call hc
    simp [Block.source, ht, LedgerTask.deposit, hd]

/-- **C02**: for every deposit log, all ledgers together execute at most one mint to the user. -/
theorem C02_minted_at_most_once {w : World} (h : Reachable w) (src : EventSource) :
    (w.blocks.filter fun b => b.call.credits src).length ≤ 1 := by
  have e1 : (w.blocks.filter fun b => b.call.credits src) =
      (w.blocks.filter fun b => b.source == some src).filter fun b => b.call.credits src := by
    rw [List.filter_filter]
    apply List.filter_congr
    intro b hb
    cases hc : b.call.credits src with
    | false => simp
    | true => simp [source_of_credits h hb hc]
  have e2 : ((w.blocks.filter fun b => b.source == some src).filter fun b => b.call.credits src).length =
      ((paidFor w.blocks src).filter fun c => c.credits src).length := by
    simp only [paidFor, List.filter_map, List.length_map]
    rfl
  rw [e1, e2]
  have hfee : ∀ a b c, (feeCall a b c).credits src = false := fun _ _ _ => rfl
  rcases (mintInv h).paid src with hp | ⟨d, l, _, _, ⟨e, _, _, fee, _, hp | hp⟩ | ⟨e, sym, _, _, hp⟩⟩ <;> rw [hp]
  · simp
  · exact Nat.le_trans (List.length_filter_le _ _) (by simp)
  · simp only [List.filter_cons, hfee]
    split <;> simp
  · exact Nat.le_trans (List.length_filter_le _ _) (by simp)

/-- **C03**: the mint to the user, at the moment the ledger executes it: the deposit waits for its mint, and account, ledger
and amount are those of the deposit, minus the configured fee for native deposits. -/
theorem C03_mint {w w' : World} (h : Reachable w) (hs : Step w w') {b : Block} {src : EventSource}
    (hb : w'.blocks = w.blocks ++ [b]) (hc : b.call.credits src = true) :
    ∃ d amount, w.mem.m.st.eventsToMint.get src = some d ∧ b.call.op = .mint ⟨d.principal, d.subaccount⟩ amount ∧
      LedgerFor w.mem.m.st d b.call.ledger ∧ b.call.memo = some d.memo ∧
      amount + (match d with | .native _ => w.mem.m.st.depositNativeFee.getD 0 | .erc20 _ => 0) = d.value := by
  cases hs with
  | execute pre post id t ht hh =>
    simp only [List.append_cancel_left_eq, List.cons.injEq, and_true] at hb
    subst hb
    obtain ⟨env, d, sym, l, a, rest, rfl, rfl⟩ := LedgerTask.credits_call hc
    have hm : (⟨id, .ledger (.mintUser env d sym l a rest), none⟩ : Pending) ∈ mintTasks w.tasks := by
      rw [ht]
      simp [mintTasks, Pending.minting, Task.deposit, LedgerTask.deposit]
    obtain ⟨q, h1, h2⟩ := (mintInv h).claim hm rfl
    refine ⟨d, a, q.waiting d (by simp), rfl, ?_, rfl, ?_⟩
    · cases d with
      | native e =>
        simp only [Mem.mintTarget, Except.ok.injEq, Prod.mk.injEq] at h1
        obtain ⟨_, rfl⟩ := h1
        exact q.ledger
      | erc20 e =>
        simp only [Mem.mintTarget, Res.bind_ok, Res.expect_ok, Res.pure_ok, Prod.mk.injEq] at h1
        obtain ⟨⟨l', sym'⟩, h1, rfl, rfl⟩ := h1
        exact ⟨_, h1⟩
    · rw [q.fee] at h2
      cases d with
      | native e =>
        cases hf : w.mem.m.st.depositNativeFee with
        | none =>
          rw [hf] at h2
          simp only [Deposit.mintAmount, Except.ok.injEq] at h2
          subst h2
          rfl
        | some f =>
          rw [hf] at h2
          simp only [Deposit.mintAmount] at h2
          split at h2
          · cases h2
            simp only [Option.getD_some, Deposit.value]
            exact Nat.sub_add_cancel ‹_›
          · cases h2
      | erc20 e =>
        simp only [Deposit.mintAmount, Except.ok.injEq] at h2
        subst h2
        rfl
  | foreign call hf =>
    simp only [List.append_cancel_left_eq, List.cons.injEq, and_true] at hb
    subst hb
    exact absurd hf (LedgerCall.credits_foreign hc)
  | _ =>
    exfalso
    have := congrArg List.length hb
    simp [World.advance, World.drop, World.begin] at this

/-- What was executed for a source belongs to an accepted deposit. -/
theorem paid_deposit {w : World} (h : Reachable w) (src : EventSource) :
    w.mintedFor src = 0 ∨ ∃ d l, d.source = src ∧ d.intoEvent ∈ w.mem.m.log ∧ LedgerFor w.mem.m.st d l ∧
      w.mintedFor src ≤ d.value ∧ (∀ b ∈ w.blocks, b.source = some src → b.call.ledger = l) := by
  have hsum : w.mintedFor src = ((paidFor w.blocks src).map fun c => c.mints).sum := by
    unfold World.mintedFor paidFor
    simp only [List.map_map, Block.source_eq]
    rfl
  have hmem : ∀ b ∈ w.blocks, b.source = some src → b.call ∈ paidFor w.blocks src := by
    intro b hb hs
    exact List.mem_map.2 ⟨b, List.mem_filter.2 ⟨hb, by simp [hs]⟩, rfl⟩
  rcases (mintInv h).paid src with hp | ⟨d, l, h1, h2, h3⟩
  · left
    rw [hsum, hp]
    rfl
  · right
    refine ⟨d, l, h1, h2, ?_⟩
    rw [hsum]
    rcases h3 with ⟨e, rfl, k2, fee, k3, k4⟩ | ⟨e, sym, rfl, k2, k3⟩
    · refine ⟨k2, ?_, fun b hb hs => ?_⟩
      · rcases k4 with k4 | k4 <;> rw [k4]
        · simp only [List.map_cons, List.map_nil, List.sum_cons, List.sum_nil, LedgerCall.mints, userCall, Deposit.value]
          exact Nat.sub_le _ _
        · simp only [List.map_cons, List.map_nil, List.sum_cons, List.sum_nil, LedgerCall.mints, userCall, feeCall, Deposit.value,
            Nat.add_zero]
          exact Nat.le_of_eq (Nat.sub_add_cancel k3)
      · have := hmem b hb hs
        rcases k4 with k4 | k4 <;> rw [k4] at this <;> simp only [List.mem_cons, List.not_mem_nil, or_false] at this
        · rw [this]; rfl
        · rcases this with this | this <;> rw [this] <;> rfl
    · refine ⟨⟨sym, (DMKM.getEntryAlt_eq (registry_of_tracks (tracks h)).wf).2 k2⟩, ?_, fun b hb hs => ?_⟩
      · rw [k3]
        simp only [List.map_cons, List.map_nil, List.sum_cons, List.sum_nil, LedgerCall.mints, userCall, Deposit.value]
        exact Nat.le_refl _
      · have := hmem b hb hs
        rw [k3, List.mem_singleton] at this
        rw [this]; rfl

/-- **C03**: what was minted for a deposit, to the user and as a fee, never exceeds its value. -/
theorem C03_value {w : World} (h : Reachable w) {src : EventSource} (hp : 0 < w.mintedFor src) :
    ∃ d : Deposit, d.source = src ∧ d.intoEvent ∈ w.mem.m.log ∧ w.mintedFor src ≤ d.value := by
  rcases paid_deposit h src with h0 | ⟨d, l, h1, h2, _, h4, _⟩
  · omega
  · exact ⟨d, h1, h2, h4⟩

omit [Keccak] in
theorem le_sum_of_mem {l : List Nat} {x : Nat} (h : x ∈ l) : x ≤ l.sum := by
  induction l with
  | nil => cases h
  | cons y t ih =>
    rw [List.sum_cons]
    rcases List.mem_cons.1 h with rfl | h
    · omega
    · have := ih h; omega

omit [Keccak] in
theorem sum_le_of_sublist {l l' : List Nat} (h : l.Sublist l') : l.sum ≤ l'.sum := by
  induction h with
  | slnil => exact Nat.le_refl _
  | cons a _ ih => rw [List.sum_cons]; omega
  | cons_cons a _ ih => rw [List.sum_cons, List.sum_cons]; omega

omit [Keccak] in
theorem eq_of_count_le_one {α : Type} {p : α → Bool} {l : List α} (h : (l.filter p).length ≤ 1) {x y : α} (hx : x ∈ l) (hy : y ∈ l)
    (px : p x = true) (py : p y = true) : x = y := by
  have h1 := List.mem_filter.2 ⟨hx, px⟩
  have h2 := List.mem_filter.2 ⟨hy, py⟩
  match hl : l.filter p, h with
  | [], _ => rw [hl] at h1; cases h1
  | [z], _ =>
    rw [hl, List.mem_singleton] at h1 h2
    rw [h1, h2]

/-- A source is accepted once. -/
theorem accepted_unique {log : List Event} {s : State} (h : Tracks log s) {d d' : Deposit} (hd : d.intoEvent ∈ log)
    (hd' : d'.intoEvent ∈ log) (hs : d.source = d'.source) : d = d' := by
  obtain ⟨s₀, h1, _⟩ := h
  have hc := (depLog_of_replay h1 d.source).accept_count
  have he := eq_of_count_le_one (p := isAcceptOf d.source) (by simpa [count, List.countP_eq_length_filter] using hc) hd hd'
    (by rw [source_intoEvent]; simp) (by rw [source_intoEvent, hs]; simp)
  have := congrArg Event.deposit? he
  cases d <;> cases d' <;> simpa [Deposit.intoEvent, Event.deposit?] using this

omit [Keccak] in
theorem sum_by_key {α κ : Type} [DecidableEq κ] (f : α → Nat) (key : α → Option κ) (l : List α) (ks : List κ)
    (h : ∀ x ∈ l, f x = 0 ∨ ∃ k ∈ ks, key x = some k) :
    (l.map f).sum ≤ (ks.map fun k => ((l.filter fun x => key x == some k).map f).sum).sum := by
  induction l with
  | nil => simp
  | cons x t ih =>
    replace ih := ih (fun y hy => h y (by simp [hy]))
    have hx : f x ≤ (ks.map fun k => if key x == some k then f x else 0).sum := by
      rcases h x (by simp) with h0 | ⟨k, hk, he⟩
      · rw [h0]; exact Nat.zero_le _
      · clear ih h
        revert hk
        induction ks with
        | nil => intro hk; cases hk
        | cons k' ks ihk =>
          intro hk
          simp only [List.map_cons, List.sum_cons]
          rcases List.mem_cons.1 hk with rfl | hk
          · simp [he]
          · exact Nat.le_trans (ihk hk) (Nat.le_add_left _ _)
    have key' : ∀ (l' : List κ), (l'.map fun k => (((x :: t).filter fun x => key x == some k).map f).sum).sum =
        (l'.map fun k => if key x == some k then f x else 0).sum +
        (l'.map fun k => ((t.filter fun x => key x == some k).map f).sum).sum := by
      intro l'
      induction l' with
      | nil => rfl
      | cons k l' ihl =>
        simp only [List.map_cons, List.sum_cons]
        rw [ihl, List.filter_cons]
        by_cases hk : (key x == some k) = true
        · rw [if_pos hk, if_pos hk, List.map_cons, List.sum_cons]; omega
        · rw [if_neg hk, if_neg hk]; omega
    rw [key' ks]
    simp only [List.map_cons, List.sum_cons]
    omega

omit [Keccak] in
theorem intoEvent_deposit (d : Deposit) : d.intoEvent.deposit? = some d := by cases d <;> rfl

omit [Keccak] in
theorem mem_acceptedDeposits {log : List Event} {d : Deposit} : d ∈ acceptedDeposits log ↔ d.intoEvent ∈ log := by
  simp only [acceptedDeposits, List.mem_filterMap]
  constructor
  · rintro ⟨e, he, hd⟩
    cases e <;> simp only [Event.deposit?, reduceCtorEq, Option.some.injEq] at hd <;> subst hd <;> exact he
  · intro h; exact ⟨_, h, intoEvent_deposit d⟩

theorem ledgerFor_unique {s : State} {d : Deposit} {l l' : Principal} (h : LedgerFor s d l) (h' : LedgerFor s d l') : l = l' := by
  cases d with
  | native e => exact Eq.trans h (Eq.symm h')
  | erc20 e =>
    obtain ⟨sym, h⟩ := h
    obtain ⟨sym', h'⟩ := h'
    rw [h] at h'
    exact (Prod.mk.inj (Option.some.inj h')).1

open Classical in
/-- **C03**, without ghost components: on every ledger, all mints except reimbursements together never exceed the accepted
deposits for that ledger. -/
theorem C03_total {w : World} (h : Reachable w) (ledger : Principal) :
    w.mintedForDeposits ledger ≤
      (((acceptedDeposits w.mem.m.log).filter fun d => LedgerFor w.mem.m.st d ledger).map Deposit.value).sum := by
  have B := blockInv h
  -- every such mint has a source
  have hsrc : ∀ b ∈ w.blocks, b.call.ledger = ledger → b.call.reimburses = false → b.call.mints = 0 ∨ ∃ src, b.source = some src := by
    intro b hb _ hr
    cases ht : b.by' with
    | none =>
      left
      have := B.foreign b hb ht
      unfold LedgerCall.mints
      split
      · rename_i h1; rw [h1] at this; exact absurd this id
      · rfl
    | some x =>
      obtain ⟨i, t⟩ := x
      have hcall := (B.own b hb i t ht).1
      cases t with
      | mintUser => right; simp [Block.source, ht, LedgerTask.deposit]
      | mintFee => right; simp [Block.source, ht, LedgerTask.deposit]
      | reimburse x r l rest =>
        rw [hcall] at hr
        simp only [LedgerTask.call, LedgerCall.reimburses, ReimbRequest.memo] at hr
        cases hh : r.transactionHash <;> simp [hh] at hr
      | _ => left; rw [hcall]; rfl
  let ds := (acceptedDeposits w.mem.m.log).filter fun d => LedgerFor w.mem.m.st d ledger
  have hin : ∀ b ∈ w.blocks, b.call.ledger = ledger → ∀ src, b.source = some src → b.call.mints = 0 ∨ ∃ d ∈ ds, d.source = src := by
    intro b hb hl src hs
    rcases paid_deposit h src with h0 | ⟨d, l, h1, h2, h3, h4, h5⟩
    · left
      have hmem : b ∈ w.blocks.filter fun b => b.deposit.map Deposit.source == some src :=
        List.mem_filter.2 ⟨hb, by rw [← Block.source_eq, hs]; simp⟩
      have : b.call.mints ≤ w.mintedFor src := by
        unfold World.mintedFor
        exact le_sum_of_mem (List.mem_map_of_mem (f := fun b : Block => b.call.mints) hmem)
      omega
    · right
      refine ⟨d, List.mem_filter.2 ⟨mem_acceptedDeposits.2 h2, ?_⟩, h1⟩
      rw [h5 b hb hs] at hl
      subst hl
      simpa using h3
  have hsum := sum_by_key (fun b : Block => b.call.mints) (fun b => b.source)
    (w.blocks.filter fun b => b.call.ledger == ledger && !b.call.reimburses) (ds.map Deposit.source) (by
      intro b hb
      obtain ⟨hb, hh⟩ := List.mem_filter.1 hb
      simp only [Bool.and_eq_true, beq_iff_eq, Bool.not_eq_true'] at hh
      rcases hsrc b hb hh.1 hh.2 with h0 | ⟨src, hs⟩
      · exact .inl h0
      · rcases hin b hb hh.1 src hs with h0 | ⟨d, hd, rfl⟩
        · exact .inl h0
        · exact .inr ⟨_, List.mem_map_of_mem hd, hs⟩)
  refine Nat.le_trans hsum ?_
  rw [List.map_map]
  have hle : ∀ (l : List Deposit), (∀ d ∈ l, d ∈ ds) → (l.map ((fun k => (((w.blocks.filter fun b => b.call.ledger == ledger && !b.call.reimburses).filter
      fun b => b.source == some k).map fun b => b.call.mints).sum) ∘ Deposit.source)).sum ≤ (l.map Deposit.value).sum := by
    intro l
    induction l with
    | nil => intro _; exact Nat.le_refl _
    | cons d t ih =>
      intro hall
      simp only [List.map_cons, List.sum_cons]
      refine Nat.add_le_add ?_ (ih fun x hx => hall x (by simp [hx]))
      have h1 : (((w.blocks.filter fun b => b.call.ledger == ledger && !b.call.reimburses).filter
          fun b => b.source == some d.source).map fun b => b.call.mints).sum ≤ w.mintedFor d.source := by
        unfold World.mintedFor
        simp only [← Block.source_eq]
        refine sum_le_of_sublist ?_
        refine List.Sublist.map _ ?_
        exact (List.filter_sublist.filter _)
      have hd := List.mem_filter.1 (hall d (by simp))
      refine Nat.le_trans (show _ ≤ w.mintedFor d.source from h1) ?_
      rcases paid_deposit h d.source with h0 | ⟨d', l', h1, h2, h3, h4, h5⟩
      · omega
      · rw [accepted_unique (tracks h) (mem_acceptedDeposits.1 hd.1) h2 h1.symm] at *
        exact h4
  exact hle ds (fun _ h => h)

end

namespace Example

/-- A deposit of native tokens is scraped and minted; its fee is minted too, and everything minted is the deposit. The next
run of the timer mints nothing. -/
theorem C02_example : ∃ w, Reachable w ∧ decide (
    (w.blocks.filter fun b => b.call.credits ⟨0x21, 3⟩).map (·.call.op) = [.mint ⟨alice, none⟩ 950] ∧
    w.mintedFor ⟨0x21, 3⟩ = 1000 ∧ w.mintedForDeposits ledger = 1000 ∧ w.tasks.length = 0 ∧
    w.mem.m.st.mintedEvents.get ⟨0x21, 3⟩ ≠ none ∧ w.finished.length = 3) = true :=
  after_reachable (arg := initArg) (l := scrapeLogs [nativeLog 1000 3] ++
    [.start .mint 8, .execute 0, .deliver 0 9, .execute 0, .deliver 0 10, .start .mint 11]) (by decide +kernel)

end Example
end EvmMinter
