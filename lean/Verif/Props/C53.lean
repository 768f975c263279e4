import Verif.Lemmas.Refine
import Verif.Spec.Backing
import Verif.Props.C02
import Verif.Props.C21
import Verif.Props.C49
/-!
# C53, C54: the tokens on the ledgers are backed
-/

namespace EvmMinter
open Spec

/-! ## Sums -/

/-- Every item is covered by one with its key; keys differ. -/
theorem sum_le_of_keys {α β κ : Type} {f : α → Nat} {key : α → κ} {g : β → Nat} {key' : β → Option κ} : ∀ {l : List α} {m : List β},
    (l.map key).Nodup → (∀ x ∈ l, f x = 0 ∨ ∃ y ∈ m, key' y = some (key x) ∧ f x ≤ g y) → (l.map f).sum ≤ (m.map g).sum := by
  intro l
  induction l with
  | nil => intro m _ _; exact Nat.zero_le _
  | cons x t ih =>
    intro m hn h
    rw [List.map_cons, List.nodup_cons] at hn
    rw [List.map_cons, List.sum_cons]
    rcases h x (by simp) with h0 | ⟨y, hy, hk, hle⟩
    · rw [h0, Nat.zero_add]
      exact ih hn.2 fun x' hx' => h x' (by simp [hx'])
    · obtain ⟨p, q, rfl⟩ := List.append_of_mem hy
      have := ih (m := p ++ q) hn.2 fun x' hx' => by
        rcases h x' (by simp [hx']) with h0 | ⟨y', hy', hk', hle'⟩
        · exact .inl h0
        · refine .inr ⟨y', ?_, hk', hle'⟩
          rcases List.mem_append.1 hy' with hp | hp
          · exact List.mem_append_left _ hp
          · rcases List.mem_cons.1 hp with rfl | hp
            · rw [hk, Option.some.injEq] at hk'
              exact absurd (hk' ▸ List.mem_map_of_mem hx') hn.1
            · exact List.mem_append_right _ hp
      simp only [List.map_append, List.sum_append, List.map_cons, List.sum_cons] at this ⊢
      omega

theorem sum_map_add {α : Type} {f g : α → Nat} {l : List α} : (l.map fun x => f x + g x).sum = (l.map f).sum + (l.map g).sum := by
  induction l with
  | nil => rfl
  | cons x t ih => simp only [List.map_cons, List.sum_cons, ih]; omega

theorem sum_map_le {α : Type} {f g : α → Nat} {l : List α} (h : ∀ x ∈ l, f x ≤ g x) : (l.map f).sum ≤ (l.map g).sum := by
  induction l with
  | nil => exact Nat.le_refl _
  | cons x t ih =>
    simp only [List.map_cons, List.sum_cons]
    exact Nat.add_le_add (h x (by simp)) (ih fun y hy => h y (by simp [hy]))

theorem nodup_of_count {α : Type} {key : α → Nat} : ∀ {l : List α}, (∀ k, (l.filter fun x => key x == k).length ≤ 1) → (l.map key).Nodup := by
  intro l
  induction l with
  | nil => intro _; exact List.nodup_nil
  | cons x t ih =>
    intro h
    rw [List.map_cons, List.nodup_cons]
    refine ⟨fun hx => ?_, ih fun k => ?_⟩
    · obtain ⟨y, hy, he⟩ := List.mem_map.1 hx
      have := h (key x)
      rw [List.filter_cons, if_pos (by simp), List.length_cons] at this
      have : 0 < (t.filter fun z => key z == key x).length := List.length_pos_iff.2 fun h0 => by
        have : y ∈ t.filter fun z => key z == key x := List.mem_filter.2 ⟨hy, by simp [he]⟩
        rw [h0] at this; cases this
      omega
    · have := h k
      rw [List.filter_cons] at this
      split at this
      · rw [List.length_cons] at this; omega
      · exact this

theorem FMap.sum_eq {K V : Type} [DecidableEq K] [TOrd K] (m : FMap K V) (f : K → V → Nat) : m.sum f = (m.toList.map fun x => f x.1 x.2).sum := by
  have : ∀ l : List (K × V), AL.sum f l = (l.map fun x => f x.1 x.2).sum := by
    intro l
    induction l with
    | nil => rfl
    | cons a t ih => obtain ⟨k, v⟩ := a; simp only [AL.sum, ih, List.map_cons, List.sum_cons]
  exact this _

/-! ## Burns -/

/-- The burns that an event names, with the amounts that it accounts for. -/
def Event.burnAmounts (native : Principal) : Event → List ((Principal × Nat) × Nat)
  | .acceptedNativeWithdrawalRequest r => [((native, r.ledgerBurnIndex), r.withdrawalAmount)]
  | .acceptedErc20WithdrawalRequest r => [((native, r.nativeLedgerBurnIndex), r.maxTransactionFee),
      ((r.erc20LedgerId, r.erc20LedgerBurnIndex), r.withdrawalAmount)]
  | .failedErc20WithdrawalRequest r => [((native, r.ledgerBurnIndex), r.reimbursedAmount)]
  | _ => []

/-- The amount burned for the event on the ledger. -/
def Event.burnedOn (native ledger : Principal) (e : Event) : Nat :=
  (((e.burnAmounts native).filter fun x => x.1.1 == ledger).map (·.2)).sum

theorem Event.burnAmounts_fst (native : Principal) (e : Event) : (e.burnAmounts native).map (·.1) = e.burns native := by cases e <;> rfl

section
variable [Keccak]

/-- The withdrawals of the log account for different burns. -/
theorem burned_covers {w : World} (h : Reachable w) (ledger : Principal) :
    total (Event.burnedOn w.mem.m.st.nativeLedgerId ledger) w.mem.m.log ≤ w.burned ledger := by
  let l := (w.mem.m.log.flatMap (Event.burnAmounts w.mem.m.st.nativeLedgerId)).filter fun x => x.1.1 == ledger
  have e1 : total (Event.burnedOn w.mem.m.st.nativeLedgerId ledger) w.mem.m.log = (l.map (·.2)).sum := by
    show _ = (((w.mem.m.log.flatMap _).filter _).map _).sum
    induction w.mem.m.log with
    | nil => rfl
    | cons e t ih =>
      rw [total, List.map_cons, List.sum_cons, List.flatMap_cons, List.filter_append, List.map_append, List.sum_append, ← ih]
      rfl
  have hnd : (l.map fun x => x.1.2).Nodup := by
    have h1 := burns_nodup h
    have h2 : (w.mem.m.log.flatMap (Event.burnAmounts w.mem.m.st.nativeLedgerId)).map (·.1) =
        w.mem.m.log.flatMap (Event.burns w.mem.m.st.nativeLedgerId) := by
      rw [List.map_flatMap]
      congr 1
      funext e
      exact e.burnAmounts_fst _
    rw [← h2] at h1
    have h3 : (l.map (·.1)).Nodup := h1.sublist (List.filter_sublist.map _)
    have h4 : ∀ x ∈ l, x.1.1 = ledger := fun x hx => by simpa using (List.mem_filter.1 hx).2
    clear_value l
    clear e1 h1 h2
    induction l with
    | nil => exact List.nodup_nil
    | cons x t ih =>
      rw [List.map_cons, List.nodup_cons] at h3 ⊢
      refine ⟨fun hx => h3.1 ?_, ih h3.2 fun y hy => h4 y (by simp [hy])⟩
      obtain ⟨y, hy, he⟩ := List.mem_map.1 hx
      have : y.1 = x.1 := Prod.ext ((h4 y (by simp [hy])).trans (h4 x (by simp)).symm) he
      exact this ▸ List.mem_map_of_mem hy
  let bs := w.blocks.filter fun b => b.call.ledger == ledger
  have e2 : w.burned ledger = (bs.zipIdx.map fun x => x.1.call.burns).sum := by
    have : bs.zipIdx.map (fun x => x.1.call.burns) = (bs.zipIdx.map Prod.fst).map fun b => b.call.burns := by rw [List.map_map]; rfl
    rw [this, List.zipIdx_map_fst]
    rfl
  rw [e1, e2]
  refine sum_le_of_keys (key' := fun x => some x.2) hnd fun x hx => .inr ?_
  obtain ⟨hx, hl⟩ := List.mem_filter.1 hx
  obtain ⟨e, he, hx⟩ := List.mem_flatMap.1 hx
  have ht := C49_truthful h he
  suffices hh : ∃ b, w.blockAt x.1.1 x.1.2 = some b ∧ x.2 ≤ b.call.burns by
    obtain ⟨b, h1, h2⟩ := hh
    have hl : x.1.1 = ledger := by simpa using hl
    rw [hl] at h1
    exact ⟨(b, x.1.2), List.mem_zipIdx_iff_getElem?.2 h1, rfl, h2⟩
  cases e <;> simp only [Event.burnAmounts, List.mem_cons, List.not_mem_nil, or_false] at hx <;> try exact hx.elim
  case acceptedNativeWithdrawalRequest r =>
    subst hx
    obtain ⟨b, h1, h2, _⟩ := ht
    exact ⟨b, h1, by rw [LedgerCall.burns, h2]; exact Nat.le_refl _⟩
  case acceptedErc20WithdrawalRequest r =>
    obtain ⟨⟨b, _, _, h1, h2, _⟩, b', h3, h4, _⟩ := ht
    rcases hx with rfl | rfl
    · exact ⟨b, h1, by rw [LedgerCall.burns, h2]; exact Nat.le_refl _⟩
    · exact ⟨b', h3, by rw [LedgerCall.burns, h4]; exact Nat.le_refl _⟩
  case failedErc20WithdrawalRequest r =>
    subst hx
    obtain ⟨b, fee, _, _, _, h1, h2, h3, _⟩ := ht
    exact ⟨b, h1, by rw [LedgerCall.burns, h2]; exact h3⟩

/-- An event is known by any of its burns. -/
theorem event_of_burn {w : World} (h : Reachable w) {e e' : Event} {x : Principal × Nat} (he : e ∈ w.mem.m.log) (he' : e' ∈ w.mem.m.log)
    (hx : x ∈ e.burns w.mem.m.st.nativeLedgerId) (hx' : x ∈ e'.burns w.mem.m.st.nativeLedgerId) : e = e' :=
  unique_of_nodup_flatMap (burns_nodup h) he he' hx hx'

/-! ## Reimbursements -/

/-- Everything given back for a burn. -/
def Spec.World.givenBack (w : World) (ledger : Principal) (k : LedgerBurnIndex) : Nat :=
  ((w.reimbursements ledger k).map fun b => b.call.mints).sum

omit [Keccak] in
theorem gaveBack_iff {w : World} {ledger : Principal} {k : LedgerBurnIndex} : w.GaveBack ledger k ↔ w.reimbursements ledger k ≠ [] := by
  rw [show w.reimbursements ledger k ≠ [] ↔ ∃ b, b ∈ w.reimbursements ledger k from
    ⟨List.exists_mem_of_ne_nil _, fun ⟨_, hb⟩ => List.ne_nil_of_mem hb⟩]
  unfold World.GaveBack World.reimbursements LedgerCall.GivesBack
  simp only [List.mem_filter, Bool.and_eq_true, beq_iff_eq]
  constructor
  · rintro ⟨b, hb, hl, hm⟩
    refine ⟨b, hb, hl, ?_⟩
    split at hm <;> rename_i h1 h2
    · rw [h1, h2]; simpa using hm
    · rw [h1, h2]; simpa using hm
    · exact hm.elim
  · rintro ⟨b, hb, hl, hm⟩
    refine ⟨b, hb, hl, ?_⟩
    split at hm <;> rename_i h1 h2
    · rw [h1, h2]; simpa using hm
    · rw [h1, h2]; simpa using hm
    · cases hm

/-- The burn that a reimbursing call gives back. -/
def LedgerCall.givesBack (c : LedgerCall) : Nat :=
  match c.memo with
  | some (.mint (.reimburseTransaction i _)) => i
  | some (.mint (.reimburseWithdrawal i)) => i
  | _ => 0

omit [Keccak] in
theorem reimbursements_eq (w : World) (ledger : Principal) (k : LedgerBurnIndex) :
    w.reimbursements ledger k = (w.blocks.filter fun b => b.call.ledger == ledger && b.call.reimburses).filter fun b => b.call.givesBack == k := by
  rw [List.filter_filter]
  unfold World.reimbursements
  congr 1
  funext b
  unfold LedgerCall.reimburses LedgerCall.givesBack
  obtain ⟨⟨l, op, memo⟩, _⟩ := b
  cases hl : (l == ledger)
  · simp
  · simp only [Bool.true_and]
    cases op with
    | mint to a =>
      cases memo with
      | none => simp
      | some m =>
        cases m with
        | mint m => cases m <;> simp
        | burn m => simp
    | _ => simp

/-- The reimbursements of a ledger are covered by the events that they reimburse. -/
theorem reimbursed_covers {w : World} (h : Reachable w) (ledger : Principal) {key : Event → Option Nat}
    (hkey : ∀ x, KnownReimb w.mem.m.log x → x.paidOn w.mem.m.st.nativeLedgerId = ledger → ∃ e ∈ w.mem.m.log, key e = some x.burnInBlock) :
    ((w.blocks.filter fun b => b.call.ledger == ledger && b.call.reimburses).map fun b => b.call.mints).sum ≤
      (w.mem.m.log.map fun e => (key e).elim 0 (w.givenBack ledger)).sum := by
  refine sum_le_of_keys (key := fun b : Block => b.call.givesBack) (key' := key) (nodup_of_count fun k => ?_) fun b hb => .inr ?_
  · rw [← reimbursements_eq]
    exact C20_at_most_once h ledger k
  · have hm : b ∈ w.reimbursements ledger b.call.givesBack := by
      rw [reimbursements_eq]
      exact List.mem_filter.2 ⟨hb, by simp⟩
    obtain ⟨x, r, _, h1, h2, _, _, h3⟩ := mem_reimbursements h hm
    obtain ⟨e, he, hk⟩ := hkey x h3 h1
    refine ⟨e, he, by rw [hk, h2], ?_⟩
    rw [hk, h2]
    exact le_sum_of_mem (List.mem_map_of_mem (f := fun b : Block => b.call.mints) hm)

omit [Keccak] in
/-- All mints. -/
theorem minted_eq (w : World) (ledger : Principal) : w.minted ledger = w.mintedForDeposits ledger +
    ((w.blocks.filter fun b => b.call.ledger == ledger && b.call.reimburses).map fun b => b.call.mints).sum := by
  unfold World.minted World.mintedForDeposits
  induction w.blocks with
  | nil => rfl
  | cons b t ih =>
    simp only [List.filter_cons]
    cases b.call.ledger == ledger <;> cases b.call.reimburses <;>
      simp only [Bool.and_true, Bool.and_false, Bool.not_true, Bool.not_false, if_true, List.map_cons, List.sum_cons, Bool.false_eq_true,
        if_false, ih] <;> omega

/-! ## The state -/

/-- The state after replaying the log: it differs from the current one only in the order of pending requests and the last
scraped block. -/
theorem replayed {w : World} (h : Reachable w) (hn : NonceNeverLowered w.mem.m.log) : ∃ s, replay w.mem.m.log = .ok s ∧ Run w.mem.m.log s ∧
    s.txs.finalized = w.mem.m.st.txs.finalized ∧ s.txs.processed = w.mem.m.st.txs.processed ∧ s.nativeBalance = w.mem.m.st.nativeBalance ∧
    s.erc20Balances = w.mem.m.st.erc20Balances := by
  obtain ⟨s, h1, _, _, h4⟩ := tracks h
  exact ⟨s, h1, .restart _ _ _ (run_of_reachable h hn) h1, by rw [h4]; rfl, by rw [h4]; rfl, by rw [h4]; rfl, by rw [h4]; rfl⟩

/-- What a reimbursing mint pays. -/
theorem reimbursement_owed {w : World} (h : Reachable w) (hn : NonceNeverLowered w.mem.m.log) {s : State} (hs : replay w.mem.m.log = .ok s)
    {ledger : Principal} {k : LedgerBurnIndex} (hb : w.reimbursements ledger k ≠ []) :
    ∃ x r, x.paidOn w.mem.m.st.nativeLedgerId = ledger ∧ x.burnInBlock = k ∧ KnownReimb w.mem.m.log x ∧
      w.givenBack ledger k = r.reimbursedAmount ∧ Owed w.mem.m.log s.txs x r := by
  obtain ⟨b, hb⟩ := List.exists_mem_of_ne_nil _ hb
  obtain ⟨x, r, _, h1, h2, h3, ⟨pre, s₁, ⟨post, ho1⟩, ho2, ho3⟩, h4⟩ := mem_reimbursements h hb
  refine ⟨x, r, h1, h2, h4, ?_, ?_⟩
  · have hl := C20_at_most_once h ledger k
    unfold World.givenBack
    generalize w.reimbursements ledger k = bs at hb hl
    cases bs with
    | nil => cases hb
    | cons c t =>
      cases t with
      | nil =>
        rw [List.mem_singleton] at hb
        subst hb
        rw [List.map_singleton, List.sum_singleton, h3]; rfl
      | cons _ _ => simp only [List.length_cons] at hl; omega
  · have hn1 : NonceNeverLowered (pre ++ post) := ho1 ▸ hn
    have hl := txLog_of_replay ho2 (nonceNeverLowered_prefix hn1)
    have hl' := txLog_of_replay hs hn
    obtain ⟨inv, _⟩ := txInv_of_replay ho2 (nonceNeverLowered_prefix hn1)
    obtain ⟨inv', _⟩ := txInv_of_replay hs hn
    have hsub : ∀ e ∈ pre, e ∈ w.mem.m.log := fun e he => by rw [← ho1]; exact List.mem_append_left _ he
    rcases hl.owed x r ho3 with ⟨n, i, f, q, k1, k2, k3, k4, k5⟩ | ⟨k1, k2⟩
    · obtain ⟨s₁', j1, j2⟩ := replay_prefix (ho1 ▸ hs) (replay_ne_nil ho2)
      rw [ho2] at j1; cases j1
      have hf := finalized_mono ho2 hn1 j2 k1
      refine .inl ⟨n, i, f, q, hf, k2, ?_, k4, k5⟩
      have hi := inv.procIdx _ _ k3
      have hq : q.intoEvent ∈ w.mem.m.log := hsub _ ((hl.acc q).2 (.inr (by rw [hi]; exact k3)))
      rcases (hl'.acc q).1 hq with hp | hp
      · obtain ⟨q', hq', _⟩ := inv'.fProc _ _ _ hf
        rw [← hi, inv'.pendProc q hp] at hq'; cases hq'
      · rw [← hi]; exact hp
    · exact .inr ⟨hsub _ k1, k2⟩

/-- The amount of a transaction never exceeds what was burned for it. -/
theorem finalized_amount {log : List Event} {s : State} (h : replay log = .ok s) : ∀ i f q, s.txs.finalized.byAlt.get i = some f →
    s.txs.processed.get i = some (.native q) → f.signed.tx.amount ≤ q.withdrawalAmount := by
  refine replay_induct (P := fun _ s => ∀ i f q, s.txs.finalized.byAlt.get i = some f →
    s.txs.processed.get i = some (.native q) → f.signed.tx.amount ≤ q.withdrawalAmount) ?_ ?_ h
  · intro a s h i f q hf
    obtain ⟨_, _, _, _, _, _, _, ht, _⟩ := ofInit_ok h
    rw [ht] at hf; cases hf
  · intro log s e s' hr inv ha i f q hf hp
    by_cases he : ∃ i r, e = .finalizedTransaction i r
    · obtain ⟨j, receipt, rfl⟩ := he
      obtain ⟨fin, rfl, h1, h2, h3, _⟩ := applyEvent_debit ha
      rw [h3] at hp
      rw [h2, FMap.get_insert] at hf
      split at hf
      · rename_i hij
        subst hij
        cases hf
        simp only [applyEvent] at ha
        obtain ⟨t, ht, ha⟩ := stateRecordFinalized_ok ha
        obtain ⟨fee, fin', r, charged, unspent, debited, balance, eff, uns, a1, a2, a3, a4, _⟩ := updateBalanceUponWithdrawal_ok ha
        have htx : s'.txs = t := by rw [updateBalanceUponWithdrawal_frame ha]
        have hpr : t.processed.get i = some r := a3
        rw [← htx, h3, hp] at hpr
        cases hpr
        have hfi : t.finalized.byAlt.get i = some fin' := a2
        rw [← htx, h2, FMap.get_insert, if_pos rfl] at hfi
        cases hfi
        simp only [State.chargedFee, Res.expect_ok, csub_eq_some] at a4
        womega
      · exact inv i f q hf hp
    · have he : ∀ i r, e ≠ .finalizedTransaction i r := fun i r hh => he ⟨i, r, hh⟩
      obtain ⟨h5, h6⟩ := txEvent_acct (applyEvent_txs ha) he
      rw [h5] at hf
      obtain ⟨r, hr⟩ := (acct_of_replay hr).proc i f hf
      have := h6 i r hr
      rw [hp] at this; cases this
      exact inv i f q hf hr

/-- Finalized transactions are covered by the requests of the log. -/
theorem finalized_covers {w : World} {s : State} (hs : replay w.mem.m.log = .ok s)
    {key : Event → Option LedgerBurnIndex} {f : LedgerBurnIndex → FinalizedTx → Nat}
    (hkey : ∀ r : Request, r.event ∈ w.mem.m.log → s.txs.processed.get r.burnIndex = some r →
      (∀ fin, f r.burnIndex fin = 0) ∨ key r.event = some r.burnIndex) :
    s.txs.finalized.byAlt.sum f ≤ (w.mem.m.log.map fun e => (key e).elim 0 fun k => (s.txs.finalized.byAlt.get k).elim 0 (f k)).sum := by
  rw [FMap.sum_eq]
  refine sum_le_of_keys (key := fun x : LedgerBurnIndex × FinalizedTx => x.1) (key' := key) (FMap.keys_nodup _) fun x hx => ?_
  obtain ⟨i, fin⟩ := x
  have hx := FMap.mem_toList.1 hx
  obtain ⟨r, hr⟩ := (acct_of_replay hs).proc i fin hx
  obtain ⟨rfl, he⟩ := (known_of_replay hs).processed hr
  rcases hkey r he hr with h0 | hk
  · exact .inl (h0 _)
  · refine .inr ⟨_, he, hk, ?_⟩
    rw [hk]
    simp only [Option.elim, hx]
    exact Nat.le_refl _

/-- A request that has a finalized transaction is processed. -/
theorem processed_of_finalized {w : World} (h : Reachable w) {s : State} (hs : replay w.mem.m.log = .ok s) {r : Request}
    (hr : r.event ∈ w.mem.m.log) {f : FinalizedTx} (hf : s.txs.finalized.byAlt.get r.burnIndex = some f) :
    s.txs.processed.get r.burnIndex = some r := by
  obtain ⟨q, hq⟩ := (acct_of_replay hs).proc _ _ hf
  obtain ⟨h1, h2⟩ := (known_of_replay hs).processed hq
  have := event_of_burn h hr h2 (r.event_burns w.mem.m.st.nativeLedgerId) (h1 ▸ q.event_burns w.mem.m.st.nativeLedgerId)
  have : r = q := by cases r <;> cases q <;> simp [Request.event] at this <;> rw [this]
  rw [this] at hq ⊢
  exact hq

open Classical in
/-- The accepted deposits for a token. -/
theorem deposits_token {w : World} (h : Reachable w) {ledger : Principal} {c : Address} {sym : String}
    (hreg : w.mem.m.st.erc20Tokens.getEntry ledger = some (c, sym)) (hl : ledger ≠ w.mem.m.st.nativeLedgerId) :
    (((acceptedDeposits w.mem.m.log).filter fun d => LedgerFor w.mem.m.st d ledger).map Deposit.value).sum = total (erc20In c) w.mem.m.log := by
  have wf := (registry_of_tracks (tracks h)).wf
  have hreg := (DMKM.getEntry_eq wf).1 hreg
  induction w.mem.m.log with
  | nil => rfl
  | cons e t ih =>
    simp only [acceptedDeposits, total, List.map_cons, List.sum_cons] at ih ⊢
    rw [← ih]
    cases e <;> simp only [List.filterMap_cons, Event.deposit?, erc20In, Nat.zero_add]
    · rw [List.filter_cons, if_neg]
      rw [decide_eq_true_iff]
      exact hl
    · rename_i d
      rw [List.filter_cons]
      by_cases hc : d.erc20ContractAddress = c
      · rw [if_pos, if_pos hc, List.map_cons, List.sum_cons]
        · rfl
        · rw [decide_eq_true_iff]
          exact ⟨sym, by rw [hc]; exact (DMKM.getEntryAlt_eq wf).2 hreg⟩
      · rw [if_neg, if_neg hc, Nat.zero_add]
        rw [decide_eq_true_iff]
        rintro ⟨sym', hh⟩
        have hh := (DMKM.getEntryAlt_eq wf).1 hh
        exact hc (MKM.Has.unique_key hh hreg).1

open Classical in
/-- The accepted native deposits. -/
theorem deposits_native {w : World} (h : Reachable w) (hreg : w.mem.m.st.erc20Tokens.getEntry w.mem.m.st.nativeLedgerId = none) :
    (((acceptedDeposits w.mem.m.log).filter fun d => LedgerFor w.mem.m.st d w.mem.m.st.nativeLedgerId).map Deposit.value).sum =
      total nativeIn w.mem.m.log := by
  have wf := (registry_of_tracks (tracks h)).wf
  induction w.mem.m.log with
  | nil => rfl
  | cons e t ih =>
    simp only [acceptedDeposits, total, List.map_cons, List.sum_cons] at ih ⊢
    rw [← ih]
    cases e <;> simp only [List.filterMap_cons, Event.deposit?, nativeIn, Nat.zero_add]
    · rw [List.filter_cons, if_pos]
      · rfl
      · rw [decide_eq_true_iff]; rfl
    · rename_i d
      rw [List.filter_cons, if_neg]
      rw [decide_eq_true_iff]
      rintro ⟨sym', hh⟩
      rw [(DMKM.getEntry_eq wf).2 ((DMKM.getEntryAlt_eq wf).1 hh)] at hreg
      cases hreg

/-- **C53**: in every execution (unless an upgrade lowers the next nonce), for every supported token whose ledger is not the
native ledger: what was minted on its ledger, minus what was burned there, plus all that is still owed for withdrawals, is at
most the token balance that the minter tracks. -/
theorem C53_token_backed {w : World} (h : Reachable w) (hn : NonceNeverLowered w.mem.m.log) {ledger : Principal} {c : Address} {sym : String}
    (hreg : w.mem.m.st.erc20Tokens.getEntry ledger = some (c, sym)) (hl : ledger ≠ w.mem.m.st.nativeLedgerId) :
    w.minted ledger + total (w.tokenOwed ledger) w.mem.m.log ≤ tokenBalance w.mem.m.st c + w.burned ledger := by
  obtain ⟨s, hs, hR, hfin, hproc, _, hbal⟩ := replayed h hn
  have wf := (registry_of_tracks (tracks h)).wf
  have hreg' := (DMKM.getEntry_eq wf).1 hreg
  have htok := fun e he => C49_truthful (e := e) h he
  -- the ledger of the requests for the token
  have hled : ∀ q : Erc20Request, .acceptedErc20WithdrawalRequest q ∈ w.mem.m.log → (q.erc20ContractAddress = c ↔ q.erc20LedgerId = ledger) := by
    intro q hq
    obtain ⟨⟨_, sym', h1, _⟩, _⟩ := htok _ hq
    have h1 := (DMKM.getEntryAlt_eq wf).1 h1
    constructor
    · rintro rfl; exact (MKM.Has.unique_alt wf.map h1 hreg').1
    · rintro rfl; exact (MKM.Has.unique_key h1 hreg').1
  -- what was deposited
  have h1 := C03_total h ledger
  rw [deposits_token h hreg hl] at h1
  have h2 := C22_live hR hn c
  have htb : tokenBalance s c = tokenBalance w.mem.m.st c := by unfold tokenBalance; rw [hbal]
  rw [htb] at h2
  -- what was paid out and given back, per request
  let idx : Event → Option LedgerBurnIndex
    | .acceptedErc20WithdrawalRequest r => if r.erc20LedgerId = ledger then some r.nativeLedgerBurnIndex else none
    | _ => none
  let key : Event → Option LedgerBurnIndex
    | .acceptedErc20WithdrawalRequest r => if r.erc20LedgerId = ledger then some r.erc20LedgerBurnIndex else none
    | _ => none
  have h3 := finalized_covers (w := w) hs (key := idx) (f := tokensRequested s.txs.processed c) (by
    intro r hr hpr
    cases r with
    | native q => left; intro fin; simp only [tokensRequested, hpr]; split <;> simp_all
    | erc20 q =>
      by_cases hq : q.erc20LedgerId = ledger
      · right; simp [idx, Request.event, Request.burnIndex, hq]
      · left
        intro fin
        have : ¬ q.erc20ContractAddress = c := fun hh => hq ((hled q hr).1 hh)
        simp only [tokensRequested, hpr]
        split <;> simp_all)
  have h4 := reimbursed_covers h ledger (key := key) (by
    intro x hx hp
    obtain ⟨e, he, _, ⟨r, rfl, rfl⟩ | ⟨r, rfl, rfl⟩ | ⟨r, rfl, rfl⟩⟩ := hx.burns (native := w.mem.m.st.nativeLedgerId)
    · exact absurd hp.symm hl
    · refine ⟨_, he, ?_⟩
      have hp : r.erc20LedgerId = ledger := hp
      simp [key, hp, ReimbIndex.burnInBlock]
    · exact absurd hp.symm hl)
  have h5 := burned_covers h ledger
  have h6 : (w.mem.m.log.map fun e => (idx e).elim 0 (fun k => (s.txs.finalized.byAlt.get k).elim 0 (tokensRequested s.txs.processed c k)) + ((key e).elim 0 (w.givenBack ledger) + w.tokenOwed ledger e)).sum ≤
      total (Event.burnedOn w.mem.m.st.nativeLedgerId ledger) w.mem.m.log := by
    refine sum_map_le fun e he => ?_
    cases e <;> try exact Nat.zero_le _
    rename_i r
    simp only [idx, key, Option.elim, World.tokenOwed]
    by_cases hq : r.erc20LedgerId = ledger
    · have hb : Event.burnedOn w.mem.m.st.nativeLedgerId ledger (.acceptedErc20WithdrawalRequest r) = r.withdrawalAmount := by
        simp [Event.burnedOn, Event.burnAmounts, Ne.symm hl, hq]
      rw [hb, if_pos hq, if_pos hq]
      simp only [hq, true_and]
      have hpr : ∀ f, s.txs.finalized.byAlt.get r.nativeLedgerBurnIndex = some f → s.txs.processed.get r.nativeLedgerBurnIndex = some (.erc20 r) :=
        fun f hf => processed_of_finalized h hs (r := .erc20 r) he hf
      have hF : ∀ f, s.txs.finalized.byAlt.get r.nativeLedgerBurnIndex = some f →
          tokensRequested s.txs.processed c r.nativeLedgerBurnIndex f = if f.receipt.status = .success then r.withdrawalAmount else 0 := by
        intro f hf
        have hc := (hled r he).2 hq
        simp only [tokensRequested, hpr f hf]
        cases f.receipt.status <;> simp [hc]
      have hget : w.mem.m.st.txs.finalized.getAlt r.nativeLedgerBurnIndex = s.txs.finalized.byAlt.get r.nativeLedgerBurnIndex := by
        rw [hfin]; rfl
      unfold World.paid
      rw [hget]
      by_cases hg : w.reimbursements ledger r.erc20LedgerBurnIndex = []
      · have hg0 : w.givenBack ledger r.erc20LedgerBurnIndex = 0 := by unfold World.givenBack; rw [hg]; rfl
        rw [hg0]
        cases hf : s.txs.finalized.byAlt.get r.nativeLedgerBurnIndex with
        | none =>
          simp only [Nat.zero_add]
          split
          · exact Nat.le_refl _
          · exact Nat.zero_le _
        | some f =>
          simp only [hF f hf, Nat.zero_add]
          by_cases hst : f.receipt.status = .success
          · rw [if_pos hst, if_neg fun hh => hh.1 (by simp [hst])]
            exact Nat.le_refl _
          · rw [if_neg hst, Nat.zero_add]
            split
            · exact Nat.le_refl _
            · exact Nat.zero_le _
      · obtain ⟨x, rr, k1, k2, k3, k4, k5⟩ := reimbursement_owed h hn hs hg
        have hx : x = .erc20 r.nativeLedgerBurnIndex r.erc20LedgerId r.erc20LedgerBurnIndex :=
          knownReimb_unique h k3 (.inl ⟨.erc20 r, rfl, he⟩) (by rw [k1, ← hq]; rfl) (by rw [k2]; rfl)
        rcases k5 with ⟨n, i, f, q, j1, j2, j3, j4, j5⟩ | ⟨_, j2⟩
        · rw [hx] at j4
          cases q with
          | native q => cases j4
          | erc20 q =>
            simp only [ReimbIndex.ofRequest, ReimbIndex.erc20.injEq] at j4
            have hi : i = r.nativeLedgerBurnIndex := by
              have := ((known_of_replay hs).processed j3).1
              rw [← this, j4.1]; rfl
            subst hi
            have hf : s.txs.finalized.byAlt.get r.nativeLedgerBurnIndex = some f := j1.2
            have := hpr f hf
            rw [j3] at this
            cases this
            rw [k4, j5]
            rw [if_neg fun hh => hh.2 (gaveBack_iff.2 hg), hf]
            simp only [hF f hf]
            rw [if_neg (by rw [j2]; decide)]
            simp only [Transactions.failureReimbursement, Nat.zero_add, Nat.add_zero]
            exact Nat.le_refl _
        · rw [hx] at j2; cases j2
    · rw [if_neg hq, if_neg hq, if_neg (fun hh => hq hh.1)]
      exact Nat.zero_le _
  rw [sum_map_add, sum_map_add] at h6
  rw [minted_eq]
  unfold total at h5 h6 ⊢
  unfold total at h1 h2
  womega

/-- **C54**: in every execution (unless an upgrade lowers the next nonce), as long as no token is registered with the native
ledger: what was minted on the native ledger, minus what was burned there, plus all that is still owed for withdrawals, is at
most the native balance that the minter tracks. -/
theorem C54_native_backed {w : World} (h : Reachable w) (hn : NonceNeverLowered w.mem.m.log)
    (hreg : w.mem.m.st.erc20Tokens.getEntry w.mem.m.st.nativeLedgerId = none) :
    w.minted w.mem.m.st.nativeLedgerId + total w.nativeOwed w.mem.m.log ≤
      w.mem.m.st.nativeBalance.balance + w.burned w.mem.m.st.nativeLedgerId := by
  obtain ⟨s, hs, hR, hfin, hproc, hbal, _⟩ := replayed h hn
  have wf := (registry_of_tracks (tracks h)).wf
  have hne : ∀ q : Erc20Request, .acceptedErc20WithdrawalRequest q ∈ w.mem.m.log → q.erc20LedgerId ≠ w.mem.m.st.nativeLedgerId := by
    intro q hq hh
    obtain ⟨⟨_, sym', h1, _⟩, _⟩ := C49_truthful h hq
    have h1 := (DMKM.getEntry_eq wf).2 ((DMKM.getEntryAlt_eq wf).1 h1)
    rw [hh, hreg] at h1; cases h1
  have h1 := C03_total h w.mem.m.st.nativeLedgerId
  rw [deposits_native h hreg] at h1
  have A := acct_of_replay hs
  have h2 := A.native
  rw [hbal] at h2
  let idx : Event → Option LedgerBurnIndex
    | .acceptedNativeWithdrawalRequest r => some r.ledgerBurnIndex
    | .acceptedErc20WithdrawalRequest r => some r.nativeLedgerBurnIndex
    | _ => none
  let key : Event → Option LedgerBurnIndex
    | .acceptedNativeWithdrawalRequest r => some r.ledgerBurnIndex
    | .failedErc20WithdrawalRequest r => some r.ledgerBurnIndex
    | _ => none
  have h3 := finalized_covers (w := w) hs (key := idx) (f := fun _ f => feePaid f + valueSent f) (by
    intro r _ _
    cases r <;> exact .inr rfl)
  have h4 := reimbursed_covers h w.mem.m.st.nativeLedgerId (key := key) (by
    intro x hx hp
    obtain ⟨e, he, _, ⟨r, rfl, rfl⟩ | ⟨r, rfl, rfl⟩ | ⟨r, rfl, rfl⟩⟩ := hx.burns (native := w.mem.m.st.nativeLedgerId)
    · exact ⟨_, he, rfl⟩
    · exact absurd hp (hne r he)
    · exact ⟨_, he, rfl⟩)
  have h5 := burned_covers h w.mem.m.st.nativeLedgerId
  have hget : ∀ i, w.mem.m.st.txs.finalized.getAlt i = s.txs.finalized.byAlt.get i := fun i => by rw [hfin]; rfl
  have h6 : (w.mem.m.log.map fun e => (idx e).elim 0 (fun k => (s.txs.finalized.byAlt.get k).elim 0 fun fin => feePaid fin + valueSent fin) + ((key e).elim 0 (w.givenBack w.mem.m.st.nativeLedgerId) + w.nativeOwed e)).sum ≤
      total (Event.burnedOn w.mem.m.st.nativeLedgerId w.mem.m.st.nativeLedgerId) w.mem.m.log := by
    refine sum_map_le fun e he => ?_
    cases e <;> try exact Nat.zero_le _
    case acceptedNativeWithdrawalRequest r =>
      have hb : Event.burnedOn w.mem.m.st.nativeLedgerId w.mem.m.st.nativeLedgerId (.acceptedNativeWithdrawalRequest r) = r.withdrawalAmount := by
        simp [Event.burnedOn, Event.burnAmounts]
      rw [hb]
      simp only [idx, key, Option.elim, World.nativeOwed, hget]
      have hpr : ∀ f, s.txs.finalized.byAlt.get r.ledgerBurnIndex = some f → s.txs.processed.get r.ledgerBurnIndex = some (.native r) :=
        fun f hf => processed_of_finalized h hs (r := .native r) he hf
      have hcov : ∀ f, s.txs.finalized.byAlt.get r.ledgerBurnIndex = some f → feePaid f + f.signed.tx.amount ≤ r.withdrawalAmount := by
        intro f hf
        have e1 := A.each _ f hf
        have e2 := finalized_amount hs _ f r hf (hpr f hf)
        simp only [feeCharged, hpr f hf] at e1
        womega
      by_cases hg : w.reimbursements w.mem.m.st.nativeLedgerId r.ledgerBurnIndex = []
      · have hg0 : w.givenBack w.mem.m.st.nativeLedgerId r.ledgerBurnIndex = 0 := by unfold World.givenBack; rw [hg]; rfl
        have hng : ¬ w.GaveBack w.mem.m.st.nativeLedgerId r.ledgerBurnIndex := fun hh => gaveBack_iff.1 hh hg
        rw [hg0]
        cases hf : s.txs.finalized.byAlt.get r.ledgerBurnIndex with
        | none => simp
        | some f =>
          have := hcov f hf
          simp only [hng, not_false_eq_true, and_true, valueSent]
          cases hst : f.receipt.status <;> simp <;> womega
      · obtain ⟨x, rr, k1, k2, k3, k4, k5⟩ := reimbursement_owed h hn hs hg
        have hx : x = .native r.ledgerBurnIndex :=
          knownReimb_unique h k3 (.inl ⟨.native r, rfl, he⟩) (by rw [k1]; rfl) (by rw [k2]; rfl)
        rcases k5 with ⟨n, i, f, q, j1, j2, j3, j4, j5⟩ | ⟨j1, j2⟩
        · rw [hx] at j4
          cases q with
          | erc20 q => cases j4
          | native q =>
            simp only [ReimbIndex.ofRequest, ReimbIndex.native.injEq] at j4
            have hi : i = r.ledgerBurnIndex := by
              have := ((known_of_replay hs).processed j3).1
              rw [← this, j4]; rfl
            subst hi
            have hf : s.txs.finalized.byAlt.get r.ledgerBurnIndex = some f := j1.2
            have := hcov f hf
            rw [k4, j5]
            simp only [hf, gaveBack_iff, hg, j2, Transactions.failureReimbursement, ne_eq, not_false_eq_true, not_true_eq_false, and_false, if_false, valueSent]
            womega
        · exfalso
          have := event_of_burn h he j1 (x := (w.mem.m.st.nativeLedgerId, r.ledgerBurnIndex)) (by simp [Event.burns])
            (by rw [hx] at j2; simp only [ReimbIndex.native.injEq] at j2; simp [Event.burns, j2])
          cases this
    case acceptedErc20WithdrawalRequest r =>
      have hb : r.maxTransactionFee ≤ Event.burnedOn w.mem.m.st.nativeLedgerId w.mem.m.st.nativeLedgerId (.acceptedErc20WithdrawalRequest r) := by
        simp only [Event.burnedOn, Event.burnAmounts, List.filter_cons, beq_self_eq_true, if_true, List.map_cons, List.sum_cons]
        exact Nat.le_add_right _ _
      refine Nat.le_trans ?_ hb
      simp only [idx, key, Option.elim, World.nativeOwed, hget]
      cases hf : s.txs.finalized.byAlt.get r.nativeLedgerBurnIndex with
      | none => simp
      | some f =>
        have hpr := processed_of_finalized h hs (r := .erc20 r) he hf
        simp only [Request.burnIndex] at hpr
        have e1 := A.each _ f hf
        simp only [feeCharged, hpr] at e1
        obtain ⟨inv, _⟩ := run_txInv hR hn
        obtain ⟨n, hn'⟩ := (MKM.getAlt_eq inv.fw).1 hf
        obtain ⟨q, hq, hso⟩ := (run_sound hR hn).f n _ f hn'
        rw [hpr] at hq; cases hq
        have hp : Erc20Sound r f.signed.tx := hso.pay
        have hv : valueSent f = 0 := by
          unfold valueSent
          rw [hp.amount]
          split <;> rfl
        simp only [hv]
        womega
    case failedErc20WithdrawalRequest r =>
      have hb : Event.burnedOn w.mem.m.st.nativeLedgerId w.mem.m.st.nativeLedgerId (.failedErc20WithdrawalRequest r) = r.reimbursedAmount := by
        simp [Event.burnedOn, Event.burnAmounts]
      rw [hb]
      simp only [idx, key, Option.elim, World.nativeOwed]
      by_cases hg : w.reimbursements w.mem.m.st.nativeLedgerId r.ledgerBurnIndex = []
      · have hg0 : w.givenBack w.mem.m.st.nativeLedgerId r.ledgerBurnIndex = 0 := by unfold World.givenBack; rw [hg]; rfl
        have hng : ¬ w.GaveBack w.mem.m.st.nativeLedgerId r.ledgerBurnIndex := fun hh => gaveBack_iff.1 hh hg
        rw [hg0, if_neg hng]
        simp
      · obtain ⟨x, rr, k1, k2, k3, k4, k5⟩ := reimbursement_owed h hn hs hg
        have hx : x = .native r.ledgerBurnIndex :=
          knownReimb_unique h k3 (.inr ⟨r, rfl, he⟩) (by rw [k1]; rfl) (by rw [k2]; rfl)
        rw [if_pos (gaveBack_iff.2 hg), k4]
        rcases k5 with ⟨n, i, f, q, j1, j2, j3, j4, j5⟩ | ⟨j1, j2⟩
        · exfalso
          rw [hx] at j4
          cases q with
          | erc20 q => cases j4
          | native q =>
            simp only [ReimbIndex.ofRequest, ReimbIndex.native.injEq] at j4
            have hq := ((known_of_replay hs).processed j3).2
            have := event_of_burn h he hq (x := (w.mem.m.st.nativeLedgerId, r.ledgerBurnIndex)) (by simp [Event.burns])
              (by simp [Request.event, Event.burns, j4])
            cases this
        · rw [hx] at j2
          simp only [ReimbIndex.native.injEq] at j2
          have := event_of_burn h he j1 (x := (w.mem.m.st.nativeLedgerId, r.ledgerBurnIndex)) (by simp [Event.burns])
            (by simp [Event.burns, j2])
          cases this
          simp
  rw [sum_map_add, sum_map_add] at h6
  rw [minted_eq]
  unfold total at h5 h6 ⊢
  unfold total at h1 h2
  womega

end

namespace Example
attribute [local instance] keccak

/-- A deposit of tokens by alice. -/
def tokenLog (amount index : Nat) : LogEntry :=
  let x : DepositLog := ⟨7, usdc, amount, ⟨principalWord alice, by decide⟩, 0⟩
  { address := 0xcafe, topics := x.topics, data := x.data, blockNumber := some 101, transactionHash := some 0x21
    transactionIndex := some 0, blockHash := some 12, logIndex := some index, removed := false }

/-- Deposits of 6000000000 native tokens and 1000 tokens, all of it minted (the deposit fee to the minter), and two withdrawals:
of 5000000000 native tokens less the withdrawal fee, and of 700 tokens with 2730000 native tokens for the transaction. Both are
owed, and both bounds are attained. -/
theorem C53_example : ∃ w, Reachable w ∧ decide (
    w.mem.m.st.erc20Tokens.getEntry usdcLedger = some (usdc, "ckUSDC") ∧ w.mem.m.st.erc20Tokens.getEntry ledger = none ∧
    w.mem.m.st.nativeLedgerId = ledger ∧ w.mem.m.log.length = 8 ∧
    w.minted usdcLedger = 1000 ∧ w.burned usdcLedger = 700 ∧ total (w.tokenOwed usdcLedger) w.mem.m.log = 700 ∧
    tokenBalance w.mem.m.st usdc = 1000 ∧
    w.minted ledger = 6000000000 ∧ w.burned ledger = 5002729900 ∧ total w.nativeOwed w.mem.m.log = 5002729900 ∧
    w.mem.m.st.nativeBalance.balance = 6000000000) = true :=
  after_reachable (arg := initArg) (l := [.start (.addToken manager usdcArg) 4] ++ scrapeLogs [nativeLog 6000000000 3, tokenLog 1000 4] ++
    [.start .mint 8, .execute 0, .deliver 0 9, .execute 0, .deliver 0 10, .execute 0, .deliver 0 11,
      .start (.withdrawNative alice 5000000000 to) 15, .execute 0, .deliver 0 17, .execute 0, .deliver 0 19,
      .start (.withdrawErc20 alice 700 usdcLedger to (some gasEstimate)) 25, .execute 0, .deliver 0 27, .execute 0, .deliver 0 29,
      .execute 0, .deliver 0 30]) (by decide +kernel)

/-- Without the hypothesis of C54 it is false: `add_erc20_token` takes the native ledger as the ledger of a token, and then
1000 native tokens are minted for a deposit of 1000 tokens. The minter has no native balance. -/
theorem C54_counterexample : ∃ w, Reachable w ∧ decide (
    w.mem.m.st.erc20Tokens.getEntry w.mem.m.st.nativeLedgerId = some (usdc, "ckUSDC") ∧
    w.minted w.mem.m.st.nativeLedgerId = 1000 ∧ w.burned w.mem.m.st.nativeLedgerId = 0 ∧ w.mem.m.st.nativeBalance.balance = 0) = true :=
  after_reachable (arg := initArg) (l := [.start (.addToken manager { usdcArg with ledgerId := ledger }) 4] ++
    scrapeLogs [tokenLog 1000 4] ++ [.start .mint 8, .execute 0, .deliver 0 9]) (by decide +kernel)

end Example
end EvmMinter
