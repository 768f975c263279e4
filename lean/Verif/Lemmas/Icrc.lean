import Verif.Spec.Icrc
import Verif.Spec.Backing
import Verif.Lemmas.Thread
/-!
# Ledgers that follow ICRC-1 and ICRC-2: accounting
-/

namespace EvmMinter
open Spec

/-! ## Sums of balances -/

theorem sum_zeros : ∀ {l : List Nat}, (∀ x ∈ l, x = 0) → l.sum = 0
  | [], _ => rfl
  | x :: l, h => by
    rw [List.sum_cons, h x List.mem_cons_self, sum_zeros fun y hy => h y (List.mem_cons_of_mem _ hy)]

theorem sum_credit {f : AccountKey → Nat} {a : AccountKey} {n : Nat} : ∀ {l : List AccountKey}, l.Nodup →
    (l.map (Icrc.credit f a n)).sum = (l.map f).sum + if a ∈ l then n else 0
  | [], _ => by simp
  | x :: l, h => by
    have ih := sum_credit (f := f) (a := a) (n := n) (List.nodup_cons.1 h).2
    have hx := (List.nodup_cons.1 h).1
    simp only [List.map_cons, List.sum_cons, ih, List.mem_cons, Icrc.credit]
    by_cases e : x = a
    · subst e; simp only [if_true, true_or, if_neg hx]; omega
    · have e' : ¬ a = x := fun h => e h.symm
      simp only [if_neg e, e', false_or]; omega

theorem sum_debit {f : AccountKey → Nat} {a : AccountKey} {n : Nat} (hn : n ≤ f a) : ∀ {l : List AccountKey}, l.Nodup →
    (l.map (Icrc.debit f a n)).sum + (if a ∈ l then n else 0) = (l.map f).sum
  | [], _ => by simp
  | x :: l, h => by
    have ih := sum_debit hn (List.nodup_cons.1 h).2
    have hx := (List.nodup_cons.1 h).1
    simp only [List.map_cons, List.sum_cons, List.mem_cons, ← ih, Icrc.debit]
    by_cases e : x = a
    · subst e; simp only [if_true, true_or, if_neg hx]; omega
    · have e' : ¬ a = x := fun h => e h.symm
      simp only [if_neg e, e', false_or]; omega

namespace Spec.Icrc

theorem AtMost.credit {L : Icrc} {N : Nat} (h : L.AtMost N) (a : AccountKey) (n : Nat) (al : AccountKey → AccountKey → Nat) :
    Icrc.AtMost ⟨Icrc.credit L.bal a n, al⟩ (N + n) := fun l hl => by
  show (l.map (Icrc.credit L.bal a n)).sum ≤ _
  rw [sum_credit hl]
  have := h l hl
  split <;> omega

theorem AtMost.debit {L : Icrc} {N : Nat} (h : L.AtMost N) {a : AccountKey} {n : Nat} (hn : n ≤ L.bal a) (al : AccountKey → AccountKey → Nat) :
    n ≤ N ∧ Icrc.AtMost ⟨Icrc.debit L.bal a n, al⟩ (N - n) := by
  have h1 := h [a] (by simp)
  simp only [List.map_cons, List.map_nil, List.sum_cons, List.sum_nil] at h1
  refine ⟨by omega, fun l hl => ?_⟩
  show (l.map (Icrc.debit L.bal a n)).sum ≤ _
  have h2 := sum_debit hn hl
  by_cases ha : a ∈ l
  · rw [if_pos ha] at h2
    have := h l hl
    omega
  · rw [if_neg ha] at h2
    have := h (a :: l) (List.nodup_cons.2 ⟨ha, hl⟩)
    simp only [List.map_cons, List.sum_cons] at this
    omega

theorem AtMost.mono {L : Icrc} {N M : Nat} (h : L.AtMost N) (hm : N ≤ M) : L.AtMost M := fun l hl => Nat.le_trans (h l hl) hm

theorem AtMost.collect {f : AccountKey → Nat} {N : Nat} {al : AccountKey → AccountKey → Nat} (h : Icrc.AtMost ⟨f, al⟩ N)
    (c : Option AccountKey) (n : Nat) (al' : AccountKey → AccountKey → Nat) : Icrc.AtMost ⟨Icrc.collect f c n, al'⟩ (N + n) := by
  cases c with
  | none => exact fun l hl => Nat.le_trans (h l hl) (by omega)
  | some c => exact AtMost.credit h c n al'

/-- A transfer that is neither a mint nor a burn creates nothing. -/
theorem AtMost.move {L : Icrc} {N : Nat} (h : L.AtMost N) {a b : AccountKey} {n fee : Nat} (hn : n + fee ≤ L.bal a) (c : Option AccountKey)
    (al : AccountKey → AccountKey → Nat) : Icrc.AtMost ⟨Icrc.collect (Icrc.credit (Icrc.debit L.bal a (n + fee)) b n) c fee, al⟩ N := by
  obtain ⟨h1, h2⟩ := h.debit hn al
  exact (AtMost.collect (h2.credit b n al) c fee al).mono (by omega)

end Spec.Icrc

/-! ## What a ledger does with the calls of the minter -/

theorem credit_other {f : AccountKey → Nat} {a x : AccountKey} {n : Nat} (h : x ≠ a) : Icrc.credit f a n x = f x := if_neg h
theorem debit_other {f : AccountKey → Nat} {a x : AccountKey} {n : Nat} (h : x ≠ a) : Icrc.debit f a n x = f x := if_neg h

theorem credit_le {f : AccountKey → Nat} (a x : AccountKey) (n : Nat) : f x ≤ Icrc.credit f a n x := by
  unfold Icrc.credit; split <;> omega

theorem collect_le {f : AccountKey → Nat} (c : Option AccountKey) (x : AccountKey) (n : Nat) : f x ≤ Icrc.collect f c n x := by
  cases c
  · exact Nat.le_refl _
  · exact credit_le _ _ _

theorem collect_other {f : AccountKey → Nat} {c : Option AccountKey} {x : AccountKey} {n : Nat} (h : c ≠ some x) :
    Icrc.collect f c n x = f x := by
  cases c
  · rfl
  · exact credit_other fun e => h (by rw [e])

/-- What must be true of a ledger: the minting account is empty, and the accounts of the minter have given no allowances. -/
structure Intact (me : Principal) (L : Icrc) : Prop where
  minting : L.bal (me, 0) = 0
  allow : ∀ sub x, L.allow (me, sub) x = 0

theorem use_le (L : Icrc) (s : Option AccountKey) (a : AccountKey) (n : Nat) (x y : AccountKey) : L.use s a n x y ≤ L.allow x y := by
  unfold Icrc.use
  split
  · exact Nat.le_refl _
  · split
    · exact Nat.le_refl _
    · dsimp only; split <;> omega

theorem Intact.does {me : Principal} {L L' : Icrc} (S : Intact me L) {s : Option AccountKey} {a b : AccountKey} {n : Nat}
    (h : L.Does (me, 0) s a b n L') : Intact me L' := by
  cases h with
  | mint h1 h2 h3 => exact ⟨(credit_other (Ne.symm h2)).trans S.minting, S.allow⟩
  | burn h1 h2 h3 h4 =>
    refine ⟨?_, fun sub x => Nat.le_zero.1 (by rw [← S.allow sub x]; exact use_le ..)⟩
    have hm := S.minting
    show Icrc.debit L.bal a n (me, 0) = 0
    unfold Icrc.debit; split <;> omega
  | move fee c h1 h2 h3 h4 h5 =>
    refine ⟨?_, fun sub x => Nat.le_zero.1 (by rw [← S.allow sub x]; exact use_le ..)⟩
    show Icrc.collect _ c fee (me, 0) = 0
    rw [collect_other h3, credit_other (Ne.symm h2), debit_other (Ne.symm h1)]
    exact S.minting

/-- A transfer by an account that is not the minting account, and not on behalf of one of the minter's accounts, takes nothing
from the minter's accounts. -/
theorem Intact.keeps {me : Principal} {L L' : Icrc} (S : Intact me L) {s : Option AccountKey} {a b : AccountKey} {n : Nat}
    (h : L.Does (me, 0) s a b n L') (hs : s = none → a.1 = me → a = (me, 0)) (hs' : ∀ k, s = some k → a.1 = me → k ≠ a ∨ a = (me, 0)) (sub : Subaccount) :
    L.bal (me, sub) ≤ L'.bal (me, sub) := by
  have key : ∀ {m}, a.1 = me → a ≠ (me, 0) → L.Allows s a m → m = 0 := by
    intro m ha hne hal
    unfold Icrc.Allows at hal
    split at hal
    · exact absurd (hs rfl ha) hne
    · rename_i k
      rcases hal with rfl | hal
      · exact ((hs' _ rfl ha).elim (fun h => absurd rfl h) fun h => absurd h hne)
      · obtain ⟨a1, a2⟩ := a
        cases ha
        rw [S.allow] at hal
        exact Nat.le_zero.1 hal
  cases h with
  | mint h1 h2 h3 => exact credit_le _ _ _
  | burn h1 h2 h3 h4 =>
    show _ ≤ Icrc.debit L.bal a n (me, sub)
    by_cases e : (me, sub) = a
    · by_cases e' : a = (me, 0)
      · rw [e', S.minting] at h3
        exact absurd (Nat.le_zero.1 h3) h2
      · exact absurd (key (by rw [← e]) e' h4) h2
    · rw [debit_other e]; exact Nat.le_refl _
  | move fee c h1 h2 h3 h4 h5 =>
    refine Nat.le_trans ?_ (collect_le _ _ _)
    refine Nat.le_trans ?_ (credit_le _ _ _)
    by_cases e : (me, sub) = a
    · have := key (by rw [← e]) h1 h5
      rw [this]
      unfold Icrc.debit
      split <;> omega
    · rw [debit_other e]; exact Nat.le_refl _

theorem fees_ne (me : Principal) : (⟨me, some feesSubaccount⟩ : Account).key ≠ (me, 0) := fun h => by
  have := (Prod.mk.injEq .. ▸ h : _ ∧ _).2
  revert this
  show ¬ feesSubaccount = 0
  decide

/-- What a ledger does with a call of the minter is what the call is meant to be. It takes nothing from the minter's accounts. -/
theorem Intact.performs {me : Principal} {L L' : Icrc} (S : Intact me L) (t : LedgerTask)
    (h : L.Does (me, 0) ((t.args me).spender.map Account.key) (t.args me).from.key (t.args me).to.key (t.args me).amount L') :
    L.Performs (me, 0) L' (t.call me).op ∧ Kept me (t.call me).op := by
  have hme : (⟨me, none⟩ : Account).key = (me, 0) := rfl
  -- the three kinds of calls
  have mint : ∀ {b : Account} {n : Nat}, L.Does (me, 0) none (me, 0) b.key n L' → L.Performs (me, 0) L' (.mint b n) ∧ Kept me (.mint b n) := by
    intro b n h
    cases h with
    | mint h1 h2 h3 => exact ⟨⟨h2, rfl⟩, h2⟩
    | burn h1 h2 h3 h4 => rw [S.minting] at h3; omega
    | move fee c h1 => exact absurd rfl h1
  have burn : ∀ {p : Principal} {n : Nat}, L.Does (me, 0) (some (me, 0)) (⟨p, none⟩ : Account).key (me, 0) n L' →
      L.Performs (me, 0) L' (.burn ⟨p, none⟩ n) ∧ Kept me (.burn ⟨p, none⟩ n) := by
    intro p n h
    cases h with
    | mint h1 h2 h3 => exact absurd rfl h2
    | burn h1 h2 h3 h4 =>
      refine ⟨⟨Nat.pos_of_ne_zero h2, h3, rfl⟩, Nat.pos_of_ne_zero h2, ?_⟩
      rintro rfl
      have h3 : n ≤ L.bal (p, 0) := h3
      rw [S.minting] at h3
      omega
    | move fee c h1 h2 => exact absurd rfl h2
  have take : ∀ {p : Principal} {n : Nat}, L.Does (me, 0) (some (me, 0)) (⟨p, none⟩ : Account).key (⟨me, some feesSubaccount⟩ : Account).key n L' →
      L.Performs (me, 0) L' (.transfer ⟨p, none⟩ ⟨me, some feesSubaccount⟩ n) ∧ Kept me (.transfer ⟨p, none⟩ ⟨me, some feesSubaccount⟩ n) := by
    intro p n h
    cases h with
    | mint h1 h2 h3 => cases h3
    | burn h1 => exact absurd h1 (fees_ne me)
    | move fee c h1 h2 h3 h4 h5 => exact ⟨⟨h1, h2, fee, c, h4, rfl⟩, fun e => absurd (congrArg (fun x => (x, 0)) e) h1⟩
  have give : ∀ {b : Account} {n : Nat}, L.Does (me, 0) (some (me, 0)) (⟨me, some feesSubaccount⟩ : Account).key b.key n L' →
      L.Performs (me, 0) L' (.transfer ⟨me, some feesSubaccount⟩ b n) ∧ Kept me (.transfer ⟨me, some feesSubaccount⟩ b n) := by
    intro b n h
    have hno : ∀ {m}, L.Allows (some (me, 0)) (⟨me, some feesSubaccount⟩ : Account).key m → m = 0 := by
      intro m hm
      rcases hm with hm | hm
      · exact absurd hm.symm (fees_ne me)
      · exact Nat.le_zero.1 (Nat.le_trans hm (Nat.le_of_eq (S.allow _ _)))
    cases h with
    | mint h1 h2 h3 => cases h3
    | burn h1 h2 h3 h4 => exact absurd (hno h4) h2
    | move fee c h1 h2 h3 h4 h5 => exact ⟨⟨h1, h2, fee, c, h4, rfl⟩, fun _ => by have := hno h5; omega⟩
  cases t <;> simp only [LedgerTask.args, Option.map_none, Option.map_some, hme] at h
  case mintUser => exact mint h
  case mintFee => exact mint h
  case reimburse => exact mint h
  case nativeFee => exact take h
  case erc20Fee => exact take h
  case nativeBurn => exact burn h
  case erc20NativeBurn => exact burn h
  case erc20TokenBurn => exact burn h
  case nativeRefund => exact give h
  case erc20Refund => exact give h

/-! ## The invariant -/

structure BankInv (w : World) (B : Bank) : Prop where
  intact : ∀ ledger, Intact w.mem.id (B ledger)
  supply : ∀ ledger, w.burned ledger ≤ w.minted ledger ∧ (B ledger).AtMost (w.minted ledger - w.burned ledger)
  kept : ∀ b ∈ w.blocks, Kept w.mem.id b.call.op

theorem minted_push (w : World) (b : Block) (tasks : List Pending) (ledger : Principal) :
    ({ w with blocks := w.blocks ++ [b], tasks := tasks } : World).minted ledger =
      w.minted ledger + if b.call.ledger = ledger then b.call.mints else 0 := by
  simp only [World.minted, List.filter_append, List.map_append, List.sum_append, List.filter_cons, List.filter_nil, beq_iff_eq]
  split <;> simp

theorem burned_push (w : World) (b : Block) (tasks : List Pending) (ledger : Principal) :
    ({ w with blocks := w.blocks ++ [b], tasks := tasks } : World).burned ledger =
      w.burned ledger + if b.call.ledger = ledger then b.call.burns else 0 := by
  simp only [World.burned, List.filter_append, List.map_append, List.sum_append, List.filter_cons, List.filter_nil, beq_iff_eq]
  split <;> simp

theorem supply_of_performs {L L' : Icrc} {me : AccountKey} {minted burned : Nat} {c : LedgerCall} (h : L.Performs me L' c.op)
    (hs : burned ≤ minted ∧ L.AtMost (minted - burned)) :
    burned + c.burns ≤ minted + c.mints ∧ L'.AtMost (minted + c.mints - (burned + c.burns)) := by
  obtain ⟨bal', al'⟩ := L'
  unfold LedgerCall.burns LedgerCall.mints
  cases hop : c.op with
  | mint b n =>
    rw [hop] at h
    obtain ⟨_, h⟩ := h
    dsimp only at h ⊢
    subst h
    exact ⟨by omega, (hs.2.credit b.key n al').mono (by omega)⟩
  | burn a n =>
    rw [hop] at h
    obtain ⟨_, h1, h⟩ := h
    dsimp only at h ⊢
    subst h
    obtain ⟨k1, k2⟩ := hs.2.debit h1 al'
    exact ⟨by omega, k2.mono (by omega)⟩
  | transfer a b n =>
    rw [hop] at h
    obtain ⟨_, _, fee, col, h1, h⟩ := h
    dsimp only at h ⊢
    subst h
    exact ⟨by omega, (hs.2.move h1 col al').mono (by omega)⟩

section
variable [Keccak]

theorem Spec.Banked.reachable {w : World} {B : Bank} (h : Banked w B) : Reachable w := by
  induction h with
  | init id a s blocks B hs hb _ _ =>
    refine .init id a s blocks hs fun b hm => ⟨(hb b hm).1, ?_⟩
    obtain ⟨x, y, e⟩ := (hb b hm).2
    rw [e]; trivial
  | step w w' B B' _ hs ih =>
    have hf : ∀ a b n, (w.opOf a b n).Foreign := fun a b n => by unfold World.opOf; split <;> trivial
    cases hs with
    | minter _ _ hs _ => exact .step _ _ ih hs
    | execute _ pre post id t L ht hh _ => exact .step _ _ ih (.execute w pre post id t ht hh)
    | transfer _ ledger p a b n memo L _ _ _ => exact .step _ _ ih (.foreign w _ (hf a b n))
    | transferFrom _ ledger p s a b n memo L _ _ _ => exact .step _ _ ih (.foreign w _ (hf a b n))
    | approve _ ledger p a s n fee _ _ _ => exact .step _ _ ih (.foreign w _ trivial)

omit [Keccak] in
theorem opOf_performs {w : World} {L L' : Icrc} (S : Intact w.mem.id L) {s : Option AccountKey} {a b : Account} {n : Nat}
    (h : L.Does w.minting s a.key b.key n L') (hs : s = none → a.owner ≠ w.mem.id)
    (hs' : ∀ k, s = some k → k.1 ≠ w.mem.id) : L.Performs w.minting L' (w.opOf a b n) ∧ Kept w.mem.id (w.opOf a b n) := by
  have hno : ∀ {m}, L.Allows s a.key m → a.owner = w.mem.id → m = 0 := by
    intro m hm ha
    unfold Icrc.Allows at hm
    split at hm
    · exact absurd ha (hs rfl)
    · rcases hm with rfl | hm
      · exact absurd ha (hs' _ rfl)
      · rw [show a.key = (w.mem.id, a.subaccount.getD 0) by rw [Account.key, ha], S.allow] at hm
        exact Nat.le_zero.1 hm
  cases h with
  | mint h1 h2 h3 => exact absurd (congrArg Prod.fst h1) (hs h3)
  | burn h1 h2 h3 h4 =>
    rw [World.opOf, if_pos h1]
    exact ⟨⟨Nat.pos_of_ne_zero h2, h3, rfl⟩, Nat.pos_of_ne_zero h2, fun e => h2 (hno h4 e)⟩
  | move fee c h1 h2 h3 h4 h5 =>
    rw [World.opOf, if_neg h2]
    exact ⟨⟨h1, h2, fee, c, h4, rfl⟩, fun e => by have := hno h5 e; omega⟩

omit [Keccak] in
/-- A new block. -/
theorem BankInv.push {w : World} {B : Bank} (I : BankInv w B) {b : Block} {L : Icrc} (tasks : List Pending)
    (hp : (B b.call.ledger).Performs w.minting L b.call.op) (hi : Intact w.mem.id L)
    (hb : Kept w.mem.id b.call.op) :
    BankInv { w with blocks := w.blocks ++ [b], tasks := tasks } (B.set b.call.ledger L) := by
  refine ⟨fun l => ?_, fun l => ?_, fun x hx => ?_⟩
  · unfold Bank.set
    split
    · exact hi
    · exact I.intact l
  · rw [minted_push, burned_push]
    unfold Bank.set
    by_cases e : l = b.call.ledger
    · subst e
      simp only [if_true]
      exact supply_of_performs hp (I.supply _)
    · simp only [if_neg e, if_neg (Ne.symm e), Nat.add_zero]
      exact I.supply l
  · rcases List.mem_append.1 hx with hx | hx
    · exact I.kept x hx
    · rw [List.mem_singleton.1 hx]; exact hb

theorem bankInv {w : World} {B : Bank} (h : Banked w B) : BankInv w B := by
  induction h with
  | init id a s blocks B hs hb h0 ha =>
    have hm : ∀ ledger, (World.initial id a s blocks).minted ledger = 0 := fun l => by
      refine sum_zeros fun x hx => ?_
      obtain ⟨b, hb', rfl⟩ := List.mem_map.1 hx
      obtain ⟨_, y, z, e⟩ := hb b (List.mem_filter.1 hb').1
      simp [LedgerCall.mints, e]
    have hbn : ∀ ledger, (World.initial id a s blocks).burned ledger = 0 := fun l => by
      refine sum_zeros fun x hx => ?_
      obtain ⟨b, hb', rfl⟩ := List.mem_map.1 hx
      obtain ⟨_, y, z, e⟩ := hb b (List.mem_filter.1 hb').1
      simp [LedgerCall.burns, e]
    refine ⟨fun l => ⟨h0 _ _, ha l⟩, fun l => ⟨by rw [hbn, hm]; exact Nat.le_refl _, fun k hk => ?_⟩, fun b hm => ?_⟩
    · rw [sum_zeros]
      · exact Nat.zero_le _
      · intro x hx
        obtain ⟨y, _, rfl⟩ := List.mem_map.1 hx
        exact h0 _ _
    · obtain ⟨_, x, y, e⟩ := hb b hm
      rw [e]; exact fun _ => rfl
  | step w w' B B' hbk hs I =>
    cases hs with
    | minter _ _ hs hb =>
      have hid := (Step.grows hbk.reachable hs).id
      refine ⟨fun l => hid ▸ I.intact l, fun l => ?_, fun b hm => ?_⟩
      · simpa only [World.minted, World.burned, hb] using I.supply l
      · rw [hid]; exact I.kept b (hb ▸ hm)
    | execute _ pre post id t L ht hh hd =>
      obtain ⟨h1, h2⟩ := (I.intact _).performs t hd
      exact I.push (b := ⟨t.call w.mem.id, some (id, t)⟩) _ h1 ((I.intact _).does hd) h2
    | transfer _ ledger p a b n memo L hp ha hd =>
      obtain ⟨h1, h2⟩ := opOf_performs (I.intact _) hd (fun _ e => hp (ha ▸ e)) (fun _ e => by cases e)
      exact I.push (b := ⟨⟨ledger, w.opOf a b n, memo⟩, none⟩) w.tasks h1 ((I.intact _).does hd) h2
    | transferFrom _ ledger p s a b n memo L hp ha hd =>
      obtain ⟨h1, h2⟩ := opOf_performs (I.intact _) hd (fun e => by cases e) (fun _ e => by cases e; exact fun e => hp (ha ▸ e))
      exact I.push (b := ⟨⟨ledger, w.opOf a b n, memo⟩, none⟩) w.tasks h1 ((I.intact _).does hd) h2
    | approve _ ledger p a s n fee hp ha hf =>
      refine ⟨fun l => ?_, fun l => ?_, fun x hx => ?_⟩
      · unfold Bank.set
        split
        · refine ⟨?_, fun sub x => ?_⟩
          · dsimp only
            rw [debit_other]
            · exact (I.intact _).minting
            · exact fun e => hp (ha ▸ (congrArg Prod.fst e).symm)
          · dsimp only
            rw [if_neg]
            · exact (I.intact _).allow sub x
            · exact fun e => hp (ha ▸ (congrArg Prod.fst e.1).symm)
        · exact I.intact l
      · have hm : ({ w with blocks := w.blocks ++ [⟨⟨ledger, .transfer a a 0, none⟩, none⟩] } : World).minted l = w.minted l := by
          rw [minted_push w _ w.tasks]; simp [LedgerCall.mints]
        have hbn : ({ w with blocks := w.blocks ++ [⟨⟨ledger, .transfer a a 0, none⟩, none⟩] } : World).burned l = w.burned l := by
          rw [burned_push w _ w.tasks]; simp [LedgerCall.burns]
        rw [hm, hbn]
        unfold Bank.set
        split
        · rename_i e
          subst e
          exact ⟨(I.supply l).1, ((I.supply l).2.debit hf _).2.mono (Nat.sub_le _ _)⟩
        · exact I.supply l
      · rcases List.mem_append.1 hx with hx | hx
        · exact I.kept x hx
        · rw [List.mem_singleton.1 hx]
          exact fun _ => rfl

end
end EvmMinter
