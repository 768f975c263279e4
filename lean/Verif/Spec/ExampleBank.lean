import Verif.Spec.ExampleEvm
import Verif.Lemmas.Icrc
/-!
# Playing concrete executions of minter, chain and ledgers

Like Spec/ExampleEvm.lean, with ledgers that follow the standard. Fees are burned. Used for examples only.
-/

namespace EvmMinter
namespace Spec
open Helper

/-- The state of a ledger after a transfer, if it is possible. -/
def Icrc.exec (minting : AccountKey) (L : Icrc) (spender : Option AccountKey) (a b : AccountKey) (n fee : Nat) : Option Icrc :=
  if b = minting then
    if n ≠ 0 ∧ n ≤ L.bal a ∧ L.Allows spender a n then some ⟨debit L.bal a n, L.use spender a n⟩ else none
  else if a = minting then
    if spender = none then some { L with bal := credit L.bal b n } else none
  else if n + fee ≤ L.bal a ∧ L.Allows spender a (n + fee) then
    some ⟨collect (credit (debit L.bal a (n + fee)) b n) none fee, L.use spender a (n + fee)⟩
  else none

theorem Icrc.exec_does {minting : AccountKey} {L L' : Icrc} {spender : Option AccountKey} {a b : AccountKey} {n fee : Nat}
    (h : L.exec minting spender a b n fee = some L') : L.Does minting spender a b n L' := by
  unfold Icrc.exec at h
  split at h
  · rename_i hb
    split at h
    · rename_i hh; cases h; exact .burn hb hh.1 hh.2.1 hh.2.2
    · cases h
  · rename_i hb
    split at h
    · rename_i ha
      split at h
      · rename_i hs; cases h; exact .mint ha hb hs
      · cases h
    · rename_i ha
      split at h
      · rename_i hh; cases h; exact .move fee none ha hb (by simp) hh.1 hh.2
      · cases h

/-- What happens next. -/
inductive BankAction where
  /-- An action of the minter or the chain that does not execute anything at a ledger. -/
  | other (x : JointAction)
  /-- A ledger executes the minter's call, with the given fee. -/
  | execute (k fee : Nat)
  | transfer (ledger : Principal) (a b : Account) (n fee : Nat)
  | approve (ledger : Principal) (a s : Account) (n fee : Nat)

/-- Does the action leave the ledgers alone? -/
def JointAction.calm : JointAction → Bool
  | .minter (.execute _) => false
  | .minter (.foreign _) => false
  | _ => true

variable [Keccak]

def bankAct (minter helper t : Address) (x : World × Evm × Bank) : BankAction → Option (World × Evm × Bank)
  | .other a => if a.calm then (jointAct minter helper t (x.1, x.2.1) a).map fun y => (y.1, y.2, x.2.2) else none
  | .execute k fee =>
    match x.1.tasks[k]? with
    | some ⟨id, .ledger t, none⟩ =>
      if x.1.height (t.call x.1.mem.id).ledger < 2 ^ 64 then
        match (x.2.2 (t.call x.1.mem.id).ledger).exec x.1.minting ((t.args x.1.mem.id).spender.map Account.key) (t.args x.1.mem.id).from.key
            (t.args x.1.mem.id).to.key (t.args x.1.mem.id).amount fee with
        | some L => some ({ x.1 with
          blocks := x.1.blocks ++ [⟨t.call x.1.mem.id, some (id, t)⟩]
          tasks := x.1.tasks.take k ++ ⟨id, .ledger t, some (.block (x.1.height (t.call x.1.mem.id).ledger))⟩ :: x.1.tasks.drop (k + 1) },
          x.2.1, x.2.2.set (t.call x.1.mem.id).ledger L)
        | none => none
      else none
    | _ => none
  | .transfer ledger a b n fee =>
    if a.owner ≠ x.1.mem.id then
      match (x.2.2 ledger).exec x.1.minting none a.key b.key n fee with
      | some L => some ({ x.1 with blocks := x.1.blocks ++ [⟨⟨ledger, x.1.opOf a b n, none⟩, none⟩] }, x.2.1, x.2.2.set ledger L)
      | none => none
    else none
  | .approve ledger a s n fee =>
    if a.owner ≠ x.1.mem.id ∧ fee ≤ (x.2.2 ledger).bal a.key then
      some ({ x.1 with blocks := x.1.blocks ++ [⟨⟨ledger, .transfer a a 0, none⟩, none⟩] }, x.2.1,
        x.2.2.set ledger ⟨Icrc.debit (x.2.2 ledger).bal a.key fee,
          fun p q => if p = a.key ∧ q = s.key then n else (x.2.2 ledger).allow p q⟩)
    else none

theorem act_blocks {w w' : World} {a : Action} (hc : (JointAction.minter a).calm = true) (h : w.act a = some w') : w'.blocks = w.blocks := by
  have adv : ∀ (v : World) pre post id c n, (v.advance pre post id c n).blocks = v.blocks := by
    intros; rfl
  cases a <;> simp only [World.act] at h
  case execute => cases hc
  case foreign => cases hc
  all_goals (repeat' split at h) <;> first
    | (cases h; exact adv _ _ _ _ _ _)
    | (cases h; rfl)
    | cases h

theorem jointAct_banked {minter helper t : Address} {x y : World × Evm} {a : JointAction} {B : Bank} (hc : a.calm = true)
    (h : Banked x.1 B) (ha : jointAct minter helper t x a = some y) : Banked y.1 B := by
  obtain ⟨w, v⟩ := x
  cases a with
  | minter a =>
    simp only [jointAct] at ha
    split at ha
    · cases ha
    · rename_i w' hw
      split at ha
      · cases ha
        exact .step _ _ _ _ h (.minter _ _ _ (World.act_step hw) (act_blocks hc hw))
      · cases a <;> simp only [reduceCtorEq] at ha
        split at ha
        · rename_i id task o hk
          split at ha
          · rename_i c n hr
            split at ha
            · rename_i hh
              rw [Bool.and_eq_true] at hh
              cases ha
              exact .step _ _ _ _ h (.minter _ _ _ (.answer w _ _ _ _ _ _ _ _ _ (split_at hk) (of_decide_eq_true hh.2) hr) rfl)
            · cases ha
          · cases ha
        · cases ha
  | deposit call b src =>
    simp only [jointAct] at ha
    (repeat' split at ha) <;> first | (cases ha; exact h) | cases ha
  | send k y =>
    simp only [jointAct] at ha
    (repeat' split at ha) <;> first | (cases ha; exact h) | cases ha
  | mine f =>
    simp only [jointAct] at ha
    (repeat' split at ha) <;> first | (cases ha; exact h) | cases ha

theorem bankAct_ok {minter helper t : Address} {x y : World × Evm × Bank} {a : BankAction}
    (h : Joint minter helper (fun c => c = t) x.1 x.2.1 ∧ Banked x.1 x.2.2) (ha : bankAct minter helper t x a = some y) :
    Joint minter helper (fun c => c = t) y.1 y.2.1 ∧ Banked y.1 y.2.2 := by
  obtain ⟨w, v, B⟩ := x
  have quiet : ∀ {w' : World}, Step w w' → w'.mem = w.mem → Joint minter helper (fun c => c = t) w' v := by
    intro w' hs hm
    refine .minter w w' v h.1 hs (.inl fun e he _ => ?_)
    simp [World.since, hm] at he
  have hf : ∀ a b n, (w.opOf a b n).Foreign := fun a b n => by unfold World.opOf; split <;> trivial
  cases a with
  | other a =>
    simp only [bankAct] at ha
    split at ha
    · rename_i hc
      rw [Option.map_eq_some_iff] at ha
      obtain ⟨z, hz, rfl⟩ := ha
      exact ⟨jointAct_joint h.1 hz, jointAct_banked hc h.2 hz⟩
    · cases ha
  | execute k fee =>
    simp only [bankAct] at ha
    split at ha
    · rename_i id t' hk
      split at ha
      · rename_i hh
        split at ha
        · rename_i L hL
          cases ha
          exact ⟨quiet (.execute w _ _ _ _ (split_at hk) hh) rfl,
            .step _ _ _ _ h.2 (.execute w B _ _ _ _ L (split_at hk) hh (Icrc.exec_does hL))⟩
        · cases ha
      · cases ha
    · cases ha
  | transfer ledger a b n fee =>
    simp only [bankAct] at ha
    split at ha
    · rename_i hp
      split at ha
      · rename_i L hL
        cases ha
        exact ⟨quiet (.foreign w _ (hf a b n)) rfl, .step _ _ _ _ h.2 (.transfer w B ledger a.owner a b n none L hp rfl (Icrc.exec_does hL))⟩
      · cases ha
    · cases ha
  | approve ledger a s n fee =>
    simp only [bankAct] at ha
    split at ha
    · rename_i hp
      cases ha
      exact ⟨quiet (.foreign w ⟨ledger, .transfer a a 0, none⟩ trivial) rfl,
        .step _ _ _ _ h.2 (.approve w B ledger a.owner a s n fee hp.1 rfl hp.2)⟩
    · cases ha

/-- Carry out actions in order. -/
def bankPlay (minter helper t : Address) (x : World × Evm × Bank) : List BankAction → Option (World × Evm × Bank)
  | [] => some x
  | a :: l => (bankAct minter helper t x a).bind fun y => bankPlay minter helper t y l

theorem bankPlay_ok {minter helper t : Address} {l : List BankAction} : ∀ {x y : World × Evm × Bank},
    Joint minter helper (fun c => c = t) x.1 x.2.1 ∧ Banked x.1 x.2.2 → bankPlay minter helper t x l = some y →
    Joint minter helper (fun c => c = t) y.1 y.2.1 ∧ Banked y.1 y.2.2 := by
  induction l with
  | nil => intro x y h hp; cases hp; exact h
  | cons a l ih =>
    intro x y h hp
    simp only [bankPlay, Option.bind_eq_some_iff] at hp
    obtain ⟨z, h1, h2⟩ := hp
    exact ih (bankAct_ok h h1) h2

end Spec

namespace Example
open Spec Helper
variable [Keccak]

/-- A property of minter, chain and ledgers after `init`, with the given balances and nonce at the start, and some actions. -/
def bankAfter (addr helper t : Address) (arg : InitArg) (acc : Accounts) (nonce : Nat) (l : List BankAction)
    (p : World → Evm → Bank → Bool) : Bool :=
  match State.ofInit arg with
  | .ok s =>
    match bankPlay addr helper t (World.initial minter arg s [], ⟨acc, nonce, [], [], []⟩, fun _ => ⟨fun _ => 0, fun _ _ => 0⟩) l with
    | some x => p x.1 x.2.1 x.2.2
    | none => false
  | .error _ => false

theorem bankAfter_ok {addr helper t : Address} {arg : InitArg} {acc : Accounts} {nonce : Nat} {l : List BankAction}
    {p : World → Evm → Bank → Bool} (h : bankAfter addr helper t arg acc nonce l p = true) :
    ∃ w v B, Joint addr helper (fun c => c = t) w v ∧ Banked w B ∧ p w v B = true := by
  unfold bankAfter at h
  split at h
  · rename_i s hs
    split at h
    · rename_i x hx
      have := bankPlay_ok ⟨Joint.init minter arg s [] acc nonce hs (by simp),
        Banked.init minter arg s [] _ hs (by simp) (fun _ _ => rfl) (fun _ _ _ => rfl)⟩ hx
      exact ⟨x.1, x.2.1, x.2.2, this.1, this.2, h⟩
    · cases h
  · cases h

end Example
end EvmMinter
