import Verif.Model.LedgerArgs
import Verif.Spec.World
/-!
# Ledgers that follow ICRC-1 and ICRC-2

In `Reachable` a ledger may execute any call. Here ledgers have balances and allowances. The rules are those of the standards and, for
burns, of DFINITY's ledger (the one that the ledger suite manager installs):
* a transfer from the minting account is a mint, a transfer to it a burn; both are free, other transfers cost a fee;
* the minting account of every ledger is the minter's default account; it has no balance and cannot be a source for `transfer_from`;
* nothing is burned by a transfer of 0;
* `transfer_from` needs an allowance for amount and fee, unless the spender is the account itself. Accounts are compared with their
  subaccounts, no subaccount means the one of 32 zeros;
* an allowance is given by the owner of an account. The minter never calls `icrc2_approve`.

When a ledger refuses a call is not restricted, nor are its fee and where fees go. `Banked w L`: the world `w` can come about with ledgers
in the states `L`.
-/

namespace EvmMinter
namespace Spec

/-- An account as ledgers compare them. -/
abbrev AccountKey := Principal × Subaccount

def _root_.EvmMinter.Account.key (a : Account) : AccountKey := (a.owner, a.subaccount.getD 0)

/-- The state of a ledger. -/
structure Icrc where
  bal : AccountKey → Nat
  allow : AccountKey → AccountKey → Nat

namespace Icrc

/-- May the spender move `n` from account `a`? -/
def Allows (L : Icrc) (spender : Option AccountKey) (a : AccountKey) (n : Nat) : Prop :=
  match spender with
  | none => True
  | some s => s = a ∨ n ≤ L.allow a s

instance (L : Icrc) (s : Option AccountKey) (a : AccountKey) (n : Nat) : Decidable (L.Allows s a n) := by
  unfold Allows; split <;> infer_instance

/-- The allowances after the spender has moved `n` from `a`. -/
def use (L : Icrc) (spender : Option AccountKey) (a : AccountKey) (n : Nat) : AccountKey → AccountKey → Nat :=
  match spender with
  | none => L.allow
  | some s => if s = a then L.allow else fun x y => if x = a ∧ y = s then L.allow x y - n else L.allow x y

/-- Add to a balance. -/
def credit (f : AccountKey → Nat) (a : AccountKey) (n : Nat) : AccountKey → Nat := fun x => if x = a then f x + n else f x

/-- Take from a balance. -/
def debit (f : AccountKey → Nat) (a : AccountKey) (n : Nat) : AccountKey → Nat := fun x => if x = a then f x - n else f x

/-- Where a fee goes: to an account, or it is burned. -/
def collect (f : AccountKey → Nat) (collector : Option AccountKey) (fee : Nat) : AccountKey → Nat :=
  match collector with
  | none => f
  | some c => credit f c fee

/-- The ledger executes a transfer of `n` from `a` to `b`. -/
inductive Does (minting : AccountKey) (L : Icrc) (spender : Option AccountKey) (a b : AccountKey) (n : Nat) : Icrc → Prop where
  | mint : a = minting → b ≠ minting → spender = none → Does minting L spender a b n { L with bal := credit L.bal b n }
  | burn : b = minting → n ≠ 0 → n ≤ L.bal a → L.Allows spender a n →
      Does minting L spender a b n ⟨debit L.bal a n, L.use spender a n⟩
  | move (fee : Nat) (collector : Option AccountKey) : a ≠ minting → b ≠ minting → collector ≠ some minting → n + fee ≤ L.bal a →
      L.Allows spender a (n + fee) →
      Does minting L spender a b n ⟨collect (credit (debit L.bal a (n + fee)) b n) collector fee, L.use spender a (n + fee)⟩

/-- The ledger, going from state `L` to `L'`, did what is meant by a mint, a burn or a transfer. -/
def Performs (minting : AccountKey) (L L' : Icrc) : LedgerOp → Prop
  | .mint b n => b.key ≠ minting ∧ L'.bal = credit L.bal b.key n
  | .burn a n => 0 < n ∧ n ≤ L.bal a.key ∧ L'.bal = debit L.bal a.key n
  | .transfer a b n => a.key ≠ minting ∧ b.key ≠ minting ∧ ∃ fee collector, n + fee ≤ L.bal a.key ∧
      L'.bal = collect (credit (debit L.bal a.key (n + fee)) b.key n) collector fee

end Icrc

/-- The minting account of the ledgers. -/
def World.minting (w : World) : AccountKey := (w.mem.id, 0)

/-- The ledgers, by principal. -/
abbrev Bank := Principal → Icrc

def Bank.set (B : Bank) (ledger : Principal) (L : Icrc) : Bank := fun p => if p = ledger then L else B p

/-- What a transfer of someone else is: a burn if it goes to the minting account. -/
def World.opOf (w : World) (a b : Account) (n : Nat) : LedgerOp := if b.key = w.minting then .burn a n else .transfer a b n

inductive BankStep [Keccak] : World → Bank → World → Bank → Prop where
  /-- The minter or its environment takes a step that does not concern the ledgers' states. -/
  | minter (w w' : World) (B : Bank) : Step w w' → w'.blocks = w.blocks → BankStep w B w' B
  /-- A ledger executes a call of the minter. -/
  | execute (w : World) (B : Bank) (pre post : List Pending) (id : Nat) (t : LedgerTask) (L : Icrc) :
      w.tasks = pre ++ ⟨id, .ledger t, none⟩ :: post → w.height (t.call w.mem.id).ledger < 2 ^ 64 →
      (B (t.call w.mem.id).ledger).Does w.minting ((t.args w.mem.id).spender.map Account.key) (t.args w.mem.id).from.key
        (t.args w.mem.id).to.key (t.args w.mem.id).amount L →
      BankStep w B { w with
        blocks := w.blocks ++ [⟨t.call w.mem.id, some (id, t)⟩]
        tasks := pre ++ ⟨id, .ledger t, some (.block (w.height (t.call w.mem.id).ledger))⟩ :: post }
        (B.set (t.call w.mem.id).ledger L)
  /-- Someone else, `p`, transfers from an account of their own. -/
  | transfer (w : World) (B : Bank) (ledger p : Principal) (a b : Account) (n : Nat) (memo : Option Memo) (L : Icrc) : p ≠ w.mem.id →
      a.owner = p → (B ledger).Does w.minting none a.key b.key n L →
      BankStep w B { w with blocks := w.blocks ++ [⟨⟨ledger, w.opOf a b n, memo⟩, none⟩] } (B.set ledger L)
  /-- Someone else, `p`, uses an allowance. -/
  | transferFrom (w : World) (B : Bank) (ledger p : Principal) (s a b : Account) (n : Nat) (memo : Option Memo) (L : Icrc) :
      p ≠ w.mem.id → s.owner = p → (B ledger).Does w.minting (some s.key) a.key b.key n L →
      BankStep w B { w with blocks := w.blocks ++ [⟨⟨ledger, w.opOf a b n, memo⟩, none⟩] } (B.set ledger L)
  /-- Someone else sets an allowance and pays a fee for it. The block counts; it is entered as a transfer of 0. -/
  | approve (w : World) (B : Bank) (ledger p : Principal) (a s : Account) (n fee : Nat) : p ≠ w.mem.id → a.owner = p →
      fee ≤ (B ledger).bal a.key →
      BankStep w B { w with blocks := w.blocks ++ [⟨⟨ledger, .transfer a a 0, none⟩, none⟩] }
        (B.set ledger ⟨Icrc.debit (B ledger).bal a.key fee,
          fun x y => if x = a.key ∧ y = s.key then n else (B ledger).allow x y⟩)

/-- The world can come about with ledgers in these states. In the beginning there are no tokens. -/
inductive Banked [Keccak] : World → Bank → Prop where
  | init (id : Principal) (a : InitArg) (s : State) (blocks : List Block) (B : Bank) : State.ofInit a = .ok s →
      (∀ b ∈ blocks, b.by' = none ∧ ∃ x y, b.call.op = .transfer x y 0) → (∀ ledger x, (B ledger).bal x = 0) →
      (∀ ledger sub x, (B ledger).allow (id, sub) x = 0) → Banked (World.initial id a s blocks) B
  | step (w w' : World) (B B' : Bank) : Banked w B → BankStep w B w' B' → Banked w' B'

/-- What the blocks of a ledger say: nothing is minted to the minting account, burns are not of 0 and not from the minter's accounts,
and transfers from the minter's accounts are of 0. -/
def Kept (me : Principal) : LedgerOp → Prop
  | .mint b _ => b.key ≠ (me, 0)
  | .burn a n => 0 < n ∧ a.owner ≠ me
  | .transfer a _ n => a.owner = me → n = 0

/-- All tokens of the ledger: no accounts together hold more than `n`. -/
def Icrc.AtMost (L : Icrc) (n : Nat) : Prop := ∀ l : List AccountKey, l.Nodup → (l.map L.bal).sum ≤ n

end Spec
end EvmMinter
