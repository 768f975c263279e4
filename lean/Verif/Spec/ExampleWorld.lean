import Verif.Spec.World
import Verif.Spec.Example
import Verif.Spec.Helper
/-!
# Playing concrete executions of the world

`World.play` runs a list of actions. `play_reachable` turns a computation with it into an execution in the sense of
`Reachable`. Used for examples and counterexamples only.
-/

namespace EvmMinter
namespace Spec

instance : DecidablePred GasFeeEstimate.Bounded := fun _ => by unfold GasFeeEstimate.Bounded; infer_instance
instance (o : LedgerOp) (e : TransferError) : Decidable (MayRefuse o e) := by
  cases o <;> unfold MayRefuse <;> infer_instance
instance (o : LedgerOp) : Decidable o.Foreign := by cases o <;> unfold LedgerOp.Foreign <;> infer_instance
instance (m : Message) : Decidable m.Typed := by
  unfold Message.Typed
  split <;> infer_instance
instance (a : ExtAnswer) : Decidable a.Typed := by
  unfold ExtAnswer.Typed
  split <;> infer_instance

/-- What happens next; numbers are positions in the list of suspended tasks. -/
inductive Action where
  | start (msg : Message) (now : Nat)
  | execute (k : Nat)
  | refuse (k : Nat) (e : TransferError)
  | reject (k : Nat)
  | deliver (k : Nat) (now : Nat)
  | kill (k : Nat)
  | answer (k : Nat) (a : ExtAnswer) (now : Nat)
  | foreign (call : LedgerCall)
  | upgrade (arg : Option MinterArg)

variable [Keccak]

/-- Carry out an action if it is possible. -/
def World.act (w : World) : Action → Option World
  | .start msg now =>
    if msg.Typed then
      match msg.run w.mem now with
      | .ok (c, n) => some ((w.begin msg).advance w.tasks [] w.nextId c n)
      | .error _ => some ((w.begin msg).drop w.tasks [] w.nextId w.mem .trapped)
    else none
  | .execute k =>
    match w.tasks[k]? with
    | some ⟨id, .ledger t, none⟩ =>
      if w.height (t.call w.mem.id).ledger < 2 ^ 64 then
        some { w with
          blocks := w.blocks ++ [⟨t.call w.mem.id, some (id, t)⟩]
          tasks := w.tasks.take k ++ ⟨id, .ledger t, some (.block (w.height (t.call w.mem.id).ledger))⟩ :: w.tasks.drop (k + 1) }
      else none
    | _ => none
  | .refuse k e =>
    match w.tasks[k]? with
    | some ⟨id, .ledger t, none⟩ =>
      if MayRefuse (t.call w.mem.id).op e then
        some { w with tasks := w.tasks.take k ++ ⟨id, .ledger t, some (.refused e)⟩ :: w.tasks.drop (k + 1) }
      else none
    | _ => none
  | .reject k =>
    match w.tasks[k]? with
    | some ⟨id, .ledger t, none⟩ =>
      some { w with tasks := w.tasks.take k ++ ⟨id, .ledger t, some .rejected⟩ :: w.tasks.drop (k + 1) }
    | _ => none
  | .deliver k now =>
    match w.tasks[k]? with
    | some ⟨id, .ledger t, some a⟩ =>
      match t.resume w.mem a now with
      | .ok (c, n) => some (w.advance (w.tasks.take k) (w.tasks.drop (k + 1)) id c n)
      | .error _ =>
        match (Task.ledger t).cleanup w.mem with
        | .ok c => some (w.drop (w.tasks.take k) (w.tasks.drop (k + 1)) id c .trapped)
        | .error _ => none
    | _ => none
  | .kill k =>
    match w.tasks[k]? with
    | some ⟨id, .ledger t, some _⟩ =>
      match (Task.ledger t).cleanup w.mem with
      | .ok c => some (w.drop (w.tasks.take k) (w.tasks.drop (k + 1)) id c .killed)
      | .error _ => none
    | some ⟨id, .ext t, _⟩ =>
      match (Task.ext t).cleanup w.mem with
      | .ok c => some (w.drop (w.tasks.take k) (w.tasks.drop (k + 1)) id c .killed)
      | .error _ => none
    | _ => none
  | .answer k a now =>
    match w.tasks[k]? with
    | some ⟨id, .ext t, _⟩ =>
      if a.Typed then
        match t.resume w.mem now a with
        | some (.ok (c, n)) => some (w.advance (w.tasks.take k) (w.tasks.drop (k + 1)) id c n)
        | some (.error _) =>
          match (Task.ext t).cleanup w.mem with
          | .ok c => some (w.drop (w.tasks.take k) (w.tasks.drop (k + 1)) id c .trapped)
          | .error _ => none
        | none => none
      else none
    | _ => none
  | .foreign call => if call.op.Foreign then some { w with blocks := w.blocks ++ [⟨call, none⟩] } else none
  | .upgrade arg =>
    if w.tasks.isEmpty then
      match postUpgrade (w.mem.m.log ++ [.syncedToBlock w.mem.m.st.lastScrapedBlockNumber]) arg with
      | .ok (log, s) => some { w with mem := ⟨w.mem.id, ⟨s, log⟩, none, none, [], []⟩ }
      | .error _ => none
    else none

theorem split_at {α : Type} {l : List α} {k : Nat} {x : α} (h : l[k]? = some x) : l = l.take k ++ x :: l.drop (k + 1) := by
  obtain ⟨hk, rfl⟩ := List.getElem?_eq_some_iff.1 h
  rw [List.getElem_cons_drop hk, List.take_append_drop]

theorem World.act_step {w w' : World} {x : Action} (h : w.act x = some w') : Step w w' := by
  cases x <;> simp only [World.act] at h
  · split at h
    · rename_i ht
      split at h
      · rename_i hr; cases h; exact .start w _ _ _ _ ht hr
      · rename_i hr; cases h; exact .startTrap w _ _ _ ht hr
    · cases h
  · split at h
    · rename_i hk
      split at h
      · rename_i hb; cases h; exact .execute w _ _ _ _ (split_at hk) hb
      · cases h
    · cases h
  · split at h
    · rename_i hk
      split at h
      · rename_i hb; cases h; exact .refuse w _ _ _ _ _ (split_at hk) hb
      · cases h
    · cases h
  · split at h
    · rename_i hk
      cases h; exact .reject w _ _ _ _ (split_at hk)
    · cases h
  · split at h
    · rename_i hk
      split at h
      · rename_i hr; cases h; exact .deliver w _ _ _ _ _ _ _ _ (split_at hk) hr
      · rename_i hr
        split at h
        · rename_i hc; cases h; exact .deliverTrap w _ _ _ _ _ _ _ _ (split_at hk) hr hc
        · cases h
    · cases h
  · split at h
    · rename_i hk
      split at h
      · rename_i hc; cases h; exact .kill w _ _ _ _ _ _ (split_at hk) hc
      · cases h
    · rename_i hk
      split at h
      · rename_i hc; cases h; exact .killExt w _ _ _ _ _ _ (split_at hk) hc
      · cases h
    · cases h
  · split at h
    · rename_i hk
      split at h
      · rename_i ht
        split at h
        · rename_i hr; cases h; exact .answer w _ _ _ _ _ _ _ _ _ (split_at hk) ht hr
        · rename_i hr
          split at h
          · rename_i hc; cases h; exact .answerTrap w _ _ _ _ _ _ _ _ _ (split_at hk) ht hr hc
          · cases h
        · cases h
      · cases h
    · cases h
  · split at h
    · rename_i hf; cases h; exact .foreign w _ hf
    · cases h
  · split at h
    · rename_i he
      split at h
      · rename_i hp; cases h; exact .upgrade w _ _ _ (List.isEmpty_iff.1 he) hp
      · cases h
    · cases h

/-- Carry out actions in order. -/
def World.play (w : World) : List Action → Option World
  | [] => some w
  | x :: t => (w.act x).bind fun w' => w'.play t

theorem World.play_reachable {l : List Action} : ∀ {w w' : World}, Reachable w → w.play l = some w' → Reachable w' := by
  induction l with
  | nil => intro w w' h hp; cases hp; exact h
  | cons x t ih =>
    intro w w' h hp
    simp only [World.play, Option.bind_eq_some_iff] at hp
    obtain ⟨w1, h1, h2⟩ := hp
    exact ih (.step w w1 h (World.act_step h1)) h2

end Spec

namespace Example
open Spec

def minter : Principal := ⟨[9, 9]⟩
def bob : Principal := ⟨[8, 8]⟩

/-- The world after `init` with `initArg` and empty ledgers, and the given actions. -/
def playInit (arg : InitArg) (l : List Action) : Option World :=
  match State.ofInit arg with
  | .ok s => (World.initial minter arg s []).play l
  | .error _ => none

theorem playInit_reachable {arg : InitArg} {l : List Action} {w : World} (h : playInit arg l = some w) : Reachable w := by
  unfold playInit at h
  split at h
  · rename_i s hs
    exact World.play_reachable (.init minter arg s [] hs (by simp)) h
  · cases h

/-- A property of the world after some actions, evaluated. -/
def after (arg : InitArg) (l : List Action) (p : World → Bool) : Bool :=
  match playInit arg l with
  | some w => p w
  | none => false

theorem after_reachable {arg : InitArg} {l : List Action} {p : World → Bool} (h : after arg l p = true) :
    ∃ w, Reachable w ∧ p w = true := by
  unfold after at h
  split at h
  · rename_i w hw
    exact ⟨w, playInit_reachable hw, h⟩
  · cases h

/-- The log of a deposit of native tokens by alice, at the given position of transaction `0x21`. -/
def nativeLog (amount index : Nat) : LogEntry :=
  let x : DepositLog := ⟨7, 0, amount, ⟨principalWord alice, by decide⟩, 0⟩
  { address := 0xcafe, topics := x.topics, data := x.data, blockNumber := some 101, transactionHash := some 0x21
    transactionIndex := some 0, blockHash := some 12, logIndex := some index, removed := false }

/-- Scraping, with one provider answer. -/
def scrapeLogs (l : List LogEntry) : List Action :=
  [.start .scrape 5, .answer 0 (.block (some 101)) 6, .answer 0 (.logs (.logs l)) 7]

end Example
end EvmMinter
