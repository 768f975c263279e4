import Verif.Spec.Fork
import Verif.Spec.ExampleEvm
/-!
# Playing concrete executions on a chain with reorganizations

Like Spec/ExampleEvm.lean, for `Forked`. Blocks contain deposits only. Used for examples and counterexamples only.
-/

namespace EvmMinter
namespace Spec
open Helper

/-- What happens on the chain next. -/
inductive ChainAction where
  /-- the newer blocks are replaced -/
  | blocks (l : List (List (Call × EventSource)))
  | finalize

/-- What happens next. -/
inductive ForkAction where
  | start (msg : Message) (now : Nat)
  | execute (k : Nat)
  /-- a node answers the call of the task at position `k`, something happens on the chain, then the answer is delivered -/
  | answer (k : Nat) (a : ExtAnswer) (meanwhile : List ChainAction) (now : Nat)
  | chain (x : ChainAction)

/-- `Forking.Tells`, evaluated for the calls of the scraper. -/
def Forking.tells (f : Forking) (s : State) : ExtTask → ExtAnswer → Bool
  | .scrape (.observing _), .block (some n) => decide (n ≤ f.tipHeight) && (s.blockHeight != .finalized || decide (n ≤ f.height))
  | .scrape (.querying q), .logs (.logs l) => l.all fun e => f.tip.logs.any fun x =>
      decide (MinedLog e x.block x.src x.log ∧ q.current.start ≤ x.block ∧ x.block ≤ q.current.stop)
  | _, _ => false

theorem Forking.tells_iff {f : Forking} {s : State} {t : ExtTask} {a : ExtAnswer} (h : f.tells s t a = true) : f.Tells s t a := by
  unfold Forking.tells at h
  split at h
  · rw [Bool.and_eq_true, Bool.or_eq_true] at h
    refine ⟨of_decide_eq_true h.1, fun hs => ?_⟩
    rcases h.2 with h2 | h2
    · rw [hs] at h2; cases h2
    · exact of_decide_eq_true h2
  · intro e he
    obtain ⟨x, hx, hm⟩ := List.any_eq_true.1 (List.all_eq_true.1 h e he)
    exact ⟨x, hx, of_decide_eq_true hm⟩
  · cases h

variable [Keccak]

/-- The chain after a block `k` with the given deposits. -/
def forkBlock (minter helper t : Address) (k : BlockNumber) (v : Evm) : List (Call × EventSource) → Option Evm
  | [] => some v
  | (call, src) :: l =>
    if call.Typed ∧ call.sender ≠ minter ∧ t ≠ 0 then
      match Helper.deposit minter helper (oneToken t) call v.acc with
      | none => none
      | some (s, x) => forkBlock minter helper t k { v with acc := s, logs := v.logs ++ [⟨k, src, x⟩] } l
    else none

theorem forkBlock_in {minter helper t : Address} {k : BlockNumber} {u : Evm} : ∀ {l : List (Call × EventSource)} {v v' : Evm},
    InBlock minter helper (fun c => c = t) k u v → forkBlock minter helper t k v l = some v' → InBlock minter helper (fun c => c = t) k u v' := by
  intro l
  induction l with
  | nil => intro v v' h hv; cases hv; exact h
  | cons y l ih =>
    intro v v' h hv
    obtain ⟨call, src⟩ := y
    simp only [forkBlock] at hv
    split at hv
    · rename_i hh
      split at hv
      · cases hv
      · rename_i s x hd
        refine ih (.step v _ h (.deposit v (oneToken t) call s x k src (oneToken_behaved minter t hh.2.2) hh.1 hh.2.1 hd) ?_) hv
        intro y hy
        have hy : y ∈ (v.logs ++ [(⟨k, src, x⟩ : ChainLog)]).drop v.logs.length := hy
        rw [List.drop_left, List.mem_singleton] at hy
        rw [hy]
    · cases hv

/-- The chain after each of the blocks `k + 1`, `k + 2`, … -/
def forkBlocks (minter helper t : Address) (k : BlockNumber) (v : Evm) : List (List (Call × EventSource)) → Option (List Evm)
  | [] => some []
  | b :: l =>
    match forkBlock minter helper t (k + 1) v b with
    | none => none
    | some x => (forkBlocks minter helper t (k + 1) x l).map (x :: ·)

theorem forkBlocks_chained {minter helper t : Address} : ∀ {l : List (List (Call × EventSource))} {k : BlockNumber} {v : Evm} {head : List Evm},
    forkBlocks minter helper t k v l = some head → Chained minter helper (fun c => c = t) k v head := by
  intro l
  induction l with
  | nil => intro k v head h; cases h; trivial
  | cons b l ih =>
    intro k v head h
    simp only [forkBlocks] at h
    split at h
    · cases h
    · rename_i x hx
      obtain ⟨r, hr, rfl⟩ := Option.map_eq_some_iff.1 h
      exact ⟨forkBlock_in .start hx, ih hr⟩

/-- Carry out an action on the chain if it is possible. -/
def chainAct (minter helper t : Address) (depth : Nat) (f : Forking) : ChainAction → Option Forking
  | .blocks l =>
    match forkBlocks minter helper t f.height f.final l with
    | some head => if head.length ≤ depth then some { f with head := head } else none
    | none => none
  | .finalize =>
    match f.head with
    | v :: rest => some { f with final := v, height := f.height + 1, head := rest }
    | [] => none

theorem chainAct_step {minter helper t : Address} {depth : Nat} {f f' : Forking} {x : ChainAction}
    (h : chainAct minter helper t depth f x = some f') : ForkStep minter helper (fun c => c = t) depth f f' ∧ f'.replies = f.replies := by
  cases x with
  | blocks l =>
    simp only [chainAct] at h
    split at h
    · rename_i head hh
      split at h
      · rename_i hd; cases h; exact ⟨.reorg f head (forkBlocks_chained hh) hd, rfl⟩
      · cases h
    · cases h
  | finalize =>
    simp only [chainAct] at h
    split at h
    · rename_i v rest hh; cases h; exact ⟨.finalize f v rest hh, rfl⟩
    · cases h

def chainPlay (minter helper t : Address) (depth : Nat) (f : Forking) : List ChainAction → Option Forking
  | [] => some f
  | x :: l => (chainAct minter helper t depth f x).bind fun f' => chainPlay minter helper t depth f' l

theorem chainPlay_forked {minter helper t : Address} {depth : Nat} {w : World} : ∀ {l : List ChainAction} {f f' : Forking},
    Forked minter helper (fun c => c = t) depth w f → chainPlay minter helper t depth f l = some f' →
    Forked minter helper (fun c => c = t) depth w f' ∧ f'.replies = f.replies := by
  intro l
  induction l with
  | nil => intro f f' h hp; cases hp; exact ⟨h, rfl⟩
  | cons x l ih =>
    intro f f' h hp
    simp only [chainPlay, Option.bind_eq_some_iff] at hp
    obtain ⟨g, h1, h2⟩ := hp
    obtain ⟨k1, k2⟩ := chainAct_step h1
    obtain ⟨k3, k4⟩ := ih (.chain w f g h k1) h2
    exact ⟨k3, k4.trans k2⟩

/-- Carry out an action if it is possible. -/
def forkAct (minter helper t : Address) (depth : Nat) (x : World × Forking) : ForkAction → Option (World × Forking)
  | .start msg now =>
    if msg.Typed then
      match msg.run x.1.mem now with
      | .ok (c, n) => some ((x.1.begin msg).advance x.1.tasks [] x.1.nextId c n, x.2)
      | .error _ => none
    else none
  | .execute k =>
    match x.1.tasks[k]? with
    | some ⟨id, .ledger t, none⟩ =>
      if x.1.height (t.call x.1.mem.id).ledger < 2 ^ 64 then
        some ({ x.1 with
          blocks := x.1.blocks ++ [⟨t.call x.1.mem.id, some (id, t)⟩]
          tasks := x.1.tasks.take k ++ ⟨id, .ledger t, some (.block (x.1.height (t.call x.1.mem.id).ledger))⟩ :: x.1.tasks.drop (k + 1) }, x.2)
      else none
    | _ => none
  | .answer k a meanwhile now =>
    match x.1.tasks[k]? with
    | some ⟨id, .ext task, _⟩ =>
      if x.2.tells x.1.mem.m.st task a && decide a.Typed then
        match chainPlay minter helper t depth { x.2 with replies := x.2.replies ++ [(id, task, a)] } meanwhile, task.resume x.1.mem now a with
        | some f, some (.ok (c, n)) => some (x.1.advance (x.1.tasks.take k) (x.1.tasks.drop (k + 1)) id c n, f)
        | _, _ => none
      else none
    | _ => none
  | .chain y => (chainAct minter helper t depth x.2 y).map fun f => (x.1, f)

theorem forkAct_forked {minter helper t : Address} {depth : Nat} {x y : World × Forking} {a : ForkAction}
    (h : Forked minter helper (fun c => c = t) depth x.1 x.2) (ha : forkAct minter helper t depth x a = some y) :
    Forked minter helper (fun c => c = t) depth y.1 y.2 := by
  obtain ⟨w, f⟩ := x
  cases a with
  | start msg now =>
    simp only [forkAct] at ha
    split at ha
    · rename_i ht
      split at ha
      · rename_i c n hr
        cases ha
        refine .other w _ f h (.start w msg now c n ht hr) ?_
        rintro ⟨_, _, _, _, _, _, _, _, _, _, _, _, he⟩
        have : w.nextId + 1 = w.nextId := congrArg World.nextId he
        omega
      · cases ha
    · cases ha
  | execute k =>
    simp only [forkAct] at ha
    split at ha
    · rename_i id task hk
      split at ha
      · rename_i hb
        cases ha
        refine .other w _ f h (.execute w _ _ id task (split_at hk) hb) ?_
        rintro ⟨_, _, _, _, _, _, _, _, _, _, _, _, he⟩
        have : w.blocks ++ [⟨task.call w.mem.id, some (id, task)⟩] = w.blocks := congrArg World.blocks he
        simp at this
      · cases ha
    · cases ha
  | answer k a meanwhile now =>
    simp only [forkAct] at ha
    split at ha
    · rename_i id task o hk
      split at ha
      · rename_i hh
        rw [Bool.and_eq_true] at hh
        split at ha
        · rename_i g c n hg hr
          cases ha
          obtain ⟨k1, k2⟩ := chainPlay_forked (.reply w f id task o a h (List.mem_of_getElem? hk) (Forking.tells_iff hh.1)) hg
          exact .answer w g _ _ id task o a now c n k1 (split_at hk) (by rw [k2]; simp) (of_decide_eq_true hh.2) hr
        · cases ha
      · cases ha
    · cases ha
  | chain y =>
    simp only [forkAct, Option.map_eq_some_iff] at ha
    obtain ⟨g, h1, rfl⟩ := ha
    exact .chain w f g h (chainAct_step h1).1

/-- Carry out actions in order. -/
def forkPlay (minter helper t : Address) (depth : Nat) (x : World × Forking) : List ForkAction → Option (World × Forking)
  | [] => some x
  | a :: l => (forkAct minter helper t depth x a).bind fun y => forkPlay minter helper t depth y l

theorem forkPlay_forked {minter helper t : Address} {depth : Nat} {l : List ForkAction} : ∀ {x y : World × Forking},
    Forked minter helper (fun c => c = t) depth x.1 x.2 → forkPlay minter helper t depth x l = some y →
    Forked minter helper (fun c => c = t) depth y.1 y.2 := by
  induction l with
  | nil => intro x y h hp; cases hp; exact h
  | cons a l ih =>
    intro x y h hp
    simp only [forkPlay, Option.bind_eq_some_iff] at hp
    obtain ⟨z, h1, h2⟩ := hp
    exact ih (forkAct_forked h h1) h2

end Spec

namespace Example
open Spec Helper
variable [Keccak]

/-- A property of minter and chain after `init`, with the given balances and final block at the start, and some actions. -/
def forkAfter (addr helper t : Address) (depth : Nat) (arg : InitArg) (acc : Accounts) (height : BlockNumber) (l : List ForkAction)
    (p : World → Forking → Bool) : Bool :=
  match State.ofInit arg with
  | .ok s =>
    match forkPlay addr helper t depth (World.initial minter arg s [], ⟨⟨acc, 5, [], [], []⟩, height, [], []⟩) l with
    | some x => p x.1 x.2
    | none => false
  | .error _ => false

theorem forkAfter_forked {addr helper t : Address} {depth : Nat} {arg : InitArg} {acc : Accounts} {height : BlockNumber}
    {l : List ForkAction} {p : World → Forking → Bool} (h : forkAfter addr helper t depth arg acc height l p = true) :
    ∃ w f, Forked addr helper (fun c => c = t) depth w f ∧ p w f = true := by
  unfold forkAfter at h
  split at h
  · rename_i s hs
    split at h
    · rename_i x hx
      exact ⟨x.1, x.2, forkPlay_forked (Forked.init minter arg s [] acc 5 height hs (by simp)) hx, h⟩
    · cases h
  · cases h

end Example
end EvmMinter
