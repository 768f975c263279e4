import Verif.Model.Tasks
import Verif.Model.Upgrade
import Verif.Spec.Live
/-!
# Executions of the minter with its ledgers

`Reachable w`: the world `w` (memory of the minter, its suspended tasks, and the ledgers) can come about. Messages are
atomic. Between two messages of a task any other message may run: calls and answers are delivered in any order, ledgers may
accept, refuse or reject a call, and a trap may hit any callback, whatever it is about to do.

Assumptions on the environment:
* a ledger that answers with an error or rejects the call has not executed it, an executed transaction is one new block, and
  the answer carries the index of that block (index = number of earlier blocks of the ledger, less than `2^64`);
* a `transfer_from` without `fee` and `created_at_time` is not refused with `BadFee`, `TooOld`, `CreatedInFuture` or
  `Duplicate`, and `BadBurn` is an answer to burns only;
* only the minter mints;
* the canister is upgraded when no call is outstanding (it is stopped first);
* the destructors that run after a trap do not trap themselves for lack of resources.
-/

namespace EvmMinter
namespace Spec

/-- A block of a ledger. Ghost `by`: the task, with its id, that made the call; `none` for other callers. -/
structure Block where
  call : LedgerCall
  by' : Option (Nat × LedgerTask)
deriving DecidableEq

/-- A suspended task with its id; `answer` is the answer of the ledger if it is on the way back. -/
structure Pending where
  id : Nat
  task : Task
  answer : Option LedgerAnswer

/-- How a message ended: with a reply, by a trap of its code, or by a trap injected into one of its callbacks. -/
inductive Outcome where
  | replied (r : Option Reply)
  | trapped
  | killed
deriving DecidableEq

/-- Ghost components: `started`, `finished` (all messages so far with their ids, and how they ended) and `trace` (the events
recorded so far with the id of the message that recorded them, upgrades excepted). -/
structure World where
  mem : Mem
  blocks : List Block
  tasks : List Pending
  nextId : Nat
  started : List (Nat × Message)
  finished : List (Nat × Outcome)
  trace : List (Nat × Event)

/-- The number of blocks of a ledger. -/
def World.height (w : World) (ledger : Principal) : Nat := (w.blocks.filter fun b => b.call.ledger == ledger).length

/-- The errors a ledger may return. -/
def MayRefuse : LedgerOp → TransferError → Prop
  | .mint _ _, _ => True
  | .burn _ _, e => e ≠ .badFee ∧ e ≠ .tooOld ∧ e ≠ .createdInFuture ∧ e ≠ .duplicate
  | .transfer _ _ _, e => e ≠ .badFee ∧ e ≠ .tooOld ∧ e ≠ .createdInFuture ∧ e ≠ .duplicate ∧ e ≠ .badBurn

/-- Not a mint. -/
def _root_.EvmMinter.LedgerOp.Foreign : LedgerOp → Prop
  | .mint _ _ => False
  | _ => True

/-- Numbers in messages are 256-bit words. -/
def _root_.EvmMinter.Message.Typed : Message → Prop
  | .retrieve (some g) => g.Bounded
  | .withdrawErc20 _ _ _ _ (some g) => g.Bounded
  | _ => True

/-- Numbers in answers are 256-bit words. -/
def _root_.EvmMinter.ExtAnswer.Typed : ExtAnswer → Prop
  | .gas (some g) => g.Bounded
  | .block (some n) => n < U256
  | _ => True

/-- The suspended task, if any. -/
def _root_.EvmMinter.Next.pending (id : Nat) : Next → List Pending
  | .await t => [⟨id, t, none⟩]
  | .finish _ => []

/-- The end of the message, if it is one. -/
def _root_.EvmMinter.Next.finished (id : Nat) : Next → List (Nat × Outcome)
  | .await _ => []
  | .finish r => [(id, .replied r)]

/-- The events recorded between two memories, tagged. -/
def newEvents (id : Nat) (c c' : Mem) : List (Nat × Event) := (c'.m.log.drop c.m.log.length).map fun e => (id, e)

/-- Message `id` ran from memory `w.mem` to `c` and goes on with `n`; `pre` and `post` are the other tasks. -/
def World.advance (w : World) (pre post : List Pending) (id : Nat) (c : Mem) (n : Next) : World :=
  { w with
    mem := c
    tasks := pre ++ n.pending id ++ post
    finished := w.finished ++ n.finished id
    trace := w.trace ++ newEvents id w.mem c }

/-- Message `id` ended with `o` and memory `c`. -/
def World.drop (w : World) (pre post : List Pending) (id : Nat) (c : Mem) (o : Outcome) : World :=
  { w with
    mem := c
    tasks := pre ++ post
    finished := w.finished ++ [(id, o)]
    trace := w.trace ++ newEvents id w.mem c }

/-- A new message. -/
def World.begin (w : World) (msg : Message) : World :=
  { w with nextId := w.nextId + 1, started := w.started ++ [(w.nextId, msg)] }

inductive Step [Keccak] : World → World → Prop where
  /-- A timer fires or an endpoint is called. -/
  | start (w : World) (msg : Message) (now : Nat) (c : Mem) (n : Next) : msg.Typed →
      msg.run w.mem now = .ok (c, n) → Step w ((w.begin msg).advance w.tasks [] w.nextId c n)
  /-- The first part of a message traps: nothing is changed. -/
  | startTrap (w : World) (msg : Message) (now : Nat) (e : String) : msg.Typed → msg.run w.mem now = .error e →
      Step w ((w.begin msg).drop w.tasks [] w.nextId w.mem .trapped)
  /-- The ledger executes a call. -/
  | execute (w : World) (pre post : List Pending) (id : Nat) (t : LedgerTask) : w.tasks = pre ++ ⟨id, .ledger t, none⟩ :: post →
      w.height (t.call w.mem.id).ledger < 2 ^ 64 →
      Step w { w with
        blocks := w.blocks ++ [⟨t.call w.mem.id, some (id, t)⟩]
        tasks := pre ++ ⟨id, .ledger t, some (.block (w.height (t.call w.mem.id).ledger))⟩ :: post }
  /-- The ledger refuses a call. -/
  | refuse (w : World) (pre post : List Pending) (id : Nat) (t : LedgerTask) (e : TransferError) :
      w.tasks = pre ++ ⟨id, .ledger t, none⟩ :: post → MayRefuse (t.call w.mem.id).op e →
      Step w { w with tasks := pre ++ ⟨id, .ledger t, some (.refused e)⟩ :: post }
  /-- The call is rejected. -/
  | reject (w : World) (pre post : List Pending) (id : Nat) (t : LedgerTask) :
      w.tasks = pre ++ ⟨id, .ledger t, none⟩ :: post →
      Step w { w with tasks := pre ++ ⟨id, .ledger t, some .rejected⟩ :: post }
  /-- The answer of a ledger is delivered. -/
  | deliver (w : World) (pre post : List Pending) (id : Nat) (t : LedgerTask) (a : LedgerAnswer) (now : Nat) (c : Mem)
      (n : Next) : w.tasks = pre ++ ⟨id, .ledger t, some a⟩ :: post → t.resume w.mem a now = .ok (c, n) →
      Step w (w.advance pre post id c n)
  /-- The callback traps. -/
  | deliverTrap (w : World) (pre post : List Pending) (id : Nat) (t : LedgerTask) (a : LedgerAnswer) (now : Nat) (e : String)
      (c : Mem) : w.tasks = pre ++ ⟨id, .ledger t, some a⟩ :: post → t.resume w.mem a now = .error e →
      (Task.ledger t).cleanup w.mem = .ok c → Step w (w.drop pre post id c .trapped)
  /-- The callback is made to trap. -/
  | kill (w : World) (pre post : List Pending) (id : Nat) (t : LedgerTask) (a : LedgerAnswer) (c : Mem) :
      w.tasks = pre ++ ⟨id, .ledger t, some a⟩ :: post → (Task.ledger t).cleanup w.mem = .ok c →
      Step w (w.drop pre post id c .killed)
  /-- An answer of another canister is delivered. -/
  | answer (w : World) (pre post : List Pending) (id : Nat) (t : ExtTask) (o : Option LedgerAnswer) (a : ExtAnswer) (now : Nat)
      (c : Mem) (n : Next) : w.tasks = pre ++ ⟨id, .ext t, o⟩ :: post → a.Typed → t.resume w.mem now a = some (.ok (c, n)) →
      Step w (w.advance pre post id c n)
  /-- The callback traps. -/
  | answerTrap (w : World) (pre post : List Pending) (id : Nat) (t : ExtTask) (o : Option LedgerAnswer) (a : ExtAnswer)
      (now : Nat) (e : String) (c : Mem) : w.tasks = pre ++ ⟨id, .ext t, o⟩ :: post → a.Typed →
      t.resume w.mem now a = some (.error e) → (Task.ext t).cleanup w.mem = .ok c → Step w (w.drop pre post id c .trapped)
  /-- The callback is made to trap. -/
  | killExt (w : World) (pre post : List Pending) (id : Nat) (t : ExtTask) (o : Option LedgerAnswer) (c : Mem) :
      w.tasks = pre ++ ⟨id, .ext t, o⟩ :: post → (Task.ext t).cleanup w.mem = .ok c → Step w (w.drop pre post id c .killed)
  /-- Someone else uses a ledger. -/
  | foreign (w : World) (call : LedgerCall) : call.op.Foreign → Step w { w with blocks := w.blocks ++ [⟨call, none⟩] }
  /-- A successful upgrade. -/
  | upgrade (w : World) (arg : Option MinterArg) (log : List Event) (s : State) : w.tasks = [] →
      postUpgrade (w.mem.m.log ++ [.syncedToBlock w.mem.m.st.lastScrapedBlockNumber]) arg = .ok (log, s) →
      Step w { w with mem := ⟨w.mem.id, ⟨s, log⟩, none, none, [], []⟩ }

/-- The world after `init` (main.rs:92-106). -/
def World.initial (id : Principal) (a : InitArg) (s : State) (blocks : List Block) : World :=
  ⟨⟨id, ⟨s, [.init a]⟩, none, none, [], []⟩, blocks, [], 0, [], [], []⟩

/-- The world can come about. The ledgers may already have blocks, none of them a mint. -/
inductive Reachable [Keccak] : World → Prop where
  | init (id : Principal) (a : InitArg) (s : State) (blocks : List Block) : State.ofInit a = .ok s →
      (∀ b ∈ blocks, b.by' = none ∧ b.call.op.Foreign) → Reachable (World.initial id a s blocks)
  | step (w w' : World) : Reachable w → Step w w' → Reachable w'

/-! ## Locks -/

/-- The caller whose withdrawal the task carries out. -/
def _root_.EvmMinter.Task.caller : Task → Option Principal
  | .ledger (.nativeFee q _ _ _) | .ledger (.nativeBurn q _ _ _) | .ledger (.nativeRefund q _ _ _) => some q.caller
  | .ledger (.erc20Fee q _) | .ledger (.erc20NativeBurn q _) | .ledger (.erc20TokenBurn q _ _)
  | .ledger (.erc20Refund q _ _) => some q.caller
  | .ext (.erc20Gas q) => some q.caller
  | _ => none

/-- The timer tasks that a suspended task is running; refreshing the gas fee estimate is part of three tasks. -/
def _root_.EvmMinter.Task.running : Task → List TaskType
  | .ledger (.mintUser _ _ _ _ _ _) | .ledger (.mintFee _ _ _ _ _ _ _) => [.mint]
  | .ledger (.reimburse _ _ _ _) => [.reimbursement]
  | .ext (.scrape _) => [.scrapLogs]
  | .ext .gas => [.refreshGasFeeEstimate]
  | .ext .retrieveGas => [.retrieveEth, .refreshGasFeeEstimate]
  | .ext (.retrieveCount _) | .ext (.retrieveSign _ _) | .ext (.retrieveSend _) | .ext .retrieveFinalizedCount
  | .ext (.retrieveReceipts _) => [.retrieveEth]
  | .ext (.erc20Gas _) => [.refreshGasFeeEstimate]
  | _ => []

end Spec
end EvmMinter
