import Verif.Spec.Evm
/-!
# A chain whose newest blocks may be replaced

`Forked minter helper good depth w f`: the world `w` of the minter and a chain `f` with a final part and up to `depth` newer blocks
can come about together. Unlike in Spec/Evm.lean the newer blocks may be replaced by others at any time (a reorganization), and what
happened in them is then taken back: balances, the nonce of the minter's address, logs and receipts. Nodes answer from the chain as
they see it when they answer; the answer may reach the minter much later, after a reorganization.

The assumptions of Spec/Evm.lean hold inside every block. Assumption on the providers (`Forking.Tells`): they describe the chain as
it is when they answer, up to delays, errors and omissions. The block tag `Finalized` stands for final blocks; nothing is known about
blocks named by the other tags except that they exist. Other calls (prices, the latest transaction count, sending, signatures) may be
answered arbitrarily.
-/

namespace EvmMinter
namespace Spec
open Helper

/-- The chain, and the answers of its nodes that are on the way: the id of the message, the call and the answer. -/
structure Forking where
  /-- after the last final block -/
  final : Evm
  /-- the number of the last final block -/
  height : BlockNumber
  /-- after each of the newer blocks, the oldest first -/
  head : List Evm
  replies : List (Nat × ExtTask × ExtAnswer)

/-- The chain after its newest block. -/
def Forking.tip (f : Forking) : Evm := f.head.getLast?.getD f.final

/-- The number of the newest block. -/
def Forking.tipHeight (f : Forking) : BlockNumber := f.height + f.head.length

section
variable [Keccak]

/-- What happens in block `k`. -/
inductive InBlock (minter helper : Address) (good : Address → Prop) (k : BlockNumber) (v : Evm) : Evm → Prop where
  | start : InBlock minter helper good k v v
  | step (v' v'' : Evm) : InBlock minter helper good k v v' → EvmStep minter helper good v' v'' →
      (∀ l ∈ v''.logs.drop v'.logs.length, l.block = k) → InBlock minter helper good k v v''

/-- Blocks `k + 1`, `k + 2`, … -/
def Chained (minter helper : Address) (good : Address → Prop) (k : BlockNumber) (v : Evm) : List Evm → Prop
  | [] => True
  | x :: l => InBlock minter helper good (k + 1) v x ∧ Chained minter helper good (k + 1) x l

/-- What happens on the chain. -/
inductive ForkStep (minter helper : Address) (good : Address → Prop) (depth : Nat) : Forking → Forking → Prop where
  /-- The newer blocks are replaced by any others, or followed by another. -/
  | reorg (f : Forking) (head : List Evm) : Chained minter helper good f.height f.final head → head.length ≤ depth →
      ForkStep minter helper good depth f { f with head := head }
  /-- The oldest of them becomes final. -/
  | finalize (f : Forking) (v : Evm) (rest : List Evm) : f.head = v :: rest →
      ForkStep minter helper good depth f { f with final := v, height := f.height + 1, head := rest }

/-- What a provider may answer to a call of the minter in state `s`. -/
def Forking.Tells (f : Forking) (s : State) : ExtTask → ExtAnswer → Prop
  | .scrape (.observing _), .block (some n) => n ≤ f.tipHeight ∧ (s.blockHeight = .finalized → n ≤ f.height)
  | .scrape (.querying q), .logs (.logs l) => ∀ e ∈ l, ∃ x ∈ f.tip.logs, MinedLog e x.block x.src x.log ∧
      q.current.start ≤ x.block ∧ x.block ≤ q.current.stop
  | .retrieveFinalizedCount, .count (some n) => n ≤ f.final.nonce
  | .retrieveReceipts m, .receipts l => l.length = m.toList.length ∧
      ∀ h i r, ((h, i), .ok (some r)) ∈ m.toList.zip l → r.transactionHash = h ∧ ∃ x ∈ f.tip.mined, x.receipt = r
  | _, _ => True

/-- An answer of another canister than a ledger is delivered. -/
def Answered (w w' : World) : Prop :=
  ∃ pre post id t o a now c n, w.tasks = pre ++ ⟨id, .ext t, o⟩ :: post ∧ a.Typed ∧ t.resume w.mem now a = some (.ok (c, n)) ∧
    w' = w.advance pre post id c n

/-- The nodes learn of a transaction, and keep it when blocks are replaced. -/
def Forking.learn (f : Forking) (x : SignedTx) : Forking :=
  { f with
    final := { f.final with sent := f.final.sent ++ [x] }
    head := f.head.map fun v => { v with sent := v.sent ++ [x] } }

/-- The minter and the chain. -/
inductive Forked (minter helper : Address) (good : Address → Prop) (depth : Nat) : World → Forking → Prop where
  | init (id : Principal) (a : InitArg) (s : State) (blocks : List Block) (acc : Accounts) (nonce : Nat) (height : BlockNumber) :
      State.ofInit a = .ok s → (∀ b ∈ blocks, b.by' = none ∧ b.call.op.Foreign) →
      Forked minter helper good depth (World.initial id a s blocks) ⟨⟨acc, nonce, [], [], []⟩, height, [], []⟩
  | chain (w : World) (f f' : Forking) : Forked minter helper good depth w f → ForkStep minter helper good depth f f' →
      Forked minter helper good depth w f'
  | send (w : World) (f : Forking) (x : SignedTx) : Forked minter helper good depth w f → w.Sending x →
      Forked minter helper good depth w (f.learn x)
  /-- A node answers a call. -/
  | reply (w : World) (f : Forking) (id : Nat) (t : ExtTask) (o : Option LedgerAnswer) (a : ExtAnswer) :
      Forked minter helper good depth w f → ⟨id, .ext t, o⟩ ∈ w.tasks → f.Tells w.mem.m.st t a →
      Forked minter helper good depth w { f with replies := f.replies ++ [(id, t, a)] }
  /-- The answer is delivered. -/
  | answer (w : World) (f : Forking) (pre post : List Pending) (id : Nat) (t : ExtTask) (o : Option LedgerAnswer) (a : ExtAnswer)
      (now : Nat) (c : Mem) (n : Next) : Forked minter helper good depth w f → w.tasks = pre ++ ⟨id, .ext t, o⟩ :: post →
      (id, t, a) ∈ f.replies → a.Typed → t.resume w.mem now a = some (.ok (c, n)) →
      Forked minter helper good depth (w.advance pre post id c n) f
  /-- Everything else that the minter and the ledgers do. -/
  | other (w w' : World) (f : Forking) : Forked minter helper good depth w f → Step w w' → ¬ Answered w w' →
      Forked minter helper good depth w' f

end

/-- The minter does not look at blocks that may be replaced: it keeps a distance from the newest block that no reorganization
exceeds, or it only ever asks for final blocks. -/
def Careful (depth : Nat) (log : List Event) : Prop :=
  (∀ a, .init a ∈ log → depth ≤ a.evmNetwork.margin) ∨
  ((∀ a, .init a ∈ log → a.blockHeight = .finalized) ∧ ∀ u b, .upgrade u ∈ log → u.blockHeight = some b → b = .finalized)

end Spec
end EvmMinter
