import Verif.Model.GasFee
import Verif.Spec.World
/-!
# Executions with fee estimates

In `Reachable` a message may find any estimate in the cache, and any estimate may come back from the fee history. In
`Priced w cache h` the estimates are those that `lazy_refresh_gas_fee_estimate` makes: `cache` is the field
`last_transaction_price_estimate`, and `h` lists when messages began and which fee histories arrived, in this order.
-/

namespace EvmMinter
namespace Spec

/-- What matters for estimates. -/
inductive PriceStep where
  /-- Message `id` began. -/
  | began (id now : Nat)
  /-- A fee history arrived for message `id`, when the configured minimum of the priority fee was `minimum`. -/
  | answered (id now : Nat) (minimum : WeiPerGas) (history : FeeHistory)

/-- The estimate that a message finds in the cache, if it looks for one (withdraw.rs:158, main.rs:677). -/
def _root_.EvmMinter.Message.estimate? : Message → Option (Option GasFeeEstimate)
  | .retrieve cached => some cached
  | .withdrawErc20 _ _ _ _ cached => some cached
  | _ => none

/-- The task waits for a fee history. -/
def _root_.EvmMinter.Task.AwaitsFees : Task → Prop
  | .ext .gas | .ext .retrieveGas | .ext (.erc20Gas _) => True
  | _ => False

section
variable [Keccak]

/-- Executions with the cached estimate. -/
inductive Priced : World → CachedEstimate → List PriceStep → Prop where
  | init (id : Principal) (a : InitArg) (s : State) (blocks : List Block) : State.ofInit a = .ok s →
      (∀ b ∈ blocks, b.by' = none ∧ b.call.op.Foreign) → Priced (World.initial id a s blocks) none []
  /-- A message begins; it uses the cached estimate if that is recent enough. -/
  | start (w : World) (cache : CachedEstimate) (h : List PriceStep) (msg : Message) (now : Nat) (c : Mem) (n : Next) : Priced w cache h →
      (∀ e, msg.estimate? = some e → e = cachedEstimate cache now) → msg.run w.mem now = .ok (c, n) →
      Priced ((w.begin msg).advance w.tasks [] w.nextId c n) cache (h ++ [.began w.nextId now])
  /-- A call for the fee history returns. -/
  | fees (w : World) (cache cache' : CachedEstimate) (h : List PriceStep) (pre post : List Pending) (id : Nat) (t : ExtTask)
      (o : Option LedgerAnswer) (history : FeeHistory) (g : Option GasFeeEstimate) (now : Nat) (c : Mem) (n : Next) : Priced w cache h →
      w.tasks = pre ++ ⟨id, .ext t, o⟩ :: post → (Task.ext t).AwaitsFees →
      refreshEstimate cache w.mem.m.st.minMaxPriorityFeePerGas now (some history) = (cache', g) →
      t.resume w.mem now (.gas g) = some (.ok (c, n)) →
      Priced (w.advance pre post id c n) cache' (h ++ [.answered id now w.mem.m.st.minMaxPriorityFeePerGas history])
  /-- Any other step: no message begins to run, and tasks that wait for a fee history keep waiting or end. An upgrade loses the cache. -/
  | other (w w' : World) (cache cache' : CachedEstimate) (h : List PriceStep) : Priced w cache h → Step w w' →
      w'.nextId = w.nextId ∨ w'.mem = w.mem ∧ w'.tasks = w.tasks →
      (∀ p ∈ w.tasks, p.task.AwaitsFees → ∀ q ∈ w'.tasks, q.id = p.id → q = p) →
      cache' = cache ∨ cache' = none → Priced w' cache' h

end

/-- The estimate that message `id` may use: made from a fee history that arrived less than 30 seconds before the message began, or from
one that arrived for the message itself. -/
def Fresh (h : List PriceStep) (id : Nat) (g : GasFeeEstimate) : Prop :=
  ∃ before now after, h = before ++ .began id now :: after ∧
    ((∃ id' at' minimum history, .answered id' at' minimum history ∈ before ∧ estimateTransactionFee minimum history = .ok g ∧
        now < at' + 30000000000) ∨
     ∃ at' minimum history, .answered id at' minimum history ∈ after ∧ estimateTransactionFee minimum history = .ok g)

end Spec
end EvmMinter
