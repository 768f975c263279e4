import Verif.Spec.Mint
/-!
# What a single message did
-/

namespace EvmMinter
namespace Spec

/-- The ledger blocks made by calls of message `id`. -/
def World.blocksOf (w : World) (id : Nat) : List Block := w.blocks.filter fun b => b.by'.map (·.1) == some id

/-- The events recorded by message `id`. -/
def World.eventsOf (w : World) (id : Nat) : List Event := (w.trace.filter fun x => x.1 == id).map (·.2)

/-- `w'` comes after `w`. -/
inductive Leads [Keccak] : World → World → Prop where
  | refl (w : World) : Leads w w
  | step (w w' w'' : World) : Leads w w' → Step w' w'' → Leads w w''

/-- `w₀` is the world in which message `id` of `w` arrived: the next step starts it. -/
structure Arrived [Keccak] (w₀ w : World) (id : Nat) : Prop where
  reachable : Reachable w₀
  next : w₀.nextId = id
  starts : ∃ w₁, Step w₀ w₁ ∧ w₁.nextId = id + 1 ∧ Leads w₁ w

end Spec
end EvmMinter
