import Verif.Spec.Trace
/-!
# Versions of one transaction
-/

namespace EvmMinter.Spec

/-- Transaction `y` pays more than `x`: neither fee is lower, one is higher, and the priority fee is at least 10% higher unless it is the
largest there is. -/
structure Raised (x y : Tx) : Prop where
  prio : x.maxPriorityFeePerGas ≤ y.maxPriorityFeePerGas
  fee : x.maxFeePerGas ≤ y.maxFeePerGas
  more : x.maxPriorityFeePerGas + x.maxFeePerGas < y.maxPriorityFeePerGas + y.maxFeePerGas
  tenth : 11 * x.maxPriorityFeePerGas ≤ 10 * y.maxPriorityFeePerGas ∨ y.maxPriorityFeePerGas = 2 ^ 256 - 1

/-- The transactions signed for a withdrawal, in the order of the log. -/
def signedFor (i : LedgerBurnIndex) (log : List Event) : List SignedTx :=
  log.filterMap fun
    | .signedTransaction j x => if j = i then some x else none
    | _ => none

/-- Nodes of the chain accept `new` in place of a pending `old` with the same nonce: both fees are higher, and each by 10% of the old one. This
is the rule of the transaction pool of go-ethereum (`PriceBump` is 10, rounded down); it is no part of the repository. -/
structure NodeAccepts (old new : Tx) : Prop where
  fee : old.maxFeePerGas < new.maxFeePerGas
  prio : old.maxPriorityFeePerGas < new.maxPriorityFeePerGas
  feeBump : 110 * old.maxFeePerGas / 100 ≤ new.maxFeePerGas
  prioBump : 110 * old.maxPriorityFeePerGas / 100 ≤ new.maxPriorityFeePerGas

instance (old new : Tx) : Decidable (NodeAccepts old new) :=
  decidable_of_iff (old.maxFeePerGas < new.maxFeePerGas ∧ old.maxPriorityFeePerGas < new.maxPriorityFeePerGas ∧
      110 * old.maxFeePerGas / 100 ≤ new.maxFeePerGas ∧ 110 * old.maxPriorityFeePerGas / 100 ≤ new.maxPriorityFeePerGas)
    ⟨fun h => ⟨h.1, h.2.1, h.2.2.1, h.2.2.2⟩, fun h => ⟨h.1, h.2, h.3, h.4⟩⟩

/-- What a node holds that held `x` and is offered `y`. -/
def offer (x y : SignedTx) : SignedTx := if NodeAccepts x.tx y.tx then y else x

/-- What a node holds that is offered the versions of a transaction one after the other. -/
def nodeHolds : List SignedTx → Option SignedTx
  | [] => none
  | x :: l => some (l.foldl offer x)

end EvmMinter.Spec
