import Verif.Spec.World
/-!
# Mints for deposits

What the properties say about mints, in terms of the blocks of the ledgers.
-/

namespace EvmMinter
namespace Spec

/-- The block with index `i` of a ledger. -/
def World.blockAt (w : World) (ledger : Principal) (i : Nat) : Option Block :=
  (w.blocks.filter fun b => b.call.ledger == ledger)[i]?

/-- The call credits a user for the deposit from `src`: a mint whose memo names that transaction and log index. -/
def _root_.EvmMinter.LedgerCall.credits (src : EventSource) (c : LedgerCall) : Bool :=
  match c.op, c.memo with
  | .mint _ _, some (.mint (.convert _ tx i)) => (⟨tx, i⟩ : EventSource) == src
  | _, _ => false

/-- The call pays out a reimbursement: a mint whose memo names a withdrawal. -/
def _root_.EvmMinter.LedgerCall.reimburses (c : LedgerCall) : Bool :=
  match c.op, c.memo with
  | .mint _ _, some (.mint (.reimburseTransaction _ _)) | .mint _ _, some (.mint (.reimburseWithdrawal _)) => true
  | _, _ => false

/-- The amount that a call mints. -/
def _root_.EvmMinter.LedgerCall.mints (c : LedgerCall) : Nat :=
  match c.op with
  | .mint _ a => a
  | _ => 0

/-- The ledger for a deposit. -/
def LedgerFor (s : State) (d : Deposit) (ledger : Principal) : Prop :=
  match d with
  | .native _ => ledger = s.nativeLedgerId
  | .erc20 e => ∃ symbol, s.erc20Tokens.getEntryAlt e.erc20ContractAddress = some (ledger, symbol)

/-- The deposit recorded by an event, if it is the acceptance of one. -/
def _root_.EvmMinter.Event.deposit? : Event → Option Deposit
  | .acceptedDeposit d => some (.native d)
  | .acceptedErc20Deposit d => some (.erc20 d)
  | _ => none

/-- The accepted deposits. -/
def acceptedDeposits (log : List Event) : List Deposit := log.filterMap Event.deposit?

/-- What was minted on a ledger for deposits: credits and fees, that is everything that is not a reimbursement. -/
def World.mintedForDeposits (w : World) (ledger : Principal) : Nat :=
  ((w.blocks.filter fun b => b.call.ledger == ledger && !b.call.reimburses).map fun b => b.call.mints).sum

/-- Ghost: the deposit that a block was made for. -/
def Block.deposit (b : Block) : Option Deposit :=
  match b.by' with
  | some (_, .mintUser _ d _ _ _ _) | some (_, .mintFee _ d _ _ _ _ _) => some d
  | _ => none

/-- Ghost: everything minted for the deposit from `src`, to the user and as a fee. -/
def World.mintedFor (w : World) (src : EventSource) : Nat :=
  ((w.blocks.filter fun b => b.deposit.map Deposit.source == some src).map fun b => b.call.mints).sum

end Spec
end EvmMinter
