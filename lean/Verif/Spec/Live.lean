import Verif.Model.Withdraw
/-!
# Executions of the canister, at the granularity of audit events

`Run log s` describes the reachable canister memories: `log` is the audit log in stable memory and `s` the live
in-memory state. Each event is one that the code can emit in the current state (`Emits`, with the lines that emit
it). Besides events, the memory changes by rescheduling a request, by advancing the scraped block number, and by
an upgrade, which discards the state and replays the log.
-/

namespace EvmMinter

/-- The fields of an estimate are 256-bit numbers (tx.rs:609-612). -/
def GasFeeEstimate.Bounded (g : GasFeeEstimate) : Prop := g.baseFeePerGas < U256 ∧ g.maxPriorityFeePerGas < U256

/-- No reimbursement is known for the burn `i` on the native ledger. -/
def State.NotReimbursed (s : State) (i : LedgerBurnIndex) : Prop :=
  s.txs.reimbursementRequests.get (.native i) = none ∧ s.txs.reimbursed.get (.native i) = none

/-- No withdrawal request is known for the burn `i` on the native ledger. -/
def State.NotRequested (s : State) (i : LedgerBurnIndex) : Prop :=
  (∀ r ∈ s.txs.pending, r.burnIndex ≠ i) ∧ s.txs.processed.get i = none

/-- The event can be emitted by the code in state `s`. Outcomes of external calls are arbitrary,
except that the native ledger never returns the block index of a burn twice (`NotReimbursed`, `NotRequested`). -/
def Emits (s : State) : Event → Prop
  | .init _ => False
  -- lifecycle.rs:201, any arguments
  | .upgrade _ => True
  -- deposit.rs:459, any parsed log
  | .acceptedDeposit d => d.value < U256
  | .acceptedErc20Deposit d => d.value < U256
  -- deposit.rs:467
  | .invalidDeposit _ _ => True
  -- deposit.rs:174
  | .mintedNative src _ => ∃ d, s.eventsToMint.get src = some (.native d)
  | .mintedErc20 src _ symbol contract => ∃ d ledger, s.eventsToMint.get src = some (.erc20 d) ∧
      contract = d.erc20ContractAddress ∧ s.erc20Tokens.getEntryAlt contract = some (ledger, symbol)
  -- main.rs:125
  | .syncedToBlock b => b = s.lastScrapedBlockNumber
  -- deposit.rs:412
  | .skippedBlock _ => True
  -- main.rs:379: amounts are 256-bit numbers
  | .acceptedNativeWithdrawalRequest r => r.withdrawalAmount < U256 ∧ s.NotReimbursed r.ledgerBurnIndex ∧
      r.destination < 2 ^ 160
  -- main.rs:590: the token was looked up by its ledger id (main.rs:500)
  | .acceptedErc20WithdrawalRequest r => s.NotReimbursed r.nativeLedgerBurnIndex ∧
      r.withdrawalAmount < U256 ∧ r.maxTransactionFee < U256 ∧ r.destination < 2 ^ 160 ∧ ∃ symbol, s.erc20Tokens.getEntry r.erc20LedgerId = some (r.erc20ContractAddress, symbol)
  -- withdraw.rs:261
  | .createdTransaction i tx => ∃ r g, g.Bounded ∧ r ∈ s.txs.pending ∧ r.burnIndex = i ∧
      createTransaction r s.txs.nextNonce g (estimateGasLimit r) s.evmNetwork = .ok (.ok tx)
  -- withdraw.rs:304: the transactions to sign are the created ones
  | .signedTransaction i stx => ∃ c, s.txs.created.getEntry stx.tx.nonce = some (i, c) ∧ c.transaction = stx.tx
  -- withdraw.rs:222: the replacement is computed from the last transaction sent
  | .replacedTransaction i tx => ∃ l last g, g.Bounded ∧ s.txs.sent.getEntry tx.nonce = some (i, l) ∧
      l.getLast? = some last ∧ last.resubmit g = .ok (.replaced tx)
  -- withdraw.rs:427, any receipt
  | .finalizedTransaction _ _ => True
  -- withdraw.rs:108-130: the content is that of the request
  | .reimbursedNativeWithdrawal q => ∃ i rr, s.txs.reimbursementRequests.get (.native i) = some rr ∧
      q = ⟨q.reimbursedInBlock, rr.ledgerBurnIndex, rr.reimbursedAmount, rr.transactionHash⟩
  | .reimbursedErc20Withdrawal n l q => ∃ j rr, s.txs.reimbursementRequests.get (.erc20 n l j) = some rr ∧
      q = ⟨q.reimbursedInBlock, rr.ledgerBurnIndex, rr.reimbursedAmount, rr.transactionHash⟩
  -- main.rs:616
  | .failedErc20WithdrawalRequest rr => s.NotRequested rr.ledgerBurnIndex
  -- main.rs:698: addresses have 20 bytes
  | .addedErc20Token t => t.erc20ContractAddress < 2 ^ 160
  -- deposit.rs:50: the event is one that is being minted
  | .quarantinedDeposit src => ∃ d, s.eventsToMint.get src = some d
  -- withdraw.rs:60: the request is one that is being reimbursed
  | .quarantinedReimbursement x => ∃ rr, s.txs.reimbursementRequests.get x = some rr

/-- The canister can hold log `log` and state `s`. -/
inductive Run [Keccak] : List Event → State → Prop where
  /-- `init` (main.rs:92-106). -/
  | init (a : InitArg) (s : State) : State.ofInit a = .ok s → Run [.init a] s
  /-- `process_event` (state/audit.rs:155-158) with an event that the code emits. -/
  | event (log : List Event) (s : State) (e : Event) (s' : State) :
      Run log s → Emits s e → applyEvent s e = .ok s' → Run (log ++ [e]) s'
  /-- A request that cannot cover the fees goes to the end of the queue (withdraw.rs:279-282). -/
  | reschedule (log : List Event) (s : State) (r : Request) (t : Transactions) :
      Run log s → r ∈ s.txs.pending → s.txs.reschedule r = .ok t → Run log { s with txs := t }
  /-- The scraper advances (deposit.rs:405, 419). -/
  | scraped (log : List Event) (s : State) (b : BlockNumber) :
      Run log s → Run log { s with lastScrapedBlockNumber := b }
  /-- Upgrade: the state is replaced by the replayed log (lifecycle.rs:195-199). -/
  | restart (log : List Event) (s s' : State) : Run log s → replay log = .ok s' → Run log s'

end EvmMinter
