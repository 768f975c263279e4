import Verif.Spec.Watch
import Verif.Props.C71
/-!
# Endless executions in which withdrawals are served

`Serving ρ α N`: from time `N` on the timer that sends withdrawals fires again and again, its calls return, and the answers are of use.
`α i` is the answer that this task receives at time `i` (see Spec/Watch.lean). Before `N` anything may fail.

`Mines ρ α`: the chain mines, in the order of the nonces, what it is offered again and again.
-/

namespace EvmMinter
namespace Spec
variable [Keccak]

/-- At time `i` task `t` receives the answer `a`. -/
def Hears (ρ : Nat → World) (α : Nat → ExtAnswer) (i : Nat) (t : ExtTask) (a : ExtAnswer) : Prop :=
  Receives (ρ i) (ρ (i + 1)) t a ∧ α i = a

/-- The task is part of a round of `process_retrieve_tokens_requests`. -/
def _root_.EvmMinter.ExtTask.retrieves : ExtTask → Bool
  | .retrieveGas | .retrieveCount _ | .retrieveSign _ _ | .retrieveSend _ | .retrieveFinalizedCount | .retrieveReceipts _ => true
  | _ => false

/-- What is burned on the ledgers was minted there (see C75), and the native ledger is not the ledger of a token (see C54). -/
structure World.Sound (w : World) : Prop where
  native : w.burned w.mem.m.st.nativeLedgerId ≤ w.minted w.mem.m.st.nativeLedgerId
  limit : w.burned w.mem.m.st.nativeLedgerId < 2 ^ 256 - 1
  distinct : w.mem.m.st.erc20Tokens.getEntry w.mem.m.st.nativeLedgerId = none
  tokens : ∀ ledger c sym, w.mem.m.st.erc20Tokens.getEntry ledger = some (c, sym) → w.burned ledger ≤ w.minted ledger

structure Serving (ρ : Nat → World) (α : Nat → ExtAnswer) (N : Nat) : Prop where
  /-- Before `N` no upgrade lowers the next nonce, from `N` on there is no upgrade. -/
  nonce : NonceNeverLowered (ρ N).mem.m.log
  stays : ∀ i, N ≤ i → ∀ b, Event.syncedToBlock b ∉ (ρ i).since (ρ N)
  /-- When an answer is received, `α` says which. -/
  told : ∀ i, N ≤ i → ∀ t a, t.retrieves = true → Receives (ρ i) (ρ (i + 1)) t a → Receives (ρ i) (ρ (i + 1)) t (α i)
  /-- The timer fires again and again, when there is a recent estimate of the gas price or nobody else fetches one. -/
  interval : ∀ i, ∃ j cached, i ≤ j ∧ Starts (ρ j) (ρ (j + 1)) (.retrieve cached) ∧
    (cached ≠ none ∨ TaskType.refreshGasFeeEstimate ∉ (ρ j).mem.active)
  /-- Calls return, and their callbacks run. -/
  returns : ∀ i, N ≤ i → ∀ id t o, t.retrieves = true → ⟨id, .ext t, o⟩ ∈ (ρ i).tasks → ∃ j, i ≤ j ∧ ∀ o', ⟨id, .ext t, o'⟩ ∉ (ρ j).tasks
  /-- No callback is made to trap. -/
  calm : ∀ i, N ≤ i → ∀ id, (id, .killed) ∈ (ρ (i + 1)).finished → (id, .killed) ∈ (ρ i).finished
  /-- The gas price can be estimated, and is not zero. -/
  price : ∀ i, N ≤ i → ∀ a, Hears ρ α i .retrieveGas (.gas a) → a ≠ none
  positive : ∀ i, N ≤ i → ∀ id g o, ⟨id, .ext (.retrieveCount g), o⟩ ∈ (ρ i).tasks → 0 < g.baseFeePerGas ∨ 0 < g.maxPriorityFeePerGas
  /-- The transaction counts are returned. -/
  latest : ∀ i, N ≤ i → ∀ g a, Hears ρ α i (.retrieveCount g) (.count a) → a ≠ none
  finalized : ∀ i, N ≤ i → ∀ a, Hears ρ α i .retrieveFinalizedCount (.count a) → a ≠ none
  /-- All signatures are returned. -/
  signed : ∀ i, N ≤ i → ∀ count batch sigs, Hears ρ α i (.retrieveSign count batch) (.signatures sigs) →
    batch.length ≤ sigs.length ∧ none ∉ sigs
  /-- The receipts that are returned are those of mined transactions. -/
  mined : ∀ i, N ≤ i → ∀ f l, Hears ρ α i (.retrieveReceipts f) (.receipts l) → ∃ ans, l = f.keys.map ans ∧ Mined (ρ i).mem.m.st f ans
  /-- Amounts and nonces are far from the largest numbers, and no hashes collide. -/
  amounts : ∀ i, N ≤ i → ∀ q, Event.acceptedNativeWithdrawalRequest q ∈ (ρ i).mem.m.log → q.withdrawalAmount < 2 ^ 256 - 1
  tokens : ∀ i, N ≤ i → ∀ q, Event.acceptedErc20WithdrawalRequest q ∈ (ρ i).mem.m.log → 0 < q.withdrawalAmount
  nonces : ∀ i, N ≤ i → (ρ i).mem.m.st.txs.nextNonce + 5 < 2 ^ 256
  hashes : ∀ i, N ≤ i → ∀ n i₁ l n' i₂ l', (ρ i).mem.m.st.txs.sent.getEntry n = some (i₁, l) →
    (ρ i).mem.m.st.txs.sent.getEntry n' = some (i₂, l') → ∀ x ∈ l, ∀ y ∈ l', x.transaction.hash = y.transaction.hash → i₁ = i₂
  sound : ∀ i, N ≤ i → (ρ i).Sound

/-- The transaction with nonce `n` is before the chain: at time `j` a round hands it to the providers, or they report that it is mined. -/
def Offered (ρ : Nat → World) (α : Nat → ExtAnswer) (n : TransactionNonce) (j : Nat) : Prop :=
  (∃ id batch o, ⟨id, .ext (.retrieveSend batch), o⟩ ∈ (ρ j).tasks ∧ ∃ x ∈ batch, x.tx.nonce = n) ∨
    ∃ g k, Hears ρ α j (.retrieveCount g) (.count (some k)) ∧ n < k

/-- If the transactions with smaller nonces are done with, and the transaction with nonce `n` is offered to the chain again and again, then
in the end the finalized transaction count that is reported includes it. -/
def Mines (ρ : Nat → World) (α : Nat → ExtAnswer) : Prop :=
  ∀ n e, (∀ i, e ≤ i → ∀ n' < n, ¬ InUse (ρ i).mem.m.st n') → (∀ i, ∃ j, i ≤ j ∧ Offered ρ α n j) →
    ∃ M, ∀ i, M ≤ i → ∀ k, Hears ρ α i .retrieveFinalizedCount (.count (some k)) → n < k

end Spec
end EvmMinter
