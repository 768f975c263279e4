import Verif.Model.DepositHelper
import Verif.Spec.Solvency
import Verif.Spec.History
/-!
# The minter and the chain together

`Joint minter helper good w v`: the world `w` of the minter and the state `v` of the EVM chain can come about together. The chain
is seen as far as it concerns the minter's address and the helper contract. Only final blocks are considered, so nothing that has
happened is taken back.

Assumptions on the chain, all visible in `EvmStep`:
* nobody but its owner takes native tokens, or tokens of a good contract, from the minter's address;
* a transaction of the minter's address is one that the minter has sent (nobody else can sign for the address), has the next
  nonce of the address, and pays and moves no more than EIP-1559 and ERC-20 say;
* `transferFrom` of a good token contract moves the tokens or fails; nothing is assumed of other contracts.

Assumption on the providers (`Evm.Tells`): logs and receipts that the minter acts upon are on the chain. Delays, errors and
omissions are not excluded.

A contract called by `deposit` may itself call `deposit` before it returns. Such an inner call is a step of its own that comes
before the outer one.
-/

namespace EvmMinter
namespace Spec
open Helper

/-- The chain. -/
structure Evm where
  acc : Accounts
  /-- the nonce of the minter's address -/
  nonce : Nat
  /-- the events that the helper contract emitted -/
  logs : List ChainLog
  /-- the transactions from the minter's address with their receipts -/
  mined : List FinalizedTx
  /-- transactions known to the nodes, sent by the minter -/
  sent : List SignedTx

/-- The minter's address loses nothing. -/
structure Harmless (minter : Address) (good : Address → Prop) (s s' : Accounts) : Prop where
  native : s.native minter ≤ s'.native minter
  tokens : ∀ c, good c → s.tokens c minter ≤ s'.tokens c minter

/-- What is assumed of the contracts called by `deposit`. There is no contract at the zero address. -/
structure Behaved (minter : Address) (good : Address → Prop) (env : Callees) : Prop where
  zero : ∀ a b n s, env.transferFrom 0 a b n s = none
  standard : ∀ c a b n s s', good c → env.transferFrom c a b n s = some s' →
    s'.native = s.native ∧ (∀ c', c' ≠ c → s'.tokens c' = s.tokens c') ∧ transfer (s.tokens c) a b n = some (s'.tokens c)
  other : ∀ c a b n s s', ¬ good c → env.transferFrom c a b n s = some s' → Harmless minter good s s'

/-- The call data of `transfer(to, value)` (ERC-20, ABI). -/
def transferCall (to : Address) (value : Nat) : Bytes :=
  [0xa9, 0x05, 0x9c, 0xbb] ++ [0, 0, 0, 0, 0, 0, 0, 0, 0, 0, 0, 0] ++ toBE 20 to ++ toBE 32 value

/-- What a mined transaction takes from the minter's address: at most the fee and the value; of a good token, at most what the
transaction tells the contract to transfer, nothing if it fails, goes elsewhere or carries no data. Nothing is said of other
calls of token contracts. -/
structure Effect (minter : Address) (good : Address → Prop) (f : FinalizedTx) (s s' : Accounts) : Prop where
  native : s.native minter ≤ s'.native minter + feePaid f + valueSent f
  others : ∀ c, good c → (f.signed.tx.destination ≠ c ∨ f.receipt.status = .failure ∨ f.signed.tx.data = []) →
    s.tokens c minter ≤ s'.tokens c minter
  token : ∀ c to value, good c → value < 2 ^ 256 → f.signed.tx.data = transferCall to value →
    s.tokens c minter ≤ s'.tokens c minter + value

section
variable [Keccak]

/-- What happens on the chain. -/
inductive EvmStep (minter helper : Address) (good : Address → Prop) : Evm → Evm → Prop where
  /-- Transactions of others. -/
  | other (v : Evm) (s : Accounts) : Harmless minter good v.acc s → EvmStep minter helper good v { v with acc := s }
  /-- A successful call of `deposit`, included in block `b` at position `src`. -/
  | deposit (v : Evm) (env : Callees) (call : Call) (s : Accounts) (x : DepositLog) (b : BlockNumber) (src : EventSource) :
      Behaved minter good env → call.Typed → call.sender ≠ minter → Helper.deposit minter helper env call v.acc = some (s, x) →
      EvmStep minter helper good v { v with acc := s, logs := v.logs ++ [⟨b, src, x⟩] }
  /-- A transaction of the minter's address. -/
  | mine (v : Evm) (f : FinalizedTx) (s : Accounts) : f.signed ∈ v.sent → f.signed.tx.nonce = v.nonce →
      f.receipt.gasUsed ≤ f.signed.tx.gasLimit → f.receipt.effectiveGasPrice ≤ f.signed.tx.maxFeePerGas →
      f.receipt.transactionHash = f.signed.hash → Effect minter good f v.acc s →
      EvmStep minter helper good v { v with acc := s, nonce := v.nonce + 1, mined := v.mined ++ [f] }

/-- What a provider may answer: logs that were emitted, receipts of transactions that were mined. -/
def Evm.Tells (v : Evm) : ExtAnswer → Prop
  | .logs (.logs l) => ∀ e ∈ l, ∃ x ∈ v.logs, MinedLog e x.block x.src x.log
  | .receipts l => ∀ r, .ok (some r) ∈ l → ∃ f ∈ v.mined, f.receipt = r
  | _ => True

/-- The event claims that something happened on the chain. -/
def _root_.EvmMinter.Event.Claims (e : Event) : Prop := (∃ d, e.deposit? = some d) ∨ ∃ i r, e = .finalizedTransaction i r

/-- A step of the minter in which it is not told anything false about deposits and transactions: either it records nothing about
them, or it does so after a true answer. -/
def Told (v : Evm) (w w' : World) : Prop :=
  (∀ e ∈ w'.since w, ¬ e.Claims) ∨
  ∃ pre post id t o a now c n, w.tasks = pre ++ ⟨id, .ext t, o⟩ :: post ∧ t.resume w.mem now a = some (.ok (c, n)) ∧
    w' = w.advance pre post id c n ∧ v.Tells a

/-- The minter is about to send the transaction: the call of `eth_sendRawTransaction` is on its way. -/
def World.Sending (w : World) (x : SignedTx) : Prop :=
  ∃ id batch a, ⟨id, .ext (.retrieveSend batch), a⟩ ∈ w.tasks ∧ x ∈ batch

/-- The minter and the chain. At the start nothing was deposited, and the minter's address has sent nothing that the minter
signed. -/
inductive Joint (minter helper : Address) (good : Address → Prop) : World → Evm → Prop where
  | init (id : Principal) (a : InitArg) (s : State) (blocks : List Block) (acc : Accounts) (nonce : Nat) : State.ofInit a = .ok s →
      (∀ b ∈ blocks, b.by' = none ∧ b.call.op.Foreign) →
      Joint minter helper good (World.initial id a s blocks) ⟨acc, nonce, [], [], []⟩
  | minter (w w' : World) (v : Evm) : Joint minter helper good w v → Step w w' → Told v w w' → Joint minter helper good w' v
  | chain (w : World) (v v' : Evm) : Joint minter helper good w v → EvmStep minter helper good v v' → Joint minter helper good w v'
  | send (w : World) (v : Evm) (x : SignedTx) : Joint minter helper good w v → w.Sending x →
      Joint minter helper good w { v with sent := v.sent ++ [x] }

/-- The principal written in a word, if it may be credited. -/
def principalOf (x : Bytes) : Option Principal :=
  let p : Principal := ⟨(x.drop 1).take (x.headD 0).toNat⟩
  if Creditable p ∧ principalWord p = x then some p else none

/-- The deposit that a log stands for, if its principal may be credited. -/
def ChainLog.deposit? (l : ChainLog) : Option Deposit := (principalOf l.log.principal.1).map (l.log.deposit l.block l.src)

/-- The part of the chain that concerns the minter. -/
def Evm.chain (v : Evm) : EvmChain := ⟨v.logs.filterMap ChainLog.deposit?, v.mined⟩

/-- The hashes of two signed transactions of the log do not collide. -/
def NoCollision (log : List Event) : Prop :=
  ∀ i j x y, .signedTransaction i x ∈ log → .signedTransaction j y ∈ log → x.hash = y.hash → x = y

end

end Spec
end EvmMinter
