import Verif.Lemmas.Cbor
import Verif.Spec.Typed
/-!
# Events and memos are read back
-/

namespace EvmMinter
open Spec
namespace Cbor

theorem addr_lt {n : Nat} (h : Addr n) : n < 256 ^ 20 := h
theorem word_lt {n : Nat} (h : Word n) : n < 256 ^ 32 := h

theorem Reads.address {a : Address} (h : Addr a) : Reads readAddress (address a) a := .fixed (by decide) h
theorem Reads.hash {a : Hash} (h : Word a) : Reads readHash (hash a) a := .fixed (by decide) h
theorem Reads.bytes32 {a : Nat} (h : Word a) : Reads readBytes32 (bytes32 a) a := .fixed (by decide) h

/-- The last field. -/
theorem FReads.last {d : FieldDec α} {f : α → β} {x : Field} {a : α} (h : FReads d [x] a) :
    FReads (d >>= fun a => Pure.pure (f a)) [x] (f a) := FReads.cons h (FReads.pure _)

theorem Reads.ledgerSubaccount {n : Nat} (h : Word n) : Reads readLedgerSubaccount (ledgerSubaccount n) n :=
  .struct (.req (.u256 h)) (by simp)

theorem Reads.network (n : EvmNetwork) : Reads readNetwork (network n) n := by
  unfold Cbor.network readNetwork
  cases n <;> exact Reads.bind' (.u32 (by decide)) (.pure _)

theorem Reads.blockTag (t : BlockTag) : Reads readBlockTag (blockTag t) t := by
  unfold Cbor.blockTag readBlockTag
  cases t <;> exact Reads.bind' (.u32 (by decide)) (.pure _)

theorem Reads.chars {l : List Char} (h : Chars l) : Reads readChars (chars l) l := by
  refine (Reads.text h).bind' ?_
  rw [String.toList_ofList]
  exact .pure l

theorem Reads.eventSource {s : EventSource} (h : Spec.EventSource.Typed s) : Reads readEventSource (eventSource s) s :=
  .struct (.cons (.req (.hash h.1)) (.cons (.req (.u256 h.2)) (.pure _))) (by simp)

theorem fopt {d : Dec α} {e : α → Bytes} {o : Option α} {P : α → Prop} (h : Each P o) (hr : ∀ {a}, P a → Reads d (e a) a)
    (hn : ∀ a, NotNull (e a)) : FReads (readOpt d) [opt e o] o :=
  .opt fun a ha => ⟨hr (h a ha), hn a⟩

theorem foptWith {nil : Bool} {d : Dec α} {e : α → Bytes} {o : Option α} {P : α → Prop} (h : Each P o)
    (hr : ∀ {a}, P a → Reads d (e a) a) (hn : ∀ a, NotNull (e a)) : FReads (readOpt d) [optWith nil e o] o :=
  .optWith fun a ha => ⟨hr (h a ha), hn a⟩

theorem Reads.nativeDeposit {e : NativeDeposit} (h : Spec.NativeDeposit.Typed e) : Reads readNativeDeposit (nativeDeposit e) e :=
  .struct (.cons (.req (.hash h.hash)) <| .cons (.req (.u256 h.block)) <| .cons (.req (.u256 h.index)) <|
    .cons (.req (.address h.sender)) <| .cons (.req (.u256 h.value)) <| .cons (.req (.principal h.principal)) <|
    .cons (fopt h.subaccount .ledgerSubaccount fun _ => notNull_struct _) (.pure _)) (by simp)

theorem Reads.erc20Deposit {e : Erc20Deposit} (h : Spec.Erc20Deposit.Typed e) : Reads readErc20Deposit (erc20Deposit e) e :=
  .struct (.cons (.req (.hash h.hash)) <| .cons (.req (.u256 h.block)) <| .cons (.req (.u256 h.index)) <|
    .cons (.req (.address h.sender)) <| .cons (.req (.u256 h.value)) <| .cons (.req (.principal h.principal)) <|
    .cons (.req (.address h.contract)) <| .cons (fopt h.subaccount .ledgerSubaccount fun _ => notNull_struct _) (.pure _)) (by simp)

theorem Reads.accessListItem {i : AccessListItem} (h : Spec.AccessListItem.Typed i) :
    Reads readAccessListItem (accessListItem i) i :=
  .struct (.cons (.req (.address h.address)) <| .cons (.req (.vec h.short fun k hk => .bytes32 (h.keys k hk))) (.pure _)) (by simp)

theorem Reads.tx {t : Tx} (h : Spec.Tx.Typed t) : Reads readTx (tx t) t :=
  .struct (.cons (.req (.u64 h.chain)) <| .cons (.req (.u256 h.nonce)) <| .cons (.req (.u256 h.priority)) <|
    .cons (.req (.u256 h.maxFee)) <| .cons (.req (.u256 h.gas)) <| .cons (.req (.address h.destination)) <|
    .cons (.req (.u256 h.amount)) <| .cons (.req (.bytes h.data)) <|
    .cons (.req (.vec h.short fun i hi => .accessListItem (h.items i hi))) (.pure _)) (by simp)

theorem Reads.signature {s : Signature} (hr : Word s.r) (hs : Word s.s) : Reads readSignature (signature s) s :=
  .struct (.cons (.req (.bool _)) <| .cons (.req (.u256 hr)) <| .cons (.req (.u256 hs)) (.pure _)) (by simp)

theorem Reads.signedTx {t : SignedTx} (h : Spec.SignedTx.Typed t) : Reads readSignedTx (signedTx t) t :=
  .struct (.cons (.req (.tx h.tx)) <| .cons (.req (.signature h.r h.s)) (.pure _)) (by simp)

theorem Reads.status (s : TxStatus) : Reads readStatus (status s) s := by
  cases s
  · exact Reads.variant (c := ()) (g := fun _ => TxStatus.success) (by decide) (.pure ()) (by simp) rfl
  · exact Reads.variant (c := ()) (g := fun _ => TxStatus.failure) (by decide) (.pure ()) (by simp) rfl

theorem Reads.receipt {r : Receipt} (h : Spec.Receipt.Typed r) : Reads readReceipt (receipt r) r :=
  .struct (.cons (.req (.hash h.blockHash)) <| .cons (.req (.u256 h.block)) <| .cons (.req (.u256 h.price)) <|
    .cons (.req (.u256 h.gas)) <| .cons (.req (.status _)) <| .cons (.req (.hash h.hash)) (.pure _)) (by simp)

theorem notNull_u64 (n : Nat) : NotNull (Cbor.u64 n) := notNull_head (by omega) n

theorem Reads.nativeRequest {r : NativeRequest} (h : Spec.NativeRequest.Typed r) : Reads readNativeRequest (nativeRequest r) r :=
  .struct (.cons (.req (.u256 h.amount)) <| .cons (.req (.address h.destination)) <| .cons (.req (.id h.burn)) <|
    .cons (.req (.principal h.sender)) <| .cons (fopt h.subaccount .bytes32 fun _ => notNull_fixed _ _) <|
    .cons (fopt h.time .u64 notNull_u64) (.pure _)) (by simp)

theorem Reads.erc20Request {r : Erc20Request} (h : Spec.Erc20Request.Typed r) : Reads readErc20Request (erc20Request r) r :=
  .struct (.cons (.req (.u256 h.fee)) <| .cons (.req (.u256 h.amount)) <| .cons (.req (.address h.destination)) <|
    .cons (.req (.id h.burn)) <| .cons (.req (.address h.contract)) <| .cons (.req (.principal h.ledger)) <|
    .cons (.req (.id h.tokenBurn)) <| .cons (.req (.principal h.sender)) <|
    .cons (fopt h.subaccount .bytes32 fun _ => notNull_fixed _ _) <| .cons (.req (.u64 h.time)) (.pure _)) (by simp)

theorem Reads.reimbIndex {i : ReimbIndex} (h : Spec.ReimbIndex.Typed i) : Reads readReimbIndex (reimbIndex i) i := by
  cases i with
  | native b => exact Reads.variant (by decide) (.req (.id h)) (by simp) rfl
  | erc20 n l e =>
    exact Reads.variant (c := (n, l, e)) (g := fun x : Nat × Principal × Nat => ReimbIndex.erc20 x.1 x.2.1 x.2.2) (by decide)
      (.cons (.req (.id h.1)) <| .cons (.req (.principal h.2.1)) <| .cons (.req (.id h.2.2)) (.pure (n, l, e))) (by simp) rfl

theorem Reads.reimbRequest {r : ReimbRequest} (h : Spec.ReimbRequest.Typed r) : Reads readReimbRequest (reimbRequest r) r :=
  .struct (.cons (.req (.id h.burn)) <| .cons (.req (.u256 h.amount)) <| .cons (.req (.principal h.to)) <|
    .cons (fopt h.subaccount .bytes32 fun _ => notNull_fixed _ _) <|
    .cons (fopt h.hash .hash fun _ => notNull_fixed _ _) (.pure _)) (by simp)

theorem Reads.reimbursed {r : Reimbursed} (h : Spec.Reimbursed.Typed r) : Reads readReimbursed (reimbursed r) r :=
  .struct (.cons (.req (.id h.block)) <| .cons (.req (.id h.burn)) <| .cons (.req (.u256 h.amount)) <|
    .cons (fopt h.hash .hash fun _ => notNull_fixed _ _) (.pure _)) (by simp)

theorem Reads.erc20Token {t : Erc20Token} (h : Spec.Erc20Token.Typed t) : Reads readErc20Token (erc20Token t) t :=
  .struct (.cons (.req (.network _)) <| .cons (.req (.address h.contract)) <| .cons (.req (.text h.symbol)) <|
    .cons (.req (.principal h.ledger)) (.pure _)) (by simp)

theorem Reads.initArg {a : InitArg} (h : Spec.InitArg.Typed a) : Reads readInitArg (initArg a) a :=
  .struct (.cons (.req (.network _)) <| .cons (.req (.chars h.key)) <| .cons (fopt h.helper .chars fun _ => notNull_text _) <|
    .cons (.req (.principal h.ledger)) <| .cons (.req (.principal h.index)) <| .cons (.req (.text h.symbol)) <|
    .cons (.req (.blockTag _)) <| .cons (.req (.nat h.minimum)) <| .cons (.req (.nat h.transferFee)) <|
    .cons (.req (.nat h.nonce)) <| .cons (.req (.nat h.scraped)) <| .cons (.req (.nat h.priority)) <|
    .cons (.req (.principal h.manager)) <| .cons (.req (.nat h.depositFee)) <| .cons (.req (.nat h.withdrawalFee)) (.pure _)) (by simp)

theorem Reads.upgradeArg {nil : Bool} {a : UpgradeArg} (h : Spec.UpgradeArg.Typed a) :
    Reads readUpgradeArg (upgradeArg nil a) a :=
  .struct (.cons (foptWith h.nonce .nat notNull_nat) <| .cons (foptWith h.minimum .nat notNull_nat) <|
    .cons (fopt h.helper .chars fun _ => notNull_text _) <|
    .cons (fopt (P := fun _ => True) (fun _ _ => trivial) (fun {t} _ => .blockTag t) fun _ => notNull_u64 _) <|
    .cons (foptWith h.scraped .nat notNull_nat) <| .cons (foptWith h.rpc .principal notNull_principal) <|
    .cons (foptWith h.transferFee .nat notNull_nat) <| .cons (foptWith h.priority .nat notNull_nat) <|
    .cons (foptWith h.depositFee .nat notNull_nat) <| .cons (foptWith h.withdrawalFee .nat notNull_nat) (.pure _)) (by simp)

theorem FReads.pair {d : Dec α} {d' : Dec β} {b b' : Bytes} {x : α} {y : β} (h : Reads d b x) (h' : Reads d' b' y) :
    FReads (readPair d d') [Cbor.req b, Cbor.req b'] (x, y) :=
  .cons (.req h) <| .cons (.req h') (.pure _)

theorem Reads.payload {nil : Bool} {e : Event} (h : Spec.Event.Typed e) : Reads readPayload (payload nil e) e := by
  cases e with
  | init a => exact Reads.variant (g := Event.init) (by decide) (.req (.initArg h)) (by simp) rfl
  | upgrade a => exact Reads.variant (g := Event.upgrade) (by decide) (.req (.upgradeArg h)) (by simp) rfl
  | acceptedDeposit e => exact Reads.variant (g := Event.acceptedDeposit) (by decide) (.req (.nativeDeposit h)) (by simp) rfl
  | invalidDeposit s r =>
    exact Reads.variant (c := (s, r)) (g := fun x => Event.invalidDeposit x.1 x.2) (by decide) (.pair (.eventSource h.1) (.text h.2)) (by simp) rfl
  | mintedNative s i =>
    exact Reads.variant (c := (s, i)) (g := fun x => Event.mintedNative x.1 x.2) (by decide) (.pair (.eventSource h.1) (.id h.2)) (by simp) rfl
  | syncedToBlock n => exact Reads.variant (g := Event.syncedToBlock) (by decide) (.req (.u256 h)) (by simp) rfl
  | acceptedNativeWithdrawalRequest r =>
    exact Reads.variant (g := Event.acceptedNativeWithdrawalRequest) (by decide) (.req (.nativeRequest h)) (by simp) rfl
  | createdTransaction i t =>
    exact Reads.variant (c := (i, t)) (g := fun x => Event.createdTransaction x.1 x.2) (by decide) (.pair (.id h.1) (.tx h.2)) (by simp) rfl
  | signedTransaction i t =>
    exact Reads.variant (c := (i, t)) (g := fun x => Event.signedTransaction x.1 x.2) (by decide) (.pair (.id h.1) (.signedTx h.2)) (by simp) rfl
  | replacedTransaction i t =>
    exact Reads.variant (c := (i, t)) (g := fun x => Event.replacedTransaction x.1 x.2) (by decide) (.pair (.id h.1) (.tx h.2)) (by simp) rfl
  | finalizedTransaction i r =>
    exact Reads.variant (c := (i, r)) (g := fun x => Event.finalizedTransaction x.1 x.2) (by decide) (.pair (.id h.1) (.receipt h.2)) (by simp) rfl
  | reimbursedNativeWithdrawal r =>
    exact Reads.variant (g := Event.reimbursedNativeWithdrawal) (by decide) (.req (.reimbursed h)) (by simp) rfl
  | addedErc20Token t => exact Reads.variant (g := Event.addedErc20Token) (by decide) (.req (.erc20Token h)) (by simp) rfl
  | acceptedErc20Deposit e => exact Reads.variant (g := Event.acceptedErc20Deposit) (by decide) (.req (.erc20Deposit h)) (by simp) rfl
  | acceptedErc20WithdrawalRequest r =>
    exact Reads.variant (g := Event.acceptedErc20WithdrawalRequest) (by decide) (.req (.erc20Request h)) (by simp) rfl
  | mintedErc20 s i y c =>
    exact Reads.variant (c := (s, i, y, c)) (g := fun x : EventSource × Nat × String × Nat => Event.mintedErc20 x.1 x.2.1 x.2.2.1 x.2.2.2)
      (by decide) (.cons (.req (.eventSource h.1)) <| .cons (.req (.id h.2.1)) <| .cons (.req (.text h.2.2.1)) <|
        .cons (.req (.address h.2.2.2)) (.pure (s, i, y, c))) (by simp) rfl
  | reimbursedErc20Withdrawal n l r =>
    exact Reads.variant (c := (n, l, r)) (g := fun x : Nat × Principal × Reimbursed => Event.reimbursedErc20Withdrawal x.1 x.2.1 x.2.2)
      (by decide) (.cons (.req (.id h.1)) <| .cons (.req (.principal h.2.1)) <| .cons (.req (.reimbursed h.2.2)) (.pure (n, l, r))) (by simp) rfl
  | failedErc20WithdrawalRequest r =>
    exact Reads.variant (g := Event.failedErc20WithdrawalRequest) (by decide) (.req (.reimbRequest h)) (by simp) rfl
  | quarantinedDeposit s => exact Reads.variant (g := Event.quarantinedDeposit) (by decide) (.req (.eventSource h)) (by simp) rfl
  | quarantinedReimbursement i =>
    exact Reads.variant (g := Event.quarantinedReimbursement) (by decide) (.req (.reimbIndex h)) (by simp) rfl
  | skippedBlock n => exact Reads.variant (g := Event.skippedBlock) (by decide) (.req (.u256 h)) (by simp) rfl

theorem Reads.event {nil : Bool} {t : Nat} {e : Event} (ht : Word64 t) (h : Spec.Event.Typed e) :
    Reads readEvent (event nil t e) (t, e) :=
  .struct (.pair (.u64 ht) (.payload h)) (by simp)

theorem Reads.mintMemo {m : MintMemo} (h : Spec.MintMemo.Typed m) : Reads readMintMemo (mintMemo m) m := by
  cases m with
  | convert f x i =>
    exact Reads.variant (c := (f, x, i)) (g := fun x : Nat × Nat × Nat => MintMemo.convert x.1 x.2.1 x.2.2) (by decide)
      (.cons (.req (.address h.1)) <| .cons (.req (.hash h.2.1)) <| .cons (.req (.u256 h.2.2)) (.pure (f, x, i))) (by simp) rfl
  | reimburseTransaction w x =>
    exact Reads.variant (c := (w, x)) (g := fun x => MintMemo.reimburseTransaction x.1 x.2) (by decide) (.pair (.u64 h.1) (.hash h.2)) (by simp) rfl
  | reimburseWithdrawal w => exact Reads.variant (g := MintMemo.reimburseWithdrawal) (by decide) (.req (.u64 h)) (by simp) rfl

theorem Reads.burnMemo {m : BurnMemo} (h : Spec.BurnMemo.Typed m) : Reads readBurnMemo (burnMemo m) m := by
  cases m with
  | convert t => exact Reads.variant (g := BurnMemo.convert) (by decide) (.req (.address h)) (by simp) rfl
  | erc20GasFee y a t =>
    exact Reads.variant (c := (y, a, t)) (g := fun x : String × Nat × Nat => BurnMemo.erc20GasFee x.1 x.2.1 x.2.2) (by decide)
      (.cons (.req (.text h.1)) <| .cons (.req (.u256 h.2.1)) <| .cons (.req (.address h.2.2)) (.pure (y, a, t))) (by simp) rfl
  | erc20Convert w t =>
    exact Reads.variant (c := (w, t)) (g := fun x => BurnMemo.erc20Convert x.1 x.2) (by decide) (.pair (.u64 h.1) (.address h.2)) (by simp) rfl

end Cbor
end EvmMinter
