import Verif.Spec.ReadEvents
import Verif.Props.C44
import Verif.Props.C34
import Verif.Props.C50
import Verif.Lemmas.Truth
/-!
# C40: event pagination returns the whole log

`get_events` converts the requested start to `usize`, which has 32 bits on the canister, so the full statement fails for starts of
`2^32` and more (`C40_start_wraps`); the theorems about pages are for smaller starts.
-/

namespace EvmMinter
open Spec Cbor
namespace Candid

/-! ## Reading -/

theorem hexBytes_hexEncode (l : Bytes) : hexBytes (hexEncode l) = some l := by
  induction l with
  | nil => rfl
  | cons b t ih =>
    have hb := b.toNat_lt
    have h1 := (hexDigit_hexChar (b.toNat / 16) (by omega)).1
    have h2 := (hexDigit_hexChar (b.toNat % 16) (by omega)).1
    simp only [hexEncode, List.flatMap_cons, List.cons_append, List.nil_append, hexBytes, h1, h2] at ih ⊢
    rw [ih]
    have : 16 * (b.toNat / 16) + b.toNat % 16 = b.toNat := by omega
    show some (UInt8.ofNat (16 * (b.toNat / 16) + b.toNat % 16) :: t) = some (b :: t)
    rw [this, UInt8.ofNat_toNat]

theorem readWord_toBE {n : Nat} (h : Word n) : readWord 32 (toBE 32 n) = some n := by
  unfold readWord
  rw [if_pos (length_toBE _ _), beNat_toBE_of_lt (show n < 256 ^ 32 from h)]

theorem readOpt_map {α β : Type} {f : β → Option α} {g : α → β} {o : Option α} (h : ∀ a, o = some a → f (g a) = some a) :
    readOpt f (o.map g) = some o := by
  cases o with
  | none => rfl
  | some a => simp [readOpt, h a rfl]

theorem readAll_map {α β : Type} {f : β → Option α} {g : α → β} {l : List α} (h : ∀ a ∈ l, f (g a) = some a) :
    readAll f (l.map g) = some l := by
  induction l with
  | nil => rfl
  | cons a l ih =>
    simp only [List.map_cons, readAll]
    rw [h a List.mem_cons_self, ih fun b hb => h b (List.mem_cons_of_mem _ hb)]
    rfl

theorem readHash {h : Hash} (hh : Word h) : Hash.parse h.display = some h := (C44_hash (s := h.display)).2 hh
theorem readAddress [Keccak] {a : Address} (h : Addr a) : Address.parse a.display = some a := (C44_round_trip h).1

theorem readSource_map {s : EvmMinter.EventSource} (h : EventSource.Typed s) : readSource (mapEventSource s) = some s := by
  unfold readSource mapEventSource
  simp only [readHash h.1]
  rfl

theorem readTransaction_map [Keccak] {t : Tx} (h : Tx.Typed t) : readTransaction (mapUnsignedTransaction t) = some t := by
  unfold readTransaction mapUnsignedTransaction
  have hl : readAll readItem (t.accessList.map fun i => ⟨i.address.display, i.storageKeys.map (toBE 32)⟩) = some t.accessList := by
    refine readAll_map fun i hi => ?_
    have hi := h.items i hi
    unfold readItem
    simp only [readAddress hi.address, readAll_map fun k hk => readWord_toBE (hi.keys k hk)]
    rfl
  simp only [readAddress h.destination, hl]
  rfl

theorem readReceipt_map {r : Receipt} (h : Receipt.Typed r) : readReceipt (mapTransactionReceipt r) = some r := by
  unfold readReceipt mapTransactionReceipt
  simp only [readHash h.blockHash, readHash h.hash]
  rfl

theorem encodable_of_typed {t : Tx} (h : Tx.Typed t) : t.Encodable :=
  ⟨h.chain, h.nonce, h.priority, h.maxFee, h.gas, h.destination, h.amount, fun i hi => ⟨(h.items i hi).address, (h.items i hi).keys⟩⟩

theorem readRaw_map {t : SignedTx} (h : SignedTx.Typed t) (hl : t.rawBytes.length < 2 ^ 64) :
    readRaw (rawTransactionHex t) = some t := by
  unfold readRaw rawTransactionHex
  simp only [hexBytes_hexEncode, Option.bind_some]
  exact C34_read_signed t (encodable_of_typed h.tx) h.r h.s hl

/-- Every string of the program has less than `2^64` bytes; for the raw form of a signed transaction this does not follow from the sizes of its
parts. -/
def Fits (e : Event) : Prop := ∀ i t, e = .signedTransaction i t → t.rawBytes.length < 2 ^ 64

/-- **C40** A reader recovers every event from the answer, up to the transaction hash of failed ERC20 requests, which the answer leaves out. -/
theorem C40_read [Keccak] {e : Event} (h : Event.Typed e) (hf : Fits e) : readPayload (mapPayload e) = some (shown e) := by
  cases e with
  | init a => rfl
  | upgrade a => rfl
  | acceptedDeposit e =>
    have h : NativeDeposit.Typed e := h
    simp only [mapPayload, readPayload, readHash h.hash, readAddress h.sender, readOpt_map fun a ha => readWord_toBE (h.subaccount a ha)]
    rfl
  | invalidDeposit s r =>
    simp only [mapPayload, readPayload, readSource_map h.1]
    rfl
  | mintedNative s i =>
    simp only [mapPayload, readPayload, readSource_map h.1]
    rfl
  | syncedToBlock n => rfl
  | acceptedNativeWithdrawalRequest r =>
    have h : NativeRequest.Typed r := h
    simp only [mapPayload, readPayload, readAddress h.destination, readOpt_map fun a ha => readWord_toBE (h.subaccount a ha)]
    rfl
  | createdTransaction i t =>
    simp only [mapPayload, readPayload, readTransaction_map h.2]
    rfl
  | signedTransaction i t =>
    simp only [mapPayload, readPayload, readRaw_map h.2 (hf i t rfl)]
    rfl
  | replacedTransaction i t =>
    simp only [mapPayload, readPayload, readTransaction_map h.2]
    rfl
  | finalizedTransaction i r =>
    simp only [mapPayload, readPayload, readReceipt_map h.2]
    rfl
  | reimbursedNativeWithdrawal r =>
    have h : Reimbursed.Typed r := h
    simp only [mapPayload, readPayload, readOpt_map fun a ha => readHash (h.hash a ha)]
    rfl
  | addedErc20Token t =>
    have h : Erc20Token.Typed t := h
    simp only [mapPayload, readPayload, readAddress h.contract, ofChainId_eq.2 (rfl : t.chainId.chainId = t.chainId.chainId)]
    rfl
  | acceptedErc20Deposit e =>
    have h : Erc20Deposit.Typed e := h
    simp only [mapPayload, readPayload, readHash h.hash, readAddress h.sender, readAddress h.contract,
      readOpt_map fun a ha => readWord_toBE (h.subaccount a ha)]
    rfl
  | acceptedErc20WithdrawalRequest r =>
    have h : Erc20Request.Typed r := h
    simp only [mapPayload, readPayload, readAddress h.destination, readAddress h.contract,
      readOpt_map fun a ha => readWord_toBE (h.subaccount a ha)]
    rfl
  | mintedErc20 s i y c =>
    simp only [mapPayload, readPayload, readSource_map h.1, readAddress h.2.2.2]
    rfl
  | reimbursedErc20Withdrawal n l r =>
    have h : Reimbursed.Typed r := h.2.2
    simp only [mapPayload, readPayload, readOpt_map fun a ha => readHash (h.hash a ha)]
    rfl
  | failedErc20WithdrawalRequest r =>
    have h : ReimbRequest.Typed r := h
    simp only [mapPayload, readPayload, readOpt_map fun a ha => readWord_toBE (h.subaccount a ha)]
    rfl
  | quarantinedDeposit s =>
    simp only [mapPayload, readPayload, readSource_map h]
    rfl
  | quarantinedReimbursement i => cases i <;> rfl
  | skippedBlock n => rfl

theorem shown_eq {e : Event} (h : ∀ r, e = .failedErc20WithdrawalRequest r → r.transactionHash = none) : shown e = e := by
  cases e with
  | failedErc20WithdrawalRequest r =>
    have := h r rfl
    cases r
    simp only at this
    subst this
    rfl
  | _ => rfl

/-- **C40** Of the events in the log of the minter nothing is lost: a failed ERC20 request that the minter records has no transaction hash. -/
theorem C40_nothing_lost [Keccak] {w : World} (h : Reachable w) {e : Event} (he : e ∈ w.mem.m.log) : shown e = e := by
  refine shown_eq fun r hr => ?_
  subst hr
  obtain ⟨id, _, q, now, hb, _⟩ := log_backed h he (by intro h; cases h)
  rw [hb]

/-! ## Pages -/

theorem holds_take {nil : Bool} {l : StableLog} {log : List (Nat × Event)} (h : Holds nil l log) (n : Nat) :
    Holds nil (l.take n) (log.take n) := by
  induction h with
  | empty => simpa using Holds.empty
  | @record l log now e h ht he ih =>
    have hl : ∀ {l log}, Holds nil l log → l.length = log.length := by
      intro l log h
      induction h with
      | empty => rfl
      | record now e _ _ _ ih => simp [StableLog.record, ih]
    unfold StableLog.record
    by_cases hn : n ≤ l.length
    · rw [List.take_append_of_le_length hn, List.take_append_of_le_length (hl h ▸ hn)]
      exact ih
    · rw [List.take_of_length_le (by simp; omega), List.take_of_length_le (by simp [← hl h]; omega)]
      exact h.record now e ht he

theorem holds_length {nil : Bool} {l : StableLog} {log : List (Nat × Event)} (h : Holds nil l log) : l.length = log.length := by
  induction h with
  | empty => rfl
  | record now e _ _ _ ih => simp [StableLog.record, ih]

/-- **C40** What the endpoint returns: the events of the log from the low 32 bits of the requested start, at most as many as requested and at most
100, in order, and the number of all events. It never traps. -/
theorem C40_answer [Keccak] {nil : Bool} {l : StableLog} {log : List (Nat × Event)} (h : Holds nil l log) (start length : Nat) :
    getEvents start length l =
      .ok ⟨((log.drop (start % 2 ^ 32)).take (min length 100)).map mapEvent, log.length⟩ := by
  unfold getEvents
  have ht : asUsize (min length 100) = min length 100 := Nat.mod_eq_of_lt (by omega)
  rw [ht]
  dsimp only
  rw [C50_log (holds_take h _), holds_length h]
  simp only [Res.ok_bind]
  unfold asUsize
  rw [List.drop_take, Nat.add_sub_cancel_left, List.take_take, Nat.min_self]
  rfl

/-- **C40** For starts below `2^32` the answer is exactly the slice of the log.

The full statement is this for all 64-bit starts. It is false, see `C40_start_wraps`. -/
theorem C40_slice_partial [Keccak] {nil : Bool} {l : StableLog} {log : List (Nat × Event)} (h : Holds nil l log) {start : Nat}
    (length : Nat) (hs : start < 2 ^ 32) :
    ∃ r, getEvents start length l = .ok r ∧ r.totalEventCount = log.length ∧ r.events.length ≤ 100 ∧ r.events.length ≤ length ∧
      r.events.length = min (min length 100) (log.length - start) ∧
      ∀ i, i < r.events.length → r.events[i]? = (log[start + i]?).map mapEvent := by
  rw [C40_answer h, Nat.mod_eq_of_lt hs]
  refine ⟨_, rfl, rfl, ?_, ?_, ?_, ?_⟩
  · simp only [List.length_map, List.length_take]; omega
  · simp only [List.length_map, List.length_take]; omega
  · simp only [List.length_map, List.length_take, List.length_drop]
  · intro i hi
    simp only [List.length_map, List.length_take] at hi
    simp only [List.getElem?_map]
    rw [List.getElem?_take_of_lt (by omega), List.getElem?_drop]

/-- The events of `n` consecutive pages of the given size from the beginning. -/
def pages [Keccak] (l : StableLog) (size : Nat) : Nat → Res (List (Nat × EventPayload))
  | 0 => .ok []
  | n + 1 => do
    let before ← pages l size n
    let page ← getEvents (size * n) size l
    return before ++ page.events

/-- **C40** Paging from 0 with pages of at most 100 events returns the complete log in order, without gaps or duplicates, as long as the
pages begin below `2^32`.

The full statement is this for logs of any length. -/
theorem C40_pages_partial [Keccak] {nil : Bool} {l : StableLog} {log : List (Nat × Event)} (h : Holds nil l log) {size n : Nat}
    (hs : size ≤ 100) (hlen : log.length ≤ size * n) (hn : size * n ≤ 2 ^ 32) (h0 : 0 < size) :
    pages l size n = .ok (log.map mapEvent) := by
  have key : ∀ m, m ≤ n → pages l size m = .ok ((log.take (size * m)).map mapEvent) := by
    intro m hm
    induction m with
    | zero => simp [pages]
    | succ m ih =>
      simp only [pages]
      rw [ih (by omega), C40_answer h]
      simp only [Res.ok_bind]
      have h1 : size * m + size ≤ size * n := by
        rw [← Nat.mul_succ]
        exact Nat.mul_le_mul_left _ hm
      rw [Nat.mod_eq_of_lt (by omega : size * m < 2 ^ 32), Nat.min_eq_left hs, ← List.map_append, Nat.mul_succ, List.take_add]
      rfl
  rw [key n (Nat.le_refl _), List.take_of_length_le hlen]

/-- **C40** So a reader recovers the whole recorded log, with timestamps. -/
theorem C40_recover_partial [Keccak] {nil : Bool} {l : StableLog} {log : List (Nat × Event)} (h : Holds nil l log) {size n : Nat}
    (hs : size ≤ 100) (hlen : log.length ≤ size * n) (hn : size * n ≤ 2 ^ 32) (h0 : 0 < size) (hf : ∀ x ∈ log, Fits x.2) :
    ∃ answer, pages l size n = .ok answer ∧
      answer.mapM (fun x => (readPayload x.2).map fun e => (x.1, e)) = some (log.map fun x => (x.1, shown x.2)) := by
  refine ⟨_, C40_pages_partial h hs hlen hn h0, ?_⟩
  have ht : ∀ x ∈ log, Event.Typed x.2 := by
    clear hlen hn hf
    induction h with
    | empty => simp
    | record now e _ _ he ih =>
      intro x hx
      rcases List.mem_append.1 hx with hx | hx
      · exact ih x hx
      · obtain rfl : x = (now, e) := by simpa using hx
        exact he
  clear h hlen hn
  induction log with
  | nil => rfl
  | cons x log ih =>
    rw [List.map_cons, List.mapM_cons, ih (fun y hy => hf y (List.mem_cons_of_mem _ hy)) fun y hy => ht y (List.mem_cons_of_mem _ hy)]
    simp only [mapEvent]
    rw [C40_read (ht x List.mem_cons_self) (hf x List.mem_cons_self)]
    rfl

/-- **C40** violated for large starts: at `2^32` the endpoint returns the log from the beginning. -/
theorem C40_start_wraps [Keccak] (length : Nat) (l : StableLog) : getEvents (2 ^ 32) length l = getEvents 0 length l := rfl

/-- An event that the endpoint shows without its transaction hash. The program records no such event (`C40_nothing_lost`). -/
theorem C40_hash_dropped [Keccak] (r : ReimbRequest) (h : Hash) :
    mapPayload (.failedErc20WithdrawalRequest { r with transactionHash := some h }) = mapPayload (.failedErc20WithdrawalRequest r) := rfl

end Candid

namespace Example
attribute [local instance] keccak

/-- The log has 17 events, so the page from `2^32` should be empty; it has seven events. -/
theorem C40_example_wraps : ((Candid.getEvents (2 ^ 32) 7 (stored (log.take 17))).toOption.map fun r => r.events.length) = some 7 := by
  decide +kernel

/-- Pages of seven events return the first 17 events of the example. The last page is short, the one after it is empty. -/
theorem C40_example :
    let l := stored (log.take 17)
    ((Candid.getEvents 0 200 l).toOption.map fun r => (r.events.length, r.totalEventCount)) = some (17, 17) ∧
    ((Candid.getEvents 14 7 l).toOption.map fun r => r.events.length) = some 3 ∧
    ((Candid.getEvents 21 7 l).toOption.map fun r => r.events.length) = some 0 ∧
    ((Candid.pages l 7 3).toOption.bind fun es => es.mapM fun x => Candid.readPayload x.2) = some (log.take 17) := by
  decide +kernel

end Example
end EvmMinter
