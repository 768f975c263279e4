import Verif.Spec.EventItem
import Verif.Lemmas.EventCbor
import Verif.Props.C50
/-!
# C84: the stored format of events and memos

An event in stable memory, and the memo of a mint or a burn, is the CBOR data item (RFC 8949) that `Spec.Event.item` and `Spec.MintMemo.item`,
`Spec.BurnMemo.item` say: numbers of variants, order of fields, representation of numbers, addresses, hashes, principals and texts. The bytes
are the encoding of no other item, whatever follows them.
-/

namespace EvmMinter
open Spec
namespace Cbor

/-! ## Heads -/

theorem bigEndian_eq (l : Bytes) : bigEndian l = beNat l := by
  have key : ∀ (l : Bytes) (v : Nat), l.foldl (fun v b => 256 * v + b.toNat) v = v * 256 ^ l.length + beNat l := fun l => by
    induction l with
    | nil => simp [beNat]
    | cons b t ih =>
      intro v
      rw [List.foldl_cons, ih, beNat, List.length_cons, Nat.pow_succ, Nat.add_mul, Nat.mul_comm 256 v, Nat.mul_assoc,
        Nat.mul_comm 256, Nat.add_assoc]
  rw [bigEndian, key]
  simp

theorem bigEndian_toBE {w n : Nat} (h : n < 256 ^ w) : bigEndian (toBE w n) = n := by
  rw [bigEndian_eq, beNat_toBE_of_lt h]

theorem encodes_head {m n : Nat} (hm : m < 8) (hn : n < 2 ^ 64) : Head m n (head m n) := by
  have hb : ∀ k, k < 32 → (UInt8.ofNat (m * 32 + k)).toNat = 32 * m + k := fun k hk => by
    rw [UInt8.toNat_ofNat', Nat.mod_eq_of_lt (by omega)]
    omega
  unfold head
  split
  · exact .direct (by assumption) (hb n (by omega))
  split
  · exact .one (by omega) (hb _ (by omega)) (length_toBE _ _) (bigEndian_toBE (by omega))
  split
  · exact .two (by omega) (hb _ (by omega)) (length_toBE _ _) (bigEndian_toBE (by omega))
  split
  · exact .four (by omega) (hb _ (by omega)) (length_toBE _ _) (bigEndian_toBE (by omega))
  · exact .eight (by omega) (hb _ (by omega)) (length_toBE _ _) (bigEndian_toBE (by omega))

/-! ## Library types -/

theorem encodes_u64 {n : Nat} (h : Word64 n) : Encodes (.number n) (u64 n) := .number (encodes_head (by omega) h)

theorem encodes_id {n : Nat} (h : Word64 n) : Encodes (.number n) (id n) := encodes_u64 h

theorem encodes_bytes {l : Bytes} (h : Word64 l.length) : Encodes (.bytes l) (bytes l) := .bytes (encodes_head (by omega) h)

theorem encodes_text {s : String} (h : Str s) : Encodes (.text s) (text s) := .text (encodes_head (by omega) h)

theorem encodes_chars {l : List Char} (h : Chars l) : Encodes (charsItem l) (chars l) := encodes_text h

theorem encodes_bool (b : Bool) : Encodes (.bool b) (bool b) := by
  cases b
  · exact .no
  · exact .yes

theorem encodesAll_flatMap {e : α → Bytes} {f : α → Item} {l : List α} (h : ∀ a ∈ l, Encodes (f a) (e a)) :
    EncodesAll (l.map f) (l.flatMap e) := by
  induction l with
  | nil => exact .nil
  | cons a l ih => exact .cons (h a (by simp)) (ih fun b hb => h b (by simp [hb]))

theorem encodes_vec {e : α → Bytes} {f : α → Item} {l : List α} (hl : Word64 l.length) (h : ∀ a ∈ l, Encodes (f a) (e a)) :
    Encodes (.array (l.map f)) (vec e l) := by
  refine .array ?_ (encodesAll_flatMap h)
  rw [List.length_map]
  exact encodes_head (by omega) hl

theorem encodes_fixed {w n : Nat} (hw : Word64 w) : Encodes (.bytes (toBE w n)) (fixed w n) := by
  refine encodes_bytes ?_
  rwa [length_toBE]

theorem encodes_address (a : Address) : Encodes (addressItem a) (address a) := encodes_fixed (by unfold Word64; omega)
theorem encodes_hash (h : Hash) : Encodes (wordItem h) (hash h) := encodes_fixed (by unfold Word64; omega)
theorem encodes_bytes32 (n : Nat) : Encodes (wordItem n) (bytes32 n) := encodes_fixed (by unfold Word64; omega)

theorem encodes_principal {p : Principal} (h : Princ p) : Encodes (principalItem p) (principal p) :=
  encodes_bytes (by unfold Princ at h; unfold Word64; omega)

/-- A bignum. -/
theorem encodes_big {n : Nat} {b : Bytes} (hn : 2 ^ 64 ≤ n) (hv : beNat b = n) (hz : ∀ x t, b = x :: t → x ≠ 0)
    (hl : b.length < 2 ^ 64) : Encodes (.number n) (tag 2 ++ bytes b) := by
  have e : n = bigEndian b := by rw [bigEndian_eq, hv]
  rw [e]
  refine .bignum (e ▸ hn) ?_ (encodes_head (by omega) (by omega)) (encodes_head (by omega) hl)
  cases b with
  | nil => simp
  | cons x t =>
    intro h
    exact hz x t rfl (by simpa using h)

theorem encodes_u256 {n : Nat} (h : Word n) : Encodes (.number n) (u256 n) := by
  unfold u256
  split
  · exact encodes_u64 (by unfold Word64; omega)
  split
  · exact encodes_u64 (by unfold Word64; omega)
  · have := length_minBE_le 32 n
    exact encodes_big (by omega) (beNat_minBE (by unfold Word at h; omega)) (stripZeros_spec _) (by omega)

theorem encodes_nat {n : Nat} (h : Big n) : Encodes (.number n) (nat n) := by
  unfold nat
  split
  · exact encodes_u64 (by unfold Word64; omega)
  split
  · exact encodes_u64 (by unfold Word64; omega)
  · refine encodes_big (by omega) (beNat_natBE n) ?_ h
    unfold natBE
    rw [if_neg (by omega)]
    exact stripZeros_spec _

/-! ## Structs and variants -/

/-- The encoded field is the item, or absent. -/
def IsField (x : Field) (o : Option Item) : Prop := x.1 = o.isNone ∧ Encodes (o.getD .null) x.2

theorem IsField.given {b : Bytes} {i : Item} (h : Encodes i b) : IsField (req b) (given i) := ⟨rfl, h⟩

theorem IsField.perhaps {nil : Bool} {e : α → Bytes} {f : α → Item} {o : Option α} (h : ∀ a, o = some a → Encodes (f a) (e a)) :
    IsField (optWith nil e o) (perhaps nil f o) := by
  cases o with
  | none =>
    cases nil
    · exact ⟨rfl, .null⟩
    · exact ⟨rfl, .null⟩
  | some a => exact ⟨by simp [optWith, Spec.perhaps], h a rfl⟩

theorem IsField.opt {e : α → Bytes} {f : α → Item} {o : Option α} (h : ∀ a, o = some a → Encodes (f a) (e a)) :
    IsField (opt e o) (Spec.perhaps true f o) := by
  have := IsField.perhaps (nil := true) h
  simpa [optWith, Cbor.opt] using this

/-- All fields. -/
inductive AreFields : List Field → List (Option Item) → Prop where
  | nil : AreFields [] []
  | cons {x : Field} {o : Option Item} {fs : List Field} {os : List (Option Item)} : IsField x o → AreFields fs os →
      AreFields (x :: fs) (o :: os)

/-- How many fields there are up to the last that is not nil. -/
theorem kept_cons (x : Field) (fs : List Field) : ((x :: fs).reverse.dropWhile (·.1)).length =
    if (fs.reverse.dropWhile (·.1)).length = 0 then (if x.1 then 0 else 1) else (fs.reverse.dropWhile (·.1)).length + 1 := by
  rw [List.reverse_cons, List.dropWhile_append]
  cases h : fs.reverse.dropWhile (·.1) with
  | nil =>
    cases hx : x.1 <;> simp [hx]
  | cons y l => simp

theorem encodesAll_kept {fs : List Field} {os : List (Option Item)} (h : AreFields fs os) :
    (trim os).length = (fs.reverse.dropWhile (·.1)).length ∧
    EncodesAll (trim os) ((fs.take (fs.reverse.dropWhile (·.1)).length).flatMap (·.2)) := by
  induction h with
  | nil => exact ⟨rfl, .nil⟩
  | @cons x o fs os hx _ ih =>
    obtain ⟨hl, he⟩ := ih
    rw [kept_cons]
    obtain ⟨h1, h2⟩ := hx
    cases o with
    | none =>
      simp only [Option.isNone_none, Option.getD_none] at h1 h2
      unfold trim
      cases ht : trim os with
      | nil =>
        rw [ht] at hl
        simp only [List.length_nil] at hl
        rw [← hl]
        simpa [h1] using EncodesAll.nil
      | cons i l =>
        rw [ht] at hl he
        rw [if_neg (by rw [← hl]; simp)]
        refine ⟨by simpa using hl, ?_⟩
        rw [List.take_succ_cons, List.flatMap_cons]
        exact .cons h2 he
    | some i =>
      simp only [Option.isNone_some, Option.getD_some] at h1 h2
      unfold trim
      cases ht : trim os with
      | nil =>
        rw [ht] at hl he
        simp only [List.length_nil] at hl
        rw [← hl]
        simpa [h1] using EncodesAll.cons h2 .nil
      | cons j l =>
        rw [ht] at hl he
        rw [if_neg (by rw [← hl]; simp)]
        refine ⟨by simpa using hl, ?_⟩
        rw [List.take_succ_cons, List.flatMap_cons]
        exact .cons h2 he

theorem encodes_struct {fs : List Field} {os : List (Option Item)} (h : AreFields fs os) (hl : fs.length < 2 ^ 64) :
    Encodes (record os) (struct fs) := by
  have hn : (fs.reverse.dropWhile (·.1)).length ≤ fs.length := by simpa using length_dropWhile_le (·.1) fs.reverse
  obtain ⟨e, he⟩ := encodesAll_kept h
  refine .array ?_ he
  rw [e]
  exact encodes_head (by omega) (by omega)

theorem encodes_variant {k : Nat} {fs : List Field} {os : List (Option Item)} (hk : k < 2 ^ 64) (h : AreFields fs os)
    (hl : fs.length < 2 ^ 64) : Encodes (choice k os) (variant k fs) := by
  unfold variant
  rw [List.append_assoc]
  refine .array (encodes_head (by omega) (by simp)) (.cons (encodes_u64 hk) ?_)
  have := EncodesAll.cons (encodes_struct h hl) .nil
  rwa [List.append_nil] at this

/-- One given field. -/
theorem AreFields.req {b : Bytes} {i : Item} {fs : List Field} {os : List (Option Item)} (h : Encodes i b) (hs : AreFields fs os) :
    AreFields (Cbor.req b :: fs) (Spec.given i :: os) := .cons (.given h) hs

/-- One optional field. -/
theorem AreFields.opt {e : α → Bytes} {f : α → Item} {o : Option α} {P : α → Prop} {fs : List Field} {os : List (Option Item)}
    (h : Each P o) (he : ∀ {a}, P a → Encodes (f a) (e a)) (hs : AreFields fs os) :
    AreFields (Cbor.opt e o :: fs) (Spec.perhaps true f o :: os) := .cons (.opt fun a ha => he (h a ha)) hs

theorem AreFields.perhaps {nil : Bool} {e : α → Bytes} {f : α → Item} {o : Option α} {P : α → Prop} {fs : List Field}
    {os : List (Option Item)} (h : Each P o) (he : ∀ {a}, P a → Encodes (f a) (e a)) (hs : AreFields fs os) :
    AreFields (Cbor.optWith nil e o :: fs) (Spec.perhaps nil f o :: os) := .cons (.perhaps fun a ha => he (h a ha)) hs

/-! ## The types of events -/

theorem encodes_subaccount {n : Subaccount} (h : Word n) : Encodes (subaccountItem n) (ledgerSubaccount n) :=
  encodes_struct (.req (encodes_u256 h) .nil) (by simp)

theorem encodes_network (n : EvmNetwork) : Encodes (networkItem n) (network n) := by
  cases n <;> exact encodes_u64 (by unfold Word64; decide)

theorem encodes_tag (t : BlockTag) : Encodes (tagItem t) (blockTag t) := by
  cases t <;> exact encodes_u64 (by unfold Word64; decide)

theorem encodes_source {s : EventSource} (h : Spec.EventSource.Typed s) : Encodes (Spec.EventSource.item s) (eventSource s) :=
  encodes_struct (.req (encodes_hash _) <| .req (encodes_u256 h.2) .nil) (by simp)

theorem encodes_nativeDeposit {e : NativeDeposit} (h : Spec.NativeDeposit.Typed e) :
    Encodes (Spec.NativeDeposit.item e) (nativeDeposit e) :=
  encodes_struct (.req (encodes_hash _) <| .req (encodes_u256 h.block) <| .req (encodes_u256 h.index) <| .req (encodes_address _) <|
    .req (encodes_u256 h.value) <| .req (encodes_principal h.principal) <| .opt h.subaccount encodes_subaccount .nil) (by simp)

theorem encodes_erc20Deposit {e : Erc20Deposit} (h : Spec.Erc20Deposit.Typed e) :
    Encodes (Spec.Erc20Deposit.item e) (erc20Deposit e) :=
  encodes_struct (.req (encodes_hash _) <| .req (encodes_u256 h.block) <| .req (encodes_u256 h.index) <| .req (encodes_address _) <|
    .req (encodes_u256 h.value) <| .req (encodes_principal h.principal) <| .req (encodes_address _) <|
    .opt h.subaccount encodes_subaccount .nil) (by simp)

theorem encodes_accessListItem {i : AccessListItem} (h : Spec.AccessListItem.Typed i) :
    Encodes (Spec.AccessListItem.item i) (accessListItem i) :=
  encodes_struct (.req (encodes_address _) <| .req (encodes_vec h.short fun k _ => encodes_bytes32 k) .nil) (by simp)

theorem encodes_tx {t : Tx} (h : Spec.Tx.Typed t) : Encodes (Spec.Tx.item t) (tx t) :=
  encodes_struct (.req (encodes_u64 h.chain) <| .req (encodes_u256 h.nonce) <| .req (encodes_u256 h.priority) <|
    .req (encodes_u256 h.maxFee) <| .req (encodes_u256 h.gas) <| .req (encodes_address _) <| .req (encodes_u256 h.amount) <|
    .req (encodes_bytes h.data) <| .req (encodes_vec h.short fun i hi => encodes_accessListItem (h.items i hi)) .nil) (by simp)

theorem encodes_signature {s : Signature} (hr : Word s.r) (hs : Word s.s) : Encodes (Spec.Signature.item s) (signature s) :=
  encodes_struct (.req (encodes_bool _) <| .req (encodes_u256 hr) <| .req (encodes_u256 hs) .nil) (by simp)

theorem encodes_signedTx {t : SignedTx} (h : Spec.SignedTx.Typed t) : Encodes (Spec.SignedTx.item t) (signedTx t) :=
  encodes_struct (.req (encodes_tx h.tx) <| .req (encodes_signature h.r h.s) .nil) (by simp)

theorem encodes_status (s : TxStatus) : Encodes (Spec.TxStatus.item s) (status s) := by
  cases s <;> exact encodes_variant (by decide) .nil (by simp)

theorem encodes_receipt {r : Receipt} (h : Spec.Receipt.Typed r) : Encodes (Spec.Receipt.item r) (receipt r) :=
  encodes_struct (.req (encodes_hash _) <| .req (encodes_u256 h.block) <| .req (encodes_u256 h.price) <| .req (encodes_u256 h.gas) <|
    .req (encodes_status _) <| .req (encodes_hash _) .nil) (by simp)

theorem encodes_nativeRequest {r : NativeRequest} (h : Spec.NativeRequest.Typed r) :
    Encodes (Spec.NativeRequest.item r) (nativeRequest r) :=
  encodes_struct (.req (encodes_u256 h.amount) <| .req (encodes_address _) <| .req (encodes_id h.burn) <|
    .req (encodes_principal h.sender) <| .opt h.subaccount (fun _ => encodes_bytes32 _) <| .opt h.time encodes_u64 .nil) (by simp)

theorem encodes_erc20Request {r : Erc20Request} (h : Spec.Erc20Request.Typed r) : Encodes (Spec.Erc20Request.item r) (erc20Request r) :=
  encodes_struct (.req (encodes_u256 h.fee) <| .req (encodes_u256 h.amount) <| .req (encodes_address _) <| .req (encodes_id h.burn) <|
    .req (encodes_address _) <| .req (encodes_principal h.ledger) <| .req (encodes_id h.tokenBurn) <|
    .req (encodes_principal h.sender) <| .opt h.subaccount (fun _ => encodes_bytes32 _) <| .req (encodes_u64 h.time) .nil) (by simp)

theorem encodes_reimbIndex {i : ReimbIndex} (h : Spec.ReimbIndex.Typed i) : Encodes (Spec.ReimbIndex.item i) (reimbIndex i) := by
  cases i with
  | native b => exact encodes_variant (by decide) (.req (encodes_id h) .nil) (by simp)
  | erc20 n l e =>
    exact encodes_variant (by decide) (.req (encodes_id h.1) <| .req (encodes_principal h.2.1) <| .req (encodes_id h.2.2) .nil) (by simp)

theorem encodes_reimbRequest {r : ReimbRequest} (h : Spec.ReimbRequest.Typed r) : Encodes (Spec.ReimbRequest.item r) (reimbRequest r) :=
  encodes_struct (.req (encodes_id h.burn) <| .req (encodes_u256 h.amount) <| .req (encodes_principal h.to) <|
    .opt h.subaccount (fun _ => encodes_bytes32 _) <| .opt h.hash (fun _ => encodes_hash _) .nil) (by simp)

theorem encodes_reimbursed {r : Reimbursed} (h : Spec.Reimbursed.Typed r) : Encodes (Spec.Reimbursed.item r) (reimbursed r) :=
  encodes_struct (.req (encodes_id h.block) <| .req (encodes_id h.burn) <| .req (encodes_u256 h.amount) <|
    .opt h.hash (fun _ => encodes_hash _) .nil) (by simp)

theorem encodes_erc20Token {t : Erc20Token} (h : Spec.Erc20Token.Typed t) : Encodes (Spec.Erc20Token.item t) (erc20Token t) :=
  encodes_struct (.req (encodes_network _) <| .req (encodes_address _) <| .req (encodes_text h.symbol) <|
    .req (encodes_principal h.ledger) .nil) (by simp)

theorem encodes_initArg {a : InitArg} (h : Spec.InitArg.Typed a) : Encodes (Spec.InitArg.item a) (initArg a) :=
  encodes_struct (.req (encodes_network _) <| .req (encodes_chars h.key) <| .opt h.helper encodes_chars <|
    .req (encodes_principal h.ledger) <| .req (encodes_principal h.index) <| .req (encodes_text h.symbol) <| .req (encodes_tag _) <|
    .req (encodes_nat h.minimum) <| .req (encodes_nat h.transferFee) <| .req (encodes_nat h.nonce) <| .req (encodes_nat h.scraped) <|
    .req (encodes_nat h.priority) <| .req (encodes_principal h.manager) <| .req (encodes_nat h.depositFee) <|
    .req (encodes_nat h.withdrawalFee) .nil) (by simp)

theorem encodes_upgradeArg {nil : Bool} {a : UpgradeArg} (h : Spec.UpgradeArg.Typed a) :
    Encodes (Spec.UpgradeArg.item nil a) (upgradeArg nil a) :=
  encodes_struct (.perhaps h.nonce encodes_nat <| .perhaps h.minimum encodes_nat <| .opt h.helper encodes_chars <|
    .opt (P := fun _ => True) (fun _ _ => trivial) (fun _ => encodes_tag _) <| .perhaps h.scraped encodes_nat <|
    .perhaps h.rpc encodes_principal <| .perhaps h.transferFee encodes_nat <| .perhaps h.priority encodes_nat <|
    .perhaps h.depositFee encodes_nat <| .perhaps h.withdrawalFee encodes_nat .nil) (by simp)

theorem number_lt (e : Event) : Spec.Event.number e < 2 ^ 64 := by cases e <;> simp [Spec.Event.number]

theorem encodes_payload {nil : Bool} {e : Event} (h : Spec.Event.Typed e) :
    Encodes (.array [.number (Spec.Event.number e), .array (Spec.Event.fields nil e)]) (payload nil e) := by
  cases e with
  | init a => exact encodes_variant (number_lt _) (.req (encodes_initArg h) .nil) (by simp)
  | upgrade a => exact encodes_variant (number_lt _) (.req (encodes_upgradeArg h) .nil) (by simp)
  | acceptedDeposit e => exact encodes_variant (number_lt _) (.req (encodes_nativeDeposit h) .nil) (by simp)
  | invalidDeposit s r => exact encodes_variant (number_lt _) (.req (encodes_source h.1) <| .req (encodes_text h.2) .nil) (by simp)
  | mintedNative s i => exact encodes_variant (number_lt _) (.req (encodes_source h.1) <| .req (encodes_id h.2) .nil) (by simp)
  | syncedToBlock n => exact encodes_variant (number_lt _) (.req (encodes_u256 h) .nil) (by simp)
  | acceptedNativeWithdrawalRequest r => exact encodes_variant (number_lt _) (.req (encodes_nativeRequest h) .nil) (by simp)
  | createdTransaction i t => exact encodes_variant (number_lt _) (.req (encodes_id h.1) <| .req (encodes_tx h.2) .nil) (by simp)
  | signedTransaction i t => exact encodes_variant (number_lt _) (.req (encodes_id h.1) <| .req (encodes_signedTx h.2) .nil) (by simp)
  | replacedTransaction i t => exact encodes_variant (number_lt _) (.req (encodes_id h.1) <| .req (encodes_tx h.2) .nil) (by simp)
  | finalizedTransaction i r => exact encodes_variant (number_lt _) (.req (encodes_id h.1) <| .req (encodes_receipt h.2) .nil) (by simp)
  | reimbursedNativeWithdrawal r => exact encodes_variant (number_lt _) (.req (encodes_reimbursed h) .nil) (by simp)
  | addedErc20Token t => exact encodes_variant (number_lt _) (.req (encodes_erc20Token h) .nil) (by simp)
  | acceptedErc20Deposit e => exact encodes_variant (number_lt _) (.req (encodes_erc20Deposit h) .nil) (by simp)
  | acceptedErc20WithdrawalRequest r => exact encodes_variant (number_lt _) (.req (encodes_erc20Request h) .nil) (by simp)
  | mintedErc20 s i y c =>
    exact encodes_variant (number_lt _) (.req (encodes_source h.1) <| .req (encodes_id h.2.1) <| .req (encodes_text h.2.2.1) <|
      .req (encodes_address _) .nil) (by simp)
  | reimbursedErc20Withdrawal n l r =>
    exact encodes_variant (number_lt _) (.req (encodes_id h.1) <| .req (encodes_principal h.2.1) <| .req (encodes_reimbursed h.2.2) .nil)
      (by simp)
  | failedErc20WithdrawalRequest r => exact encodes_variant (number_lt _) (.req (encodes_reimbRequest h) .nil) (by simp)
  | quarantinedDeposit s => exact encodes_variant (number_lt _) (.req (encodes_source h) .nil) (by simp)
  | quarantinedReimbursement i => exact encodes_variant (number_lt _) (.req (encodes_reimbIndex h) .nil) (by simp)
  | skippedBlock n => exact encodes_variant (number_lt _) (.req (encodes_u256 h) .nil) (by simp)

/-! ## An item is read in one way -/

/-- The low five bits of the first byte. -/
theorem head_first {m n : Nat} {h : Bytes} (hh : Head m n h) : ∃ b l k, h = b :: l ∧ b.toNat = 32 * m + k ∧ k < 28 ∧
    ((k = n ∧ k < 24 ∧ l = []) ∨ (24 ≤ k ∧ l.length = 2 ^ (k - 24) ∧ bigEndian l = n)) := by
  cases hh with
  | direct h1 h2 => exact ⟨_, _, n, rfl, h2, by omega, .inl ⟨rfl, h1, rfl⟩⟩
  | one h1 h2 h3 h4 => exact ⟨_, _, 24, rfl, h2, by omega, .inr ⟨by omega, h3, h4⟩⟩
  | two h1 h2 h3 h4 => exact ⟨_, _, 25, rfl, h2, by omega, .inr ⟨by omega, h3, h4⟩⟩
  | four h1 h2 h3 h4 => exact ⟨_, _, 26, rfl, h2, by omega, .inr ⟨by omega, h3, h4⟩⟩
  | eight h1 h2 h3 h4 => exact ⟨_, _, 27, rfl, h2, by omega, .inr ⟨by omega, h3, h4⟩⟩

theorem head_unique {m n m' n' : Nat} {h h' r r' : Bytes} (hh : Head m n h) (hh' : Head m' n' h') (e : h ++ r = h' ++ r') :
    m = m' ∧ n = n' ∧ h = h' ∧ r = r' := by
  obtain ⟨b, l, k, rfl, hb, hk, hn⟩ := head_first hh
  obtain ⟨b', l', k', rfl, hb', hk', hn'⟩ := head_first hh'
  simp only [List.cons_append, List.cons.injEq] at e
  obtain ⟨rfl, e⟩ := e
  have hm : m = m' := by omega
  have hkk : k = k' := by omega
  subst hm hkk
  have hl : l.length = l'.length := by
    rcases hn with ⟨_, h2, h3⟩ | ⟨h1, h2, _⟩ <;> rcases hn' with ⟨_, h5, h6⟩ | ⟨h4, h5, _⟩
    · rw [h3, h6]
    · omega
    · omega
    · rw [h2, h5]
  obtain ⟨rfl, rfl⟩ := List.append_inj e hl
  refine ⟨rfl, ?_, rfl, rfl⟩
  rcases hn with ⟨h1, h2, _⟩ | ⟨h1, _, h3⟩ <;> rcases hn' with ⟨h4, h5, _⟩ | ⟨h4, _, h6⟩
  · omega
  · omega
  · omega
  · rw [← h3, ← h6]

/-- Major type 7: a byte that no head above has. -/
theorem head_ne {m n : Nat} {h r r' : Bytes} {x : UInt8} (hm : m < 7) (hx : 224 ≤ x.toNat) (hh : Head m n h) : h ++ r ≠ x :: r' := by
  obtain ⟨b, l, k, rfl, hb, hk, _⟩ := head_first hh
  intro e
  simp only [List.cons_append, List.cons.injEq] at e
  obtain ⟨rfl, _⟩ := e
  omega

/-- Items of one byte. -/
theorem simple_unique {i j : Item} {x : UInt8} {b' r r' : Bytes}
    (hi : (i = .bool false ∧ x = 0xf4) ∨ (i = .bool true ∧ x = 0xf5) ∨ (i = .null ∧ x = 0xf6)) (hj : Encodes j b')
    (e : [x] ++ r = b' ++ r') : i = j ∧ [x] = b' := by
  have hx : 224 ≤ x.toNat := by rcases hi with ⟨_, rfl⟩ | ⟨_, rfl⟩ | ⟨_, rfl⟩ <;> decide
  cases hj with
  | number h2 => exact absurd e.symm (head_ne (by decide) hx h2)
  | bignum _ _ h2 _ => exact absurd ((List.append_assoc _ _ _).symm.trans e.symm) (head_ne (by decide) hx h2)
  | bytes h2 => exact absurd ((List.append_assoc _ _ _).symm.trans e.symm) (head_ne (by decide) hx h2)
  | text h2 => exact absurd ((List.append_assoc _ _ _).symm.trans e.symm) (head_ne (by decide) hx h2)
  | array h2 _ => exact absurd ((List.append_assoc _ _ _).symm.trans e.symm) (head_ne (by decide) hx h2)
  | no =>
    simp only [List.cons_append, List.nil_append, List.cons.injEq] at e
    obtain ⟨rfl, _⟩ := e
    rcases hi with ⟨rfl, _⟩ | ⟨_, h⟩ | ⟨_, h⟩
    · exact ⟨rfl, rfl⟩
    · exact absurd h (by decide)
    · exact absurd h (by decide)
  | yes =>
    simp only [List.cons_append, List.nil_append, List.cons.injEq] at e
    obtain ⟨rfl, _⟩ := e
    rcases hi with ⟨_, h⟩ | ⟨rfl, _⟩ | ⟨_, h⟩
    · exact absurd h (by decide)
    · exact ⟨rfl, rfl⟩
    · exact absurd h (by decide)
  | null =>
    simp only [List.cons_append, List.nil_append, List.cons.injEq] at e
    obtain ⟨rfl, _⟩ := e
    rcases hi with ⟨_, h⟩ | ⟨_, h⟩ | ⟨rfl, _⟩
    · exact absurd h (by decide)
    · exact absurd h (by decide)
    · exact ⟨rfl, rfl⟩

/-- Bytes that begin with the encoding of an item begin with no other. -/
theorem encodes_unique {i : Item} {b : Bytes} (h : Encodes i b) :
    ∀ {j : Item} {b' r r' : Bytes}, Encodes j b' → b ++ r = b' ++ r' → i = j ∧ b = b' := by
  refine Encodes.rec (motive_1 := fun i b _ => ∀ {j : Item} {b' r r' : Bytes}, Encodes j b' → b ++ r = b' ++ r' → i = j ∧ b = b')
    (motive_2 := fun l b _ => ∀ {l' : List Item} {b' r r' : Bytes}, EncodesAll l' b' → l.length = l'.length → b ++ r = b' ++ r' →
      l = l' ∧ b = b') ?_ ?_ ?_ ?_ ?_ ?_ ?_ ?_ ?_ ?_ h
  case refine_1 =>
    intro n h hh j b' r r' hj e
    cases hj with
    | number h2 =>
      obtain ⟨_, rfl, rfl, _⟩ := head_unique hh h2 e
      exact ⟨rfl, rfl⟩
    | bignum _ _ h2 _ => exact absurd (head_unique hh h2 (e.trans (List.append_assoc _ _ _))).1 (by decide)
    | bytes h2 => exact absurd (head_unique hh h2 (e.trans (List.append_assoc _ _ _))).1 (by decide)
    | text h2 => exact absurd (head_unique hh h2 (e.trans (List.append_assoc _ _ _))).1 (by decide)
    | array h2 _ => exact absurd (head_unique hh h2 (e.trans (List.append_assoc _ _ _))).1 (by decide)
    | no => exact absurd e (head_ne (by decide) (by decide) hh)
    | yes => exact absurd e (head_ne (by decide) (by decide) hh)
    | null => exact absurd e (head_ne (by decide) (by decide) hh)
  case refine_2 =>
    intro b t h _ _ ht hh j b' r r' hj e
    rw [List.append_assoc, List.append_assoc] at e
    cases hj with
    | number h2 => exact absurd (head_unique ht h2 e).1 (by decide)
    | bignum _ _ h2 h3 =>
      obtain ⟨_, _, rfl, e2⟩ := head_unique ht h2 (e.trans (List.append_assoc _ _ _))
      rw [List.append_assoc] at e2
      obtain ⟨_, hl, rfl, e3⟩ := head_unique hh h3 e2
      obtain ⟨rfl, _⟩ := List.append_inj e3 hl
      exact ⟨rfl, rfl⟩
    | bytes h2 => exact absurd (head_unique ht h2 (e.trans (List.append_assoc _ _ _))).1 (by decide)
    | text h2 => exact absurd (head_unique ht h2 (e.trans (List.append_assoc _ _ _))).1 (by decide)
    | array h2 _ => exact absurd (head_unique ht h2 (e.trans (List.append_assoc _ _ _))).1 (by decide)
    | no => exact absurd e (head_ne (by decide) (by decide) ht)
    | yes => exact absurd e (head_ne (by decide) (by decide) ht)
    | null => exact absurd e (head_ne (by decide) (by decide) ht)
  case refine_3 =>
    intro b h hh j b' r r' hj e
    rw [List.append_assoc] at e
    cases hj with
    | number h2 => exact absurd (head_unique hh h2 e).1 (by decide)
    | bignum _ _ h2 _ => exact absurd (head_unique hh h2 (e.trans (List.append_assoc _ _ _))).1 (by decide)
    | bytes h2 =>
      obtain ⟨_, hl, rfl, e2⟩ := head_unique hh h2 (e.trans (List.append_assoc _ _ _))
      obtain ⟨rfl, _⟩ := List.append_inj e2 hl
      exact ⟨rfl, rfl⟩
    | text h2 => exact absurd (head_unique hh h2 (e.trans (List.append_assoc _ _ _))).1 (by decide)
    | array h2 _ => exact absurd (head_unique hh h2 (e.trans (List.append_assoc _ _ _))).1 (by decide)
    | no => exact absurd e (head_ne (by decide) (by decide) hh)
    | yes => exact absurd e (head_ne (by decide) (by decide) hh)
    | null => exact absurd e (head_ne (by decide) (by decide) hh)
  case refine_4 =>
    intro s h hh j b' r r' hj e
    rw [List.append_assoc] at e
    cases hj with
    | number h2 => exact absurd (head_unique hh h2 e).1 (by decide)
    | bignum _ _ h2 _ => exact absurd (head_unique hh h2 (e.trans (List.append_assoc _ _ _))).1 (by decide)
    | bytes h2 => exact absurd (head_unique hh h2 (e.trans (List.append_assoc _ _ _))).1 (by decide)
    | text h2 =>
      obtain ⟨_, hl, rfl, e2⟩ := head_unique hh h2 (e.trans (List.append_assoc _ _ _))
      obtain ⟨hs, _⟩ := List.append_inj e2 hl
      have := utf8_inj hs
      subst this
      exact ⟨rfl, rfl⟩
    | array h2 _ => exact absurd (head_unique hh h2 (e.trans (List.append_assoc _ _ _))).1 (by decide)
    | no => exact absurd e (head_ne (by decide) (by decide) hh)
    | yes => exact absurd e (head_ne (by decide) (by decide) hh)
    | null => exact absurd e (head_ne (by decide) (by decide) hh)
  case refine_5 =>
    intro l b h hh _ ih j b' r r' hj e
    rw [List.append_assoc] at e
    cases hj with
    | number h2 => exact absurd (head_unique hh h2 e).1 (by decide)
    | bignum _ _ h2 _ => exact absurd (head_unique hh h2 (e.trans (List.append_assoc _ _ _))).1 (by decide)
    | bytes h2 => exact absurd (head_unique hh h2 (e.trans (List.append_assoc _ _ _))).1 (by decide)
    | text h2 => exact absurd (head_unique hh h2 (e.trans (List.append_assoc _ _ _))).1 (by decide)
    | array h2 h3 =>
      obtain ⟨_, hl, rfl, e2⟩ := head_unique hh h2 (e.trans (List.append_assoc _ _ _))
      obtain ⟨rfl, rfl⟩ := ih h3 hl e2
      exact ⟨rfl, rfl⟩
    | no => exact absurd e (head_ne (by decide) (by decide) hh)
    | yes => exact absurd e (head_ne (by decide) (by decide) hh)
    | null => exact absurd e (head_ne (by decide) (by decide) hh)
  case refine_6 => exact fun hj e => simple_unique (.inl ⟨rfl, rfl⟩) hj e
  case refine_7 => exact fun hj e => simple_unique (.inr (.inl ⟨rfl, rfl⟩)) hj e
  case refine_8 => exact fun hj e => simple_unique (.inr (.inr ⟨rfl, rfl⟩)) hj e
  case refine_9 =>
    intro l' b' r r' hl hlen _
    cases hl with
    | nil => exact ⟨rfl, rfl⟩
    | cons _ _ => simp at hlen
  case refine_10 =>
    intro i l a b _ _ ih1 ih2 l' b' r r' hl hlen e
    cases hl with
    | nil => simp at hlen
    | cons h1 h2 =>
      rw [List.append_assoc, List.append_assoc] at e
      obtain ⟨rfl, rfl⟩ := ih1 h1 e
      obtain ⟨rfl, rfl⟩ := ih2 h2 (by simpa using hlen) (List.append_cancel_left e)
      exact ⟨rfl, rfl⟩

/-! ## An item is written in one way -/

theorem bigEndian_inj {a b : Bytes} (hl : a.length = b.length) (h : bigEndian a = bigEndian b) : a = b := by
  rw [bigEndian_eq, bigEndian_eq] at h
  exact beNat_inj hl h

theorem bigEndian_lt (l : Bytes) : bigEndian l < 256 ^ l.length := by
  rw [bigEndian_eq]
  exact beNat_lt l

/-- How long the argument is, from its value. -/
theorem head_form {m n : Nat} {h : Bytes} (hh : Head m n h) : ∃ b l, h = b :: l ∧ ((n < 24 ∧ l = [] ∧ b.toNat = 32 * m + n) ∨
    (bigEndian l = n ∧ ((24 ≤ n ∧ n < 2 ^ 8 ∧ l.length = 1 ∧ b.toNat = 32 * m + 24) ∨
      (2 ^ 8 ≤ n ∧ n < 2 ^ 16 ∧ l.length = 2 ∧ b.toNat = 32 * m + 25) ∨ (2 ^ 16 ≤ n ∧ n < 2 ^ 32 ∧ l.length = 4 ∧ b.toNat = 32 * m + 26) ∨
      (2 ^ 32 ≤ n ∧ l.length = 8 ∧ b.toNat = 32 * m + 27)))) := by
  cases hh with
  | direct h1 h2 => exact ⟨_, _, rfl, .inl ⟨h1, rfl, h2⟩⟩
  | @one b l h1 h2 h3 h4 =>
    have := bigEndian_lt l
    rw [h3] at this
    exact ⟨_, _, rfl, .inr ⟨h4, .inl ⟨h1, by omega, h3, h2⟩⟩⟩
  | @two b l h1 h2 h3 h4 =>
    have := bigEndian_lt l
    rw [h3] at this
    exact ⟨_, _, rfl, .inr ⟨h4, .inr (.inl ⟨h1, by omega, h3, h2⟩)⟩⟩
  | @four b l h1 h2 h3 h4 =>
    have := bigEndian_lt l
    rw [h3] at this
    exact ⟨_, _, rfl, .inr ⟨h4, .inr (.inr (.inl ⟨h1, by omega, h3, h2⟩))⟩⟩
  | eight h1 h2 h3 h4 => exact ⟨_, _, rfl, .inr ⟨h4, .inr (.inr (.inr ⟨h1, h3, h2⟩))⟩⟩

theorem head_lt {m n : Nat} {h : Bytes} (hh : Head m n h) : n < 2 ^ 64 := by
  cases hh with
  | direct h1 _ => omega
  | @one b l h1 h2 h3 h4 => have := bigEndian_lt l; rw [h3] at this; omega
  | @two b l h1 h2 h3 h4 => have := bigEndian_lt l; rw [h3] at this; omega
  | @four b l h1 h2 h3 h4 => have := bigEndian_lt l; rw [h3] at this; omega
  | @eight b l h1 h2 h3 h4 => have := bigEndian_lt l; rw [h3] at this; omega

theorem head_function {m n : Nat} {h h' : Bytes} (hh : Head m n h) (hh' : Head m n h') : h = h' := by
  obtain ⟨b, l, rfl, a⟩ := head_form hh
  obtain ⟨b', l', rfl, a'⟩ := head_form hh'
  have key : b.toNat = b'.toNat ∧ l.length = l'.length ∧ (l = [] ∧ l' = [] ∨ bigEndian l = bigEndian l') := by
    rcases a with ⟨h1, rfl, h3⟩ | ⟨hv, ⟨h1, h2, h3, h4⟩ | ⟨h1, h2, h3, h4⟩ | ⟨h1, h2, h3, h4⟩ | ⟨h1, h3, h4⟩⟩ <;>
    rcases a' with ⟨g1, rfl, g3⟩ | ⟨gv, ⟨g1, g2, g3, g4⟩ | ⟨g1, g2, g3, g4⟩ | ⟨g1, g2, g3, g4⟩ | ⟨g1, g3, g4⟩⟩ <;>
    first
    | omega
    | exact ⟨by omega, by omega, .inr (by omega)⟩
    | exact ⟨by omega, rfl, .inl ⟨rfl, rfl⟩⟩
  obtain ⟨k1, k2, k3⟩ := key
  have hb : b = b' := UInt8.toNat.inj k1
  rcases k3 with ⟨rfl, rfl⟩ | k3
  · rw [hb]
  · rw [hb, bigEndian_inj k2 k3]

theorem encodes_function {i : Item} {b : Bytes} (h : Encodes i b) : ∀ {b' : Bytes}, Encodes i b' → b = b' := by
  refine Encodes.rec (motive_1 := fun i b _ => ∀ {b' : Bytes}, Encodes i b' → b = b')
    (motive_2 := fun l b _ => ∀ {b' : Bytes}, EncodesAll l b' → b = b') ?_ ?_ ?_ ?_ ?_ ?_ ?_ ?_ ?_ ?_ h
  case refine_1 =>
    intro n h hh b' hj
    generalize hi : Item.number n = i at hj
    cases hj with
    | number h2 =>
      cases hi
      exact head_function hh h2
    | bignum h1 _ _ _ =>
      have := head_lt hh
      simp only [Item.number.injEq] at hi
      omega
    | _ => simp at hi
  case refine_2 =>
    intro b t h hb hz ht hh b' hj
    generalize hi : Item.number (bigEndian b) = i at hj
    cases hj with
    | number h2 =>
      have := head_lt h2
      simp only [Item.number.injEq] at hi
      omega
    | @bignum c t' h' _ hz' ht' hh' =>
      simp only [Item.number.injEq] at hi
      have hz2 : ∀ {d : Bytes}, d.head? ≠ some 0 → ∀ x t, d = x :: t → x ≠ 0 := fun hd x t e hx => hd (by rw [e, hx]; rfl)
      have : b = c := stripped_unique (hz2 hz) (hz2 hz') (by rw [← bigEndian_eq, ← bigEndian_eq, hi])
      subst this
      rw [head_function ht ht', head_function hh hh']
    | _ => simp at hi
  case refine_3 =>
    intro b h hh b' hj
    cases hj with
    | bytes h2 => rw [head_function hh h2]
  case refine_4 =>
    intro s h hh b' hj
    cases hj with
    | text h2 => rw [head_function hh h2]
  case refine_5 =>
    intro l b h hh _ ih b' hj
    cases hj with
    | array h2 h3 => rw [head_function hh h2, ih h3]
  case refine_6 => intro b' hj; cases hj; rfl
  case refine_7 => intro b' hj; cases hj; rfl
  case refine_8 => intro b' hj; cases hj; rfl
  case refine_9 => intro b' hj; cases hj; rfl
  case refine_10 =>
    intro i l a b _ _ ih1 ih2 b' hl
    cases hl with
    | cons h1 h2 => rw [ih1 h1, ih2 h2]

end Cbor
open Cbor

/-- **C84** A stored event is the data item of its time, the number of its variant and its fields. -/
theorem C84_event {nil : Bool} {t : Nat} {e : Event} (ht : Word64 t) (h : Spec.Event.Typed e) :
    Encodes (Spec.Event.item nil t e) (event nil t e) :=
  encodes_struct (.req (encodes_u64 ht) <| .req (encodes_payload h) .nil) (by simp)

/-- **C84** Bytes that begin with the encoding of an item begin with that of no other: there is one way to read them. -/
theorem C84_unique {i j : Item} {b b' r r' : Bytes} (h : Encodes i b) (h' : Encodes j b') (e : b ++ r = b' ++ r') :
    i = j ∧ b = b' ∧ r = r' := by
  obtain ⟨rfl, rfl⟩ := encodes_unique h h' e
  exact ⟨rfl, rfl, List.append_cancel_left e⟩

/-- **C84** The bytes of a stored event are exactly what RFC 8949 says of its item: one item has one encoding. -/
theorem C84_bytes {nil : Bool} {t : Nat} {e : Event} {b : Bytes} (ht : Word64 t) (h : Spec.Event.Typed e) :
    Encodes (Spec.Event.item nil t e) b ↔ b = event nil t e :=
  ⟨fun hb => encodes_function hb (C84_event ht h), fun hb => hb ▸ C84_event ht h⟩

/-- **C84** Different events, or events of different times, are different items. -/
theorem C84_distinct {nil : Bool} {t t' : Nat} {e e' : Event} (ht : Word64 t) (h : Spec.Event.Typed e) (ht' : Word64 t')
    (h' : Spec.Event.Typed e') (hi : Spec.Event.item nil t e = Spec.Event.item nil t' e') : t = t' ∧ e = e' := by
  have hb := (C84_bytes (nil := nil) ht' h').1 (hi ▸ C84_event ht h)
  exact C50_prefix_free (nil := nil) ht h ht' h' ⟨[], by rw [hb, List.append_nil]⟩

/-- **C84** Whoever reads CBOR reads from a stored event this item, and nothing else. -/
theorem C84_read {nil : Bool} {t : Nat} {e : Event} {i : Item} {b rest rest' : Bytes} (ht : Word64 t) (h : Spec.Event.Typed e)
    (hi : Encodes i b) (hb : b ++ rest = event nil t e ++ rest') : i = Spec.Event.item nil t e ∧ rest = rest' := by
  obtain ⟨rfl, rfl, rfl⟩ := C84_unique hi (C84_event (nil := nil) ht h) hb
  exact ⟨rfl, rfl⟩

/-- **C84** The entries of the log in stable memory are the items of the recorded events. -/
theorem C84_log {nil : Bool} {l : StableLog} {log : List (Nat × Event)} (h : Holds nil l log) :
    l.length = log.length ∧ ∀ p ∈ l.zip log, Encodes (Spec.Event.item nil p.2.1 p.2.2) p.1 := by
  induction h with
  | empty => exact ⟨rfl, by simp⟩
  | @record l log now e _ ht he ih =>
    refine ⟨by simp [StableLog.record, ih.1], fun p hp => ?_⟩
    rw [StableLog.record, List.zip_append ih.1] at hp
    rcases List.mem_append.1 hp with hp | hp
    · exact ih.2 p hp
    · simp only [List.zip_cons_cons, List.zip_nil_right, List.mem_singleton] at hp
      subst hp
      exact C84_event ht he

/-- **C84** The memo of a mint. -/
theorem C84_mint {m : MintMemo} (h : Spec.MintMemo.Typed m) : Encodes (Spec.MintMemo.item m) (Memo.bytes (.mint m)) := by
  cases m with
  | convert f x i =>
    exact encodes_variant (k := 0) (by decide) (.req (encodes_address _) <| .req (encodes_hash _) <| .req (encodes_u256 h.2.2) .nil) (by simp)
  | reimburseTransaction w x =>
    exact encodes_variant (k := 1) (by decide) (.req (encodes_u64 h.1) <| .req (encodes_hash _) .nil) (by simp)
  | reimburseWithdrawal w => exact encodes_variant (k := 2) (by decide) (.req (encodes_u64 h) .nil) (by simp)

/-- **C84** The memo of a burn. -/
theorem C84_burn {m : BurnMemo} (h : Spec.BurnMemo.Typed m) : Encodes (Spec.BurnMemo.item m) (Memo.bytes (.burn m)) := by
  cases m with
  | convert t => exact encodes_variant (k := 0) (by decide) (.req (encodes_address _) .nil) (by simp)
  | erc20GasFee y a t =>
    exact encodes_variant (k := 1) (by decide) (.req (encodes_text h.1) <| .req (encodes_u256 h.2.1) <| .req (encodes_address _) .nil) (by simp)
  | erc20Convert w t =>
    exact encodes_variant (k := 2) (by decide) (.req (encodes_u64 h.1) <| .req (encodes_address _) .nil) (by simp)

/-- **C84** Every number of the program, of 256 bits or arbitrarily many, is the item that is that number: an unsigned integer below `2^64`
and a bignum from there. -/
theorem C84_number {n : Nat} : (Word n → Encodes (.number n) (u256 n)) ∧ (Big n → Encodes (.number n) (nat n)) :=
  ⟨encodes_u256, encodes_nat⟩

namespace Example

/-- The numbers `2^64` and `2^64 - 1`, events at time 7, and a memo. -/
theorem C84_example :
    u256 (2 ^ 64) = [0xc2, 0x49, 1, 0, 0, 0, 0, 0, 0, 0, 0] ∧
    u256 (2 ^ 64 - 1) = [0x1b, 255, 255, 255, 255, 255, 255, 255, 255] ∧
    event true 7 (.syncedToBlock 300) = [0x82, 7, 0x82, 6, 0x81, 0x19, 1, 44] ∧
    Spec.Event.item true 7 (.syncedToBlock 300) = .array [.number 7, .array [.number 6, .array [.number 300]]] ∧
    event true 7 (.upgrade {}) = [0x82, 7, 0x82, 1, 0x81, 0x80] ∧
    event false 7 (.upgrade {}) = [0x82, 7, 0x82, 1, 0x81, 0x8a, 0xf6, 0xf6, 0xf6, 0xf6, 0xf6, 0xf6, 0xf6, 0xf6, 0xf6, 0xf6] ∧
    Memo.bytes (.mint (.reimburseWithdrawal 24)) = [0x82, 2, 0x81, 0x18, 24] := by
  refine ⟨by decide +kernel, by decide +kernel, by decide +kernel, rfl, by decide +kernel, by decide +kernel, by decide +kernel⟩

/-- A longer form of a number, or a number as a bignum with zeros in front, is not what the minter writes. -/
theorem C84_example_form : ¬ Encodes (.number 5) [0x18, 5] ∧ ¬ Encodes (.number 5) [0xc2, 0x41, 5] := by
  constructor
  · intro h
    generalize hb : [(0x18 : UInt8), 5] = b at h
    generalize hi : Item.number 5 = i at h
    cases h with
    | number h =>
      cases hi
      cases h with
      | direct _ h2 => simp at hb
      | one h _ _ _ => exact absurd h (by decide)
      | two h _ _ _ => exact absurd h (by decide)
      | four h _ _ _ => exact absurd h (by decide)
      | eight h _ _ _ => exact absurd h (by decide)
    | bignum h1 _ _ _ =>
      simp only [Item.number.injEq] at hi
      omega
    | _ => simp at hi
  · intro h
    generalize hb : [(0xc2 : UInt8), 0x41, 5] = b at h
    generalize hi : Item.number 5 = i at h
    cases h with
    | number h =>
      cases hi
      cases h with
      | direct _ h2 => simp at hb
      | one h _ _ _ => exact absurd h (by decide)
      | two h _ _ _ => exact absurd h (by decide)
      | four h _ _ _ => exact absurd h (by decide)
      | eight h _ _ _ => exact absurd h (by decide)
    | bignum h1 _ _ _ =>
      simp only [Item.number.injEq] at hi
      omega
    | _ => simp at hi

end Example
end EvmMinter
