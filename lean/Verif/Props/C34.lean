import Verif.Model.Tx
import Verif.Spec.RlpDecode
import Verif.Props.C10
import Verif.Props.C15
import Verif.Props.C35
import Verif.Base.Keccak256
/-!
# C34: transactions are encoded faithfully
-/

namespace EvmMinter
open Spec

namespace Rlp

mutual
/-- A bound on the recursion needed to read the encoding of a tree. -/
def weight : Rlp → Nat
  | .str _ => 1
  | .list l => 1 + weightList l
def weightList : List Rlp → Nat
  | [] => 0
  | r :: t => 1 + weight r + weightList t
end

theorem length_header_pos (off n : Nat) : 0 < (header off n).length := by
  unfold header; split <;> simp

theorem length_encStr_pos (b : Bytes) : 0 < (encStr b).length := by
  unfold encStr
  split
  · split <;> simp
  · rw [List.length_append]; have := length_header_pos 128 b.length; omega

mutual
theorem weight_le : ∀ r : Rlp, weight r + 1 ≤ 2 * (encode r).length
  | .str b => by
    have := length_encStr_pos b
    simp only [weight, encode]; omega
  | .list l => by
    have := weightList_le l
    have := length_header_pos 192 (encodeList l).length
    simp only [weight, encode, List.length_append]; omega
theorem weightList_le : ∀ l : List Rlp, weightList l ≤ 2 * (encodeList l).length
  | [] => by simp [weightList]
  | r :: t => by
    have := weight_le r
    have := weightList_le t
    simp only [weightList, encodeList, List.length_append]; omega
end

theorem takeN_append (p x : Bytes) : takeN p.length (p ++ x) = some (p, x) := by
  unfold takeN
  rw [if_neg (by simp)]
  simp

theorem longLength_minBE {n : Nat} (h1 : 56 ≤ n) (h2 : n < 2 ^ 64) (x : Bytes) :
    longLength (minBE 8 n).length (minBE 8 n ++ x) = some (n, x) := by
  unfold longLength
  rw [takeN_append]
  have hv : beNat (minBE 8 n) = n := beNat_minBE (by simpa using h2)
  simp only [hv]
  rw [if_neg]
  rintro (h | h)
  · cases hm : minBE 8 n with
    | nil => rw [hm] at h; simp at h
    | cons b t =>
      rw [hm] at h
      simp only [List.head?_cons, Option.some.injEq] at h
      exact stripZeros_head hm h
  · omega

theorem minBE_pos {n : Nat} (h1 : 56 ≤ n) (h2 : n < 2 ^ 64) : 1 ≤ (minBE 8 n).length ∧ (minBE 8 n).length ≤ 8 := by
  refine ⟨?_, length_minBE_le 8 n⟩
  cases hm : minBE 8 n with
  | nil =>
    have hv : beNat (minBE 8 n) = n := beNat_minBE (by simpa using h2)
    rw [hm] at hv
    simp [beNat] at hv
    omega
  | cons b t => simp

theorem toNat_ofNat_lt {n : Nat} (h : n < 256) : (UInt8.ofNat n).toNat = n := by
  simp [Nat.mod_eq_of_lt h]

theorem firstItem_str (b : Bytes) (h : b.length < 2 ^ 64) (x : Bytes) :
    firstItem (encStr b ++ x) = some (false, b, x) := by
  unfold encStr
  split
  · rename_i y
    split
    · rename_i hy
      simp only [List.cons_append, List.nil_append, firstItem, if_pos hy]
    · rename_i hy
      show firstItem (129 :: y :: x) = _
      simp only [firstItem]
      rw [if_neg (by decide), if_pos (by decide)]
      have : takeN ((129 : UInt8).toNat - 128) (y :: x) = some ([y], x) := takeN_append [y] x
      rw [this]
      simp only [if_neg hy]
  · rename_i hne
    unfold header
    split
    · rename_i hl
      have hv := toNat_ofNat_lt (n := 128 + b.length) (by omega)
      simp only [List.cons_append, List.nil_append, firstItem, hv]
      rw [if_neg (by omega), if_pos (by omega)]
      have : takeN (128 + b.length - 128) (b ++ x) = some (b, x) := by
        rw [show 128 + b.length - 128 = b.length by omega]; exact takeN_append b x
      rw [this]
      split
      · rename_i heq; simp at heq
      · rename_i heq
        simp only [Option.some.injEq, Prod.mk.injEq] at heq
        exact absurd heq.1 (hne _)
      · rename_i heq
        simp only [Option.some.injEq, Prod.mk.injEq] at heq
        rw [heq.1, heq.2]
    · rename_i hl
      obtain ⟨m1, m2⟩ := minBE_pos (n := b.length) (by omega) h
      have hv := toNat_ofNat_lt (n := 128 + 55 + (minBE 8 b.length).length) (by omega)
      simp only [List.cons_append, firstItem, hv, List.append_assoc]
      rw [if_neg (by omega), if_neg (by omega), if_pos (by omega)]
      rw [show 128 + 55 + (minBE 8 b.length).length - 183 = (minBE 8 b.length).length by omega]
      rw [longLength_minBE (by omega) h]
      simp only [takeN_append, Option.map_some]

theorem firstItem_list (p : Bytes) (h : p.length < 2 ^ 64) (x : Bytes) :
    firstItem (header 192 p.length ++ p ++ x) = some (true, p, x) := by
  unfold header
  split
  · rename_i hl
    have hv := toNat_ofNat_lt (n := 192 + p.length) (by omega)
    simp only [List.cons_append, List.nil_append, firstItem, hv]
    rw [if_neg (by omega), if_neg (by omega), if_neg (by omega), if_pos (by omega)]
    rw [show 192 + p.length - 192 = p.length by omega, takeN_append]
    rfl
  · rename_i hl
    obtain ⟨m1, m2⟩ := minBE_pos (n := p.length) (by omega) h
    have hv := toNat_ofNat_lt (n := 192 + 55 + (minBE 8 p.length).length) (by omega)
    simp only [List.cons_append, firstItem, hv, List.append_assoc]
    rw [if_neg (by omega), if_neg (by omega), if_neg (by omega), if_neg (by omega)]
    rw [show 192 + 55 + (minBE 8 p.length).length - 247 = (minBE 8 p.length).length by omega]
    rw [longLength_minBE (by omega) h]
    simp only [takeN_append, Option.map_some]

theorem length_encStr_ge (b : Bytes) : b.length ≤ (encStr b).length := by
  unfold encStr
  split
  · split <;> simp [header]
  · simp

mutual
theorem decodeItem_encode : ∀ (r : Rlp) (f : Nat) (x : Bytes), (encode r).length < 2 ^ 64 → weight r ≤ f →
    decodeItem f (encode r ++ x) = some (r, x)
  | .str b, f, x, hl, hf => by
    cases f with
    | zero => simp [weight] at hf
    | succ f =>
      have := length_encStr_ge b
      simp only [encode] at hl
      simp only [encode, decodeItem, firstItem_str b (by omega) x]
  | .list l, f, x, hl, hf => by
    cases f with
    | zero => simp [weight] at hf
    | succ f =>
      simp only [encode, List.length_append] at hl
      simp only [weight] at hf
      simp only [encode, decodeItem, firstItem_list (encodeList l) (by omega) x]
      rw [decodeItems_encode l f (by omega) (by omega)]
      rfl
theorem decodeItems_encode : ∀ (l : List Rlp) (f : Nat), (encodeList l).length < 2 ^ 64 → weightList l ≤ f →
    decodeItems f (encodeList l) = some l
  | [], f, hl, hf => by cases f <;> rfl
  | r :: t, f, hl, hf => by
    cases f with
    | zero => simp [weightList] at hf
    | succ f =>
      simp only [encodeList, List.length_append] at hl
      simp only [weightList] at hf
      have hpos := weight_le r
      have hne : (encode r ++ encodeList t).isEmpty = false := by
        cases he : encode r ++ encodeList t with
        | nil =>
          have := congrArg List.length he
          simp only [List.length_append, List.length_nil] at this
          omega
        | cons _ _ => rfl
      simp only [encodeList, decodeItems, hne, Bool.false_eq_true, if_false]
      rw [decodeItem_encode r f _ (by omega) (by omega)]
      simp only
      rw [decodeItems_encode t f (by omega) (by omega)]
      rfl
end

/-- Reading the encoding of a tree returns the tree. -/
theorem decode_encode (r : Rlp) (h : (encode r).length < 2 ^ 64) : decodeRlp (encode r) = some r := by
  unfold decodeRlp
  have hw := weight_le r
  have := decodeItem_encode r (2 * (encode r).length + 1) [] h (by omega)
  rw [List.append_nil] at this
  rw [this]

end Rlp

/-- The fields are in the range of their types; the encoding of the whole is shorter than 2^64 bytes, the limit of RLP. -/
structure Tx.Encodable (t : Tx) : Prop where
  chainId : t.chainId < 2 ^ 64
  nonce : t.nonce < 2 ^ 256
  maxPriorityFeePerGas : t.maxPriorityFeePerGas < 2 ^ 256
  maxFeePerGas : t.maxFeePerGas < 2 ^ 256
  gasLimit : t.gasLimit < 2 ^ 256
  destination : t.destination < 2 ^ 160
  amount : t.amount < 2 ^ 256
  accessList : ∀ i ∈ t.accessList, i.address < 2 ^ 160 ∧ ∀ k ∈ i.storageKeys, k < 2 ^ 256

theorem asNat_minBE {w n : Nat} (h : n < 256 ^ w) : asNat w (.str (minBE w n)) = some n := by
  simp only [asNat]
  rw [if_neg, beNat_minBE h]
  rintro (hh | hh)
  · cases hm : minBE w n with
    | nil => rw [hm] at hh; simp at hh
    | cons b t =>
      rw [hm] at hh
      simp only [List.head?_cons, Option.some.injEq] at hh
      exact stripZeros_head hm hh
  · have := length_minBE_le w n; omega

theorem asFixed_toBE {w n : Nat} (h : n < 256 ^ w) : asFixed w (.str (toBE w n)) = some n := by
  simp only [asFixed]
  rw [if_pos (length_toBE w n), beNat_toBE_of_lt h]

theorem mapAll_map {α β : Type} (f : β → Option α) (g : α → β) (l : List α) (h : ∀ a ∈ l, f (g a) = some a) :
    mapAll f (l.map g) = some l := by
  induction l with
  | nil => rfl
  | cons a t ih =>
    simp only [List.map_cons, mapAll, h a List.mem_cons_self, ih (fun a ha => h a (List.mem_cons_of_mem _ ha))]

theorem asTx_rlpInner {t : Tx} (h : t.Encodable) : asTx t.rlpInner = some t := by
  have hal : asAccessList (.list (t.accessList.map AccessListItem.rlp)) = some t.accessList := by
    unfold asAccessList
    refine mapAll_map _ _ _ fun i hi => ?_
    obtain ⟨h1, h2⟩ := h.accessList i hi
    simp only [AccessListItem.rlp, asAccessListItem, asFixed_toBE (w := 20) (n := i.address) (by simpa using h1)]
    rw [mapAll_map (asFixed 32) (fun k => Rlp.str (toBE 32 k)) _ fun k hk => asFixed_toBE (by simpa using h2 k hk)]
  simp only [Tx.rlpInner, asTx, hal, asNat_minBE (w := 8) (n := t.chainId) (by simpa using h.chainId),
    asNat_minBE (w := 32) (n := t.nonce) (by simpa using h.nonce),
    asNat_minBE (w := 32) (n := t.maxPriorityFeePerGas) (by simpa using h.maxPriorityFeePerGas),
    asNat_minBE (w := 32) (n := t.maxFeePerGas) (by simpa using h.maxFeePerGas),
    asNat_minBE (w := 32) (n := t.gasLimit) (by simpa using h.gasLimit),
    asNat_minBE (w := 32) (n := t.amount) (by simpa using h.amount),
    asFixed_toBE (w := 20) (n := t.destination) (by simpa using h.destination), asBytes]
  rfl

/-- **C34.** A node that reads the payload to be signed reads exactly the transaction. -/
theorem C34_read_unsigned (t : Tx) (h : t.Encodable) (hl : t.signingBytes.length < 2 ^ 64) :
    readUnsigned t.signingBytes = some t := by
  have hl' : (Rlp.encode (.list t.rlpInner)).length < 2 ^ 64 := by
    simp only [Tx.signingBytes, List.length_cons] at hl; omega
  simp only [Tx.signingBytes, readUnsigned, Rlp.decode_encode _ hl', asTx_rlpInner h]

/-- **C34.** A node that reads the broadcast bytes reads exactly the transaction and the signature. -/
theorem C34_read_signed (t : SignedTx) (h : t.tx.Encodable) (hr : t.signature.r < 2 ^ 256) (hs : t.signature.s < 2 ^ 256)
    (hl : t.rawBytes.length < 2 ^ 64) : readSigned t.rawBytes = some t := by
  have hl' : (Rlp.encode (.list (t.tx.rlpInner ++ t.signature.rlp))).length < 2 ^ 64 := by
    simp only [SignedTx.rawBytes, List.length_cons] at hl; omega
  have h9 : t.tx.rlpInner.length = 9 := rfl
  have h1 : (t.tx.rlpInner ++ t.signature.rlp).take 9 = t.tx.rlpInner := by
    rw [← h9]; exact List.take_left
  have h2 : (t.tx.rlpInner ++ t.signature.rlp).drop 9 = t.signature.rlp := by
    rw [← h9]; exact List.drop_left
  have h3 : asSignature t.signature.rlp = some t.signature := by
    have hy : asNat 1 (.str (if t.signature.yParity then [1] else [])) = some (if t.signature.yParity then 1 else 0) := by
      cases t.signature.yParity <;> rfl
    simp only [Signature.rlp, asSignature, hy, asNat_minBE (w := 32) (n := t.signature.r) (by simpa using hr),
      asNat_minBE (w := 32) (n := t.signature.s) (by simpa using hs)]
    obtain ⟨_, y, r, s⟩ := t
    cases y <;> rfl
  simp only [SignedTx.rawBytes, readSigned, Rlp.decode_encode _ hl', h1, h2, asTx_rlpInner h, h3]
  rfl

/-- **C34.** Transactions with the same payload to be signed are equal. -/
theorem C34_unsigned_injective (t t' : Tx) (h : t.Encodable) (h' : t'.Encodable) (hl : t.signingBytes.length < 2 ^ 64)
    (he : t.signingBytes = t'.signingBytes) : t = t' := by
  have h1 := C34_read_unsigned t h hl
  rw [he, C34_read_unsigned t' h' (he ▸ hl)] at h1
  exact (Option.some.inj h1).symm

/-- **C34.** Signed transactions with the same bytes are equal. -/
theorem C34_signed_injective (t t' : SignedTx) (h : t.tx.Encodable) (h' : t'.tx.Encodable)
    (hr : t.signature.r < 2 ^ 256) (hs : t.signature.s < 2 ^ 256) (hr' : t'.signature.r < 2 ^ 256)
    (hs' : t'.signature.s < 2 ^ 256) (hl : t.rawBytes.length < 2 ^ 64) (he : t.rawBytes = t'.rawBytes) : t = t' := by
  have h1 := C34_read_signed t h hr hs hl
  rw [he, C34_read_signed t' h' hr' hs' (he ▸ hl)] at h1
  exact (Option.some.inj h1).symm

/-- **C34.** What is signed is never itself a signed transaction, nor the other way round. -/
theorem C34_not_confused (t : Tx) (t' : SignedTx) (h : t.Encodable) (hl : t.signingBytes.length < 2 ^ 64) :
    t.signingBytes ≠ t'.rawBytes := by
  intro he
  have h1 := C34_read_unsigned t h hl
  rw [he] at h1 hl
  have hl' : (Rlp.encode (.list (t'.tx.rlpInner ++ t'.signature.rlp))).length < 2 ^ 64 := by
    simp only [SignedTx.rawBytes, List.length_cons] at hl; omega
  simp only [SignedTx.rawBytes, readUnsigned, Rlp.decode_encode _ hl'] at h1
  cases h1

/-! ## The transactions of the minter are encodable -/

theorem Rlp.length_header_le {off n : Nat} : (header off n).length ≤ 9 := by
  unfold header
  split
  · simp
  · have := length_minBE_le 8 n
    simp only [List.length_cons]; omega

theorem Rlp.length_encStr_le (b : Bytes) : (encStr b).length ≤ b.length + 9 := by
  unfold encStr
  split
  · split <;> simp [header]
  · have := Rlp.length_header_le (off := 128) (n := b.length)
    simp only [List.length_append]; omega

/-- Without access list the encoding is at most 400 bytes longer than the call data. -/
theorem Tx.signingBytes_length {t : Tx} (h : t.accessList = []) : t.signingBytes.length ≤ t.data.length + 400 := by
  have e : ∀ w n, (Rlp.encStr (minBE w n)).length ≤ w + 9 := fun w n =>
    Nat.le_trans (Rlp.length_encStr_le _) (Nat.add_le_add_right (length_minBE_le w n) 9)
  have e1 := e 8 t.chainId
  have e2 := e 32 t.nonce
  have e3 := e 32 t.maxPriorityFeePerGas
  have e4 := e 32 t.maxFeePerGas
  have e5 := e 32 t.gasLimit
  have e6 := e 32 t.amount
  have e7 := Rlp.length_encStr_le (toBE 20 t.destination)
  rw [length_toBE] at e7
  have e8 := Rlp.length_encStr_le t.data
  have e9 := @Rlp.length_header_le 192 0
  have e10 := fun n => @Rlp.length_header_le 192 n
  simp only [Tx.signingBytes, Tx.rlpInner, h, List.map_nil, Rlp.encode, Rlp.encodeList, List.length_cons,
    List.length_append, List.length_nil]
  refine Nat.le_trans (Nat.add_le_add_right (Nat.add_le_add_right (e10 _) _) 1) ?_
  omega

section
variable [Keccak]

theorem run_createdNonce {log : List Event} {s : State} (h : Run log s) {i : LedgerBurnIndex} {tx : Tx}
    (he : .createdTransaction i tx ∈ log) : tx.nonce < 2 ^ 256 := by
  obtain ⟨pre, post, s₁, s₂, rfl, hr, hem, ha, hr₂⟩ := run_mem h he (by rintro a h; cases h)
  obtain ⟨t, ht, _⟩ := liftTxs_ok (show liftTxs s₁ (s₁.txs.recordCreatedTransaction i tx) = .ok s₂ from ha)
  obtain ⟨_, _, _, _, _, _, _, h1, h2, _⟩ := Transactions.recordCreatedTransaction_ok ht
  have : U256 = 2 ^ 256 := rfl
  womega

/-- **C34**, for what the minter records: in every execution, every transaction created, resubmitted or signed for a
withdrawal is read back from its signing payload, so signing one payload can never authorise another transaction. -/
theorem C34_recorded {log : List Event} {s : State} (h : Run log s) (hn : NonceNeverLowered log) {e : Event}
    (he : e ∈ log) {i : LedgerBurnIndex} {tx : Tx} (ht : recordedFor e = some (i, tx))
    (hw : ∀ r, .acceptedNativeWithdrawalRequest r ∈ log → r.withdrawalAmount < 2 ^ 256 - 1) :
    tx.Encodable ∧ readUnsigned tx.signingBytes = some tx := by
  obtain ⟨r, h1, h2, h3⟩ := recorded_sound h hn he ht
  have hnonce : tx.nonce < 2 ^ 256 := by
    obtain ⟨inv, tl, _⟩ := run_txInv h hn
    have htx : recordedTx e = some tx := by
      cases e <;> simp_all [recordedFor, recordedTx]
    obtain ⟨j, hk⟩ := tl.core2 e he tx htx
    obtain ⟨tx₀, g1, g2, _⟩ := tl.core3 _ _ _ hk
    exact g2 ▸ run_createdNonce h g1
  have hprio : tx.maxPriorityFeePerGas < 2 ^ 256 := Nat.lt_of_le_of_lt h3.prio h3.maxFee
  have hchain : tx.chainId < 2 ^ 64 := by
    rw [h3.chain]; cases s.evmNetwork <;> decide
  have hpay := h3.pay
  have key : tx.gasLimit < 2 ^ 256 ∧ tx.destination < 2 ^ 160 ∧ tx.amount < 2 ^ 256 ∧ tx.data.length ≤ 68 := by
    cases r with
    | native q =>
      have hp : NativeSound q tx := hpay
      obtain ⟨_, _, s₁, _, _, _, hem, _⟩ := run_mem h h1 (request_ne_init _)
      have hd : q.destination < 2 ^ 160 := hem.2.2
      have ha := hp.amount (hw q h1)
      have hb := hw q h1
      refine ⟨by rw [hp.gas]; decide, by rw [hp.dest]; exact hd, ?_, by rw [hp.data]; decide⟩
      have : tx.amount ≤ q.withdrawalAmount := by rw [← ha]; exact Nat.le_add_right _ _
      exact Nat.lt_of_le_of_lt this (Nat.lt_of_lt_of_le hb (Nat.sub_le _ _))
    | erc20 q =>
      have hp : Erc20Sound q tx := hpay
      obtain ⟨pre, post, s₁, _, hl, hr₁, hem, _⟩ := run_mem h h1 (request_ne_init _)
      obtain ⟨_, _, _, _, symbol, hsym⟩ := hem
      refine ⟨by rw [hp.gas]; decide, ?_, by rw [hp.amount]; decide, ?_⟩
      · rw [hp.dest]
        have R := registry_of_run hr₁
        exact run_token_lt hr₁ ((R.has _ _ _).1 ((DMKM.getEntry_eq R.wf).1 hsym))
      · rw [hp.data, length_encode]
        decide
  refine ⟨⟨hchain, hnonce, hprio, h3.maxFee, key.1, key.2.1, key.2.2.1, by rw [h3.access]; simp⟩, ?_⟩
  refine C34_read_unsigned tx ⟨hchain, hnonce, hprio, h3.maxFee, key.1, key.2.1, key.2.2.1, by rw [h3.access]; simp⟩ ?_
  have := Tx.signingBytes_length h3.access
  have := key.2.2.2
  omega

/-- **C35**, where the program decodes: the call data of every transaction that the minter created, resubmitted or signed is empty, for
a native withdrawal, or it is decoded to the destination and amount of the accepted token withdrawal. So `decode`, which is applied to
these data only (state.rs:396), never panics there. -/
theorem C35_recorded {log : List Event} {s : State} (h : Run log s) (hn : NonceNeverLowered log) {e : Event}
    (he : e ∈ log) {i : LedgerBurnIndex} {tx : Tx} (ht : recordedFor e = some (i, tx)) :
    (∃ q, .acceptedNativeWithdrawalRequest q ∈ log ∧ q.ledgerBurnIndex = i ∧ tx.data = []) ∨
    ∃ q, .acceptedErc20WithdrawalRequest q ∈ log ∧ q.nativeLedgerBurnIndex = i ∧
      Erc20Transfer.decode tx.data = .ok (.ok ⟨q.destination, q.withdrawalAmount⟩) := by
  obtain ⟨r, h1, h2, h3⟩ := recorded_sound h hn he ht
  have hpay := h3.pay
  cases r with
  | native q => exact .inl ⟨q, h1, h2, NativeSound.data hpay⟩
  | erc20 q =>
    obtain ⟨_, _, s₁, _, _, _, hem, _⟩ := run_mem h h1 (request_ne_init _)
    refine .inr ⟨q, h1, h2, ?_⟩
    rw [Erc20Sound.data hpay]
    exact C35_roundtrip _ ⟨hem.2.2.2.1, hem.2.1⟩
end

/-- C35 on the log of the example: its token withdrawal was signed, and the data are its transfer. -/
example : Event.signedTransaction 21 ⟨Example.tx2, Example.sig⟩ ∈ Example.log ∧ Example.tx2.data ≠ [] ∧
    Erc20Transfer.decode Example.tx2.data = .ok (.ok ⟨0xbeef, 200⟩) :=
  ⟨by simp [Example.log], by decide +kernel, by decide +kernel⟩

/-! ## A transaction of the Sepolia network

The transaction 0x66a9a218ea720ac6d2c9e56f7e44836c1541c186b7627bda220857ce34e2df7f, also a unit test of the program. -/

def Example.sepoliaTx : SignedTx where
  tx := {
    chainId := 0xaa36a7, nonce := 6, maxPriorityFeePerGas := 0x59682f00, maxFeePerGas := 0x598653cd, gasLimit := 56511
    destination := 0xb44B5e756A894775FC32EDdf3314Bb1B1944dC34, amount := 1000000000000000
    data := toBE 36 0xb214faa51d882d15b09f8e81e29606305f5fefc5eff3e2309620a3557ecae39d62020000, accessList := [] }
  signature := ⟨true, 0x7d097b81dc8bf5ad313f8d6656146d4723d0e6bb3fb35f1a709e6a3d4426c0f3,
    0x4f8a618d959e7d96e19156f0f5f2ed321b34e2004a0c8fdb7f02bc7d08b74441⟩

example : Example.sepoliaTx.rawBytes = toBE 155 0x02f89883aa36a7068459682f0084598653cd82dcbf94b44b5e756a894775fc32eddf3314bb1b1944dc3487038d7ea4c68000a4b214faa51d882d15b09f8e81e29606305f5fefc5eff3e2309620a3557ecae39d62020000c001a07d097b81dc8bf5ad313f8d6656146d4723d0e6bb3fb35f1a709e6a3d4426c0f3a04f8a618d959e7d96e19156f0f5f2ed321b34e2004a0c8fdb7f02bc7d08b74441 := by
  decide +kernel

example : readSigned Example.sepoliaTx.rawBytes = some Example.sepoliaTx := by decide +kernel

example : beNat (Keccak256.hash Example.sepoliaTx.tx.signingBytes) =
    0x2d9e6453d9864cff7453ca35dcab86be744c641ba4891c2fe9aeaa2f767b9758 := by decide +kernel

example : beNat (Keccak256.hash Example.sepoliaTx.rawBytes) =
    0x66a9a218ea720ac6d2c9e56f7e44836c1541c186b7627bda220857ce34e2df7f := by decide +kernel

example : Example.sepoliaTx.tx.Encodable :=
  ⟨by decide, by decide, by decide, by decide, by decide, by decide, by decide, by intro i hi; cases hi⟩

end EvmMinter
