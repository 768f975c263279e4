import Verif.Lemmas.EventCbor
import Verif.Spec.Example
/-!
# C41: ledger memos identify the operation

`Memo.bytes` is what the ledger gets and shows.
-/

namespace EvmMinter
open Spec Cbor

namespace Spec

def Memo.Typed : Memo → Prop
  | .mint m => MintMemo.Typed m
  | .burn m => BurnMemo.Typed m

/-- The maximal length of a memo on the ledgers of the minter (memo/tests.rs:26-32). -/
def memoLimit : Nat := 80

end Spec

/-- **C41** Two memos with the same bytes are the same: no memo of a mint is one of a burn, and the bytes determine the fields. -/
theorem C41_injective {m m' : Memo} (h : Spec.Memo.Typed m) (h' : Spec.Memo.Typed m') (e : m.bytes = m'.bytes) : m = m' := by
  have cross : ∀ (m : MintMemo) (m' : BurnMemo), mintMemo m ≠ burnMemo m' := by
    intro m m' e
    have h1 := congrArg (·[1]?) e
    have h2 := congrArg (·[2]?) e
    cases m <;> cases m' <;> simp [mintMemo, burnMemo, variant, array, head, u64, struct, req] at h1 h2
  cases m <;> cases m'
  · exact congrArg Memo.mint (Reads.inj (d := readMintMemo) (.mintMemo h) (by rw [show mintMemo _ = mintMemo _ from e]; exact .mintMemo h'))
  · exact absurd e (cross _ _)
  · exact absurd e.symm (cross _ _)
  · exact congrArg Memo.burn (Reads.inj (d := readBurnMemo) (.burnMemo h) (by rw [show burnMemo _ = burnMemo _ from e]; exact .burnMemo h'))

/-- **C41** Two mints for deposits have the same memo only if they are for the same log and sender. -/
theorem C41_deposits {d d' : Deposit} (h : Spec.Deposit.Typed d) (h' : Spec.Deposit.Typed d') :
    d.memo.bytes = d'.memo.bytes ↔ d.source = d'.source ∧ d.fromAddress = d'.fromAddress := by
  have ty : ∀ {d : Deposit}, Spec.Deposit.Typed d → Spec.Memo.Typed d.memo := by
    intro d h
    cases d with
    | native e => exact ⟨h.sender, h.hash, h.index⟩
    | erc20 e => exact ⟨h.sender, h.hash, h.index⟩
  constructor
  · intro e
    have := C41_injective (ty h) (ty h') e
    simp only [Deposit.memo, Memo.mint.injEq, MintMemo.convert.injEq] at this
    refine ⟨?_, this.1⟩
    revert this
    rcases d.source with ⟨a, b⟩
    rcases d'.source with ⟨a', b'⟩
    rintro ⟨_, rfl, rfl⟩
    rfl
  · rintro ⟨h1, h2⟩
    simp only [Deposit.memo, h1, h2]

/-- **C41** Two reimbursements have the same memo only if they are for the same burn index and transaction. -/
theorem C41_reimbursements {r r' : ReimbRequest} (h : Spec.ReimbRequest.Typed r) (h' : Spec.ReimbRequest.Typed r') :
    r.memo.bytes = r'.memo.bytes ↔ r.ledgerBurnIndex = r'.ledgerBurnIndex ∧ r.transactionHash = r'.transactionHash := by
  have ty : ∀ {r : ReimbRequest}, Spec.ReimbRequest.Typed r → Spec.Memo.Typed r.memo := by
    intro r h
    unfold ReimbRequest.memo
    split
    · rename_i x hx
      exact ⟨h.burn, h.hash x hx⟩
    · exact h.burn
  constructor
  · intro e
    have := C41_injective (ty h) (ty h') e
    unfold ReimbRequest.memo at this
    split at this <;> split at this <;> simp_all
  · rintro ⟨h1, h2⟩
    simp only [ReimbRequest.memo, h1, h2]

/-- **C41** The memo of a deposit is not one of a reimbursement. -/
theorem C41_kinds (d : Deposit) (r : ReimbRequest) :
    d.memo.bytes ≠ r.memo.bytes := by
  intro e
  have h1 := congrArg (·[1]?) e
  unfold ReimbRequest.memo at h1
  split at h1 <;> simp [Deposit.memo, Memo.bytes, mintMemo, variant, array, head, u64, struct, req] at h1

/-! ## Size -/

theorem length_address (a : Nat) : (address a).length = 21 := by simp [address, fixed, bytes, length_head]
theorem length_hash (a : Nat) : (Cbor.hash a).length = 34 := by simp [Cbor.hash, fixed, bytes, length_head]
theorem length_u64 (n : Nat) : (u64 n).length ≤ 9 := length_head_le _ _
theorem length_text {s : String} (h : (utf8 s).length ≤ 20) : (text s).length ≤ 21 := by
  rw [text, List.length_append, length_head, if_pos (by omega)]
  omega

/-- Numbers below `256^k` have at most `k` bytes, for `k` that can be written in one byte of head. -/
theorem length_minBE_of_lt {k n : Nat} (hk : k ≤ 32) (h : n < 256 ^ k) : (minBE 32 n).length ≤ k := by
  have h1 := beNat_minBE (w := 32) (n := n) (Nat.lt_of_lt_of_le h (Nat.pow_le_pow_right (by omega) hk))
  rcases Nat.lt_or_ge k (minBE 32 n).length with hl | hl
  · exfalso
    cases hm : minBE 32 n with
    | nil => rw [hm] at hl; simp at hl
    | cons x t =>
      have hx := stripZeros_head (l := toBE 32 n) hm
      rw [hm] at h1 hl
      simp only [beNat, List.length_cons] at h1 hl
      have hx1 : 1 ≤ x.toNat := by
        rcases Nat.eq_zero_or_pos x.toNat with h0 | h0
        · exact absurd (UInt8.toNat.inj (by simpa using h0)) hx
        · exact h0
      have : 256 ^ k ≤ 256 ^ t.length := Nat.pow_le_pow_right (by omega) (by omega)
      have : 1 * 256 ^ t.length ≤ x.toNat * 256 ^ t.length := Nat.mul_le_mul_right _ hx1
      omega
  · exact hl

theorem le_length_minBE {k n : Nat} (hn : n < 256 ^ 32) (h : 256 ^ k ≤ n) : k < (minBE 32 n).length := by
  have h1 := beNat_minBE hn
  have h2 := beNat_lt (minBE 32 n)
  rw [h1] at h2
  rcases Nat.lt_or_ge k (minBE 32 n).length with hl | hl
  · exact hl
  · have := Nat.pow_le_pow_right (n := 256) (by omega) hl
    omega

theorem length_u256_big {n : Nat} (h : 2 ^ 64 ≤ n) : (u256 n).length = 1 + (bytes (minBE 32 n)).length := by
  unfold u256
  rw [if_neg (by omega), if_neg (by omega), List.length_append]
  rfl

theorem length_u256 (n : Nat) : (u256 n).length ≤ 35 := by
  rcases Nat.lt_or_ge n (2 ^ 64) with h | h
  · have := length_u64 n
    unfold u256
    rw [if_pos h, ite_self]
    omega
  · rw [length_u256_big h]
    have := length_minBE_le 32 n
    unfold bytes
    rw [List.length_append, length_head]
    repeat' split
    all_goals omega

/-- **C41** The memo of a mint for a deposit fits exactly if the log index has at most 160 bits. The log index is a
256-bit number in the program and for providers a position in the list of logs of a block. -/
theorem C41_size_deposit {f h i : Nat} (hi : i < 2 ^ 256) :
    (mintMemo (.convert f h i)).length ≤ memoLimit ↔ i < 2 ^ 160 := by
  have hl : (mintMemo (.convert f h i)).length = 58 + (u256 i).length := by
    have h1 := length_address f
    have h2 := length_hash h
    simp [mintMemo, variant, array, head, u64, struct, req, h1, h2]
    omega
  rw [hl, memoLimit]
  rcases Nat.lt_or_ge i (2 ^ 64) with h | h
  · have := length_u64 i
    unfold u256
    rw [if_pos h, ite_self]
    omega
  · rw [length_u256_big h]
    constructor
    · intro hle
      rcases Nat.lt_or_ge i (2 ^ 160) with h' | h'
      · exact h'
      · have := le_length_minBE (k := 20) hi h'
        unfold bytes at hle
        rw [List.length_append] at hle
        have : 1 ≤ (head 2 (minBE 32 i).length).length := by
          rw [length_head]; repeat' split
          all_goals omega
        omega
    · intro h'
      have := length_minBE_of_lt (k := 20) (by omega) h'
      unfold bytes
      rw [List.length_append, length_head, if_pos (by omega)]
      omega

/-- **C41** The memos of reimbursements fit. -/
theorem C41_size_reimbursement (r : ReimbRequest) : r.memo.bytes.length ≤ memoLimit := by
  have h1 := length_u64 r.ledgerBurnIndex
  have h3 : (u64 1).length = 1 ∧ (u64 2).length = 1 := by simp [u64, head]
  unfold ReimbRequest.memo memoLimit
  split
  · rename_i x _
    have h2 := length_hash x
    simp only [Memo.bytes, mintMemo, variant, struct, req, array, List.length_append]
    simp [h2, h3]
    simp [head]
    omega
  · simp only [Memo.bytes, mintMemo, variant, struct, req, array, List.length_append]
    simp [h3]
    simp [head]
    omega

/-- **C41** The memos of burns fit; token symbols have at most 20 bytes (`C26_accepted`). -/
theorem C41_size_burn (m : BurnMemo) (hs : ∀ y a t, m = .erc20GasFee y a t → (utf8 y).length ≤ 20) :
    (burnMemo m).length ≤ memoLimit := by
  unfold memoLimit
  cases m with
  | convert t =>
    have h1 := length_address t
    simp [burnMemo, variant, array, head, u64, struct, req, h1]
  | erc20GasFee y a t =>
    have h1 := length_address t
    have h2 := length_u256 a
    have h3 := length_text (hs y a t rfl)
    simp [burnMemo, variant, array, head, u64, struct, req, h1]
    omega
  | erc20Convert w t =>
    have h1 := length_address t
    have h2 := length_u64 w
    simp only [burnMemo, variant, struct, req, array, List.length_append]
    have h3 : (u64 2).length = 1 := by simp [u64, head]
    simp [h1, h3]
    simp [head]
    omega

namespace Example

/-- The memos of memo/tests.rs:53-81, 84-106 and 109-123. -/
theorem C41_example :
    mintMemo (.convert 0xdd2851cdd40ae6536831558dd46db62fac7a844d 0x705f826861c802b407843e99af986cfde8749b669e5e0a5a150f4350bcaa9bc3 39) =
      [130, 0, 131, 84, 221, 40, 81, 205, 212, 10, 230, 83, 104, 49, 85, 141, 212, 109, 182, 47, 172, 122, 132, 77, 88, 32, 112, 95,
       130, 104, 97, 200, 2, 180, 7, 132, 62, 153, 175, 152, 108, 253, 232, 116, 155, 102, 158, 94, 10, 90, 21, 15, 67, 80, 188, 170, 155,
       195, 24, 39] ∧
    mintMemo (.reimburseTransaction 1234 0x705f826861c802b407843e99af986cfde8749b669e5e0a5a150f4350bcaa9bc3) =
      [130, 1, 130, 25, 4, 210, 88, 32, 112, 95, 130, 104, 97, 200, 2, 180, 7, 132, 62, 153, 175, 152, 108, 253, 232, 116, 155, 102, 158,
       94, 10, 90, 21, 15, 67, 80, 188, 170, 155, 195] ∧
    burnMemo (.convert 0xdd2851cdd40ae6536831558dd46db62fac7a844d) =
      [130, 0, 129, 84, 221, 40, 81, 205, 212, 10, 230, 83, 104, 49, 85, 141, 212, 109, 182, 47, 172, 122, 132, 77] := by
  decide +kernel

/-- A symbol of 20 bytes and a large amount fill the limit. -/
theorem C41_example_limit : (burnMemo (.erc20GasFee "ABCDEFGHIJKLMNOPQRST" (2 ^ 256 - 1) 7)).length = memoLimit := by
  decide +kernel

end Example

end EvmMinter
