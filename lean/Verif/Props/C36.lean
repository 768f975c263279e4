import Verif.Lemmas.EventCbor
import Verif.Spec.Example
/-!
# C36: stored numbers and principals survive serialization
-/

namespace EvmMinter
open Spec Cbor

/-! ## Round trips -/

/-- **C36** 256-bit amounts are read back, whatever follows them. -/
theorem C36_u256 {n : Nat} (h : n < 2 ^ 256) (rest : Bytes) : readU256 (u256 n ++ rest) = .ok (n, rest) := Reads.u256 h rest

/-- **C36** Naturals of any size (less than `2^64` bytes) are read back. -/
theorem C36_nat {n : Nat} (h : (natBE n).length < 2 ^ 64) (rest : Bytes) : readNat (nat n ++ rest) = .ok (n, rest) := Reads.nat h rest

/-- **C36** 64-bit identifiers are read back. -/
theorem C36_id {n : Nat} (h : n < 2 ^ 64) (rest : Bytes) : readId (Cbor.id n ++ rest) = .ok (n, rest) := Reads.id h rest

/-- **C36** Principals are read back. -/
theorem C36_principal {p : Principal} (h : p.bytes.length ≤ 29) (rest : Bytes) :
    readPrincipal (principal p ++ rest) = .ok (p, rest) := Reads.principal h rest

/-- **C36** Optional numbers are read back. -/
theorem C36_option_nat {o : Option Nat} (h : ∀ n, o = some n → (natBE n).length < 2 ^ 64) (rest : Bytes) :
    readOption readNat (option nat o ++ rest) = .ok (o, rest) :=
  Reads.option (fun n hn => ⟨.nat (h n hn), notNull_nat n⟩) rest

/-- **C36** Optional principals are read back. -/
theorem C36_option_principal {o : Option Principal} (h : ∀ p, o = some p → p.bytes.length ≤ 29) (rest : Bytes) :
    readOption readPrincipal (option principal o ++ rest) = .ok (o, rest) :=
  Reads.option (fun p hp => ⟨.principal (h p hp), notNull_principal p⟩) rest

/-! ## Canonical encodings -/

/-- The encoding of a head is given by its initial byte and argument. -/
theorem readHead_inv {m : Nat} {b rest : Bytes} {n : Nat} (h : readHead m b = .ok (n, rest)) :
    ∃ x t, b = x :: (t ++ rest) ∧ x.toNat / 32 = m ∧
      ((x.toNat % 32 < 24 ∧ t = [] ∧ n = x.toNat % 32) ∨
       (x.toNat % 32 = 24 ∧ t.length = 1 ∧ n = beNat t) ∨ (x.toNat % 32 = 25 ∧ t.length = 2 ∧ n = beNat t) ∨
       (x.toNat % 32 = 26 ∧ t.length = 4 ∧ n = beNat t) ∨ (x.toNat % 32 = 27 ∧ t.length = 8 ∧ n = beNat t)) := by
  cases b with
  | nil => simp [readHead, bind_run, readByte] at h
  | cons x t =>
    have hbe : ∀ w, readBE w t = .ok (n, rest) → ∃ t', t = t' ++ rest ∧ t'.length = w ∧ n = beNat t' := by
      intro w hw
      simp only [readBE, bind_run, readSlice] at hw
      split at hw
      · rename_i hs
        split at hs
        · cases hs; cases hw
          exact ⟨t.take w, by simp, by simp; omega, rfl⟩
        · cases hs
      · cases hw
    rw [readHead, bind_run_ok (readByte_cons x t)] at h
    split at h
    · rename_i hm
      simp only [argument] at h
      split at h
      · rename_i hk
        cases h
        exact ⟨x, [], rfl, hm, .inl ⟨hk, rfl, rfl⟩⟩
      split at h
      · rename_i hk
        obtain ⟨t', rfl, h1, h2⟩ := hbe _ h
        exact ⟨x, t', rfl, hm, .inr (.inl ⟨hk, h1, h2⟩)⟩
      split at h
      · rename_i hk
        obtain ⟨t', rfl, h1, h2⟩ := hbe _ h
        exact ⟨x, t', rfl, hm, .inr (.inr (.inl ⟨hk, h1, h2⟩))⟩
      split at h
      · rename_i hk
        obtain ⟨t', rfl, h1, h2⟩ := hbe _ h
        exact ⟨x, t', rfl, hm, .inr (.inr (.inr (.inl ⟨hk, h1, h2⟩)))⟩
      split at h
      · rename_i hk
        obtain ⟨t', rfl, h1, h2⟩ := hbe _ h
        exact ⟨x, t', rfl, hm, .inr (.inr (.inr (.inr ⟨hk, h1, h2⟩)))⟩
      · cases h
    · cases h

/-- The encoding is the shortest one, and the only one of its length. -/
def Shortest (b e : Bytes) : Prop := e.length ≤ b.length ∧ (b.length = e.length → b = e)

theorem Shortest.append {b e : Bytes} (h : Shortest b e) (l : Bytes) : Shortest (b ++ l) (e ++ l) := by
  refine ⟨by simp [h.1], fun hl => ?_⟩
  rw [h.2 (by simpa using hl)]

theorem toBE_eq {t : Bytes} {w : Nat} (h : t.length = w) : toBE w (beNat t) = t := by
  subst h; exact toBE_beNat t

theorem head_shortest {m : Nat} {b rest : Bytes} {n : Nat} (h : readHead m b = .ok (n, rest)) :
    ∃ e, b = e ++ rest ∧ Shortest e (head m n) := by
  obtain ⟨x, t, rfl, hm, hx⟩ := readHead_inv h
  have hb : x.toNat < 256 := x.toNat_lt
  have hxe : ∀ k, x.toNat % 32 = k → UInt8.ofNat (m * 32 + k) = x := by
    intro k hk
    apply UInt8.toNat.inj
    simp
    omega
  refine ⟨x :: t, rfl, ?_⟩
  unfold Shortest
  have hlen := length_head m n
  rcases hx with ⟨h1, rfl, rfl⟩ | ⟨h1, h2, rfl⟩ | ⟨h1, h2, rfl⟩ | ⟨h1, h2, rfl⟩ | ⟨h1, h2, rfl⟩
  · rw [if_pos h1] at hlen
    refine ⟨by simp [hlen], fun _ => ?_⟩
    simp [head, h1, hxe]
  all_goals
    have hlt := beNat_lt t
    rw [h2] at hlt
    refine ⟨?_, fun hl => ?_⟩
    · rw [hlen, List.length_cons, h2]
      repeat' split
      all_goals omega
    · rw [hlen, List.length_cons, h2] at hl
      unfold head
      repeat' split
      all_goals first
        | rw [toBE_eq h2, hxe _ h1]
        | (exfalso; repeat' (split at hl))
      all_goals omega

/-- **C36** The encoding of a number below `2^64` is the shortest integer encoding of it, and the only one of this length. -/
theorem C36_canonical_small {n : Nat} (h : n < 2 ^ 64) : u256 n = Cbor.id n ∧ nat n = Cbor.id n ∧
    ∀ b, readU64 b = .ok (n, []) → (Cbor.id n).length ≤ b.length ∧ (b.length = (Cbor.id n).length → b = Cbor.id n) := by
  refine ⟨?_, ?_, fun b hb => ?_⟩
  · unfold u256 Cbor.id; simp [h]
  · unfold nat Cbor.id; simp [h]
  · obtain ⟨e, he, hs⟩ := head_shortest hb
    rw [List.append_nil] at he
    subst he
    exact hs

theorem bytes_shortest {b rest l : Bytes} (h : readBytes b = .ok (l, rest)) : ∃ e, b = e ++ rest ∧ Shortest e (bytes l) := by
  simp only [readBytes, bind_run] at h
  split at h
  · rename_i n t hn
    obtain ⟨e, rfl, hs⟩ := head_shortest hn
    simp only [readSlice] at h
    split at h
    · rename_i hle
      cases h
      refine ⟨e ++ t.take n, by simp, ?_⟩
      have : (t.take n).length = n := by simp; omega
      unfold bytes
      rw [this]
      exact hs.append _
    · cases h
  · cases h

theorem minBE_nonzero (w n : Nat) : ∀ x t, minBE w n = x :: t → x ≠ 0 := stripZeros_spec _

theorem beNat_zeros (k : Nat) (l : Bytes) : beNat (List.replicate k 0 ++ l) = beNat l := by
  induction k with
  | zero => rfl
  | succ k ih => simp [List.replicate_succ, beNat, ih]

theorem stripped_shortest {l e : Bytes} (he : ∀ x t, e = x :: t → x ≠ 0) (h : beNat l = beNat e) : Shortest l e := by
  have h1 : stripZeros l = e := stripped_unique (stripZeros_spec l) he (by rw [beNat_stripZeros, h])
  have h2 := length_stripZeros_le l
  rw [h1] at h2
  refine ⟨h2, fun hl => ?_⟩
  have h3 : stripZeros l = l := by
    cases l with
    | nil => rfl
    | cons x t =>
      unfold stripZeros
      rw [List.dropWhile_cons]
      split
      · exfalso
        rename_i hx
        have : stripZeros (x :: t) = stripZeros t := by
          unfold stripZeros
          rw [List.dropWhile_cons, if_pos hx]
        have h4 := length_stripZeros_le t
        rw [← this, h1, ← hl] at h4
        simp at h4
        omega
      · rfl
  rw [← h1, h3]

/-- A longer content has a longer head. -/
theorem bytes_length_mono {l l' : Bytes} (h : l.length ≤ l'.length) : (bytes l).length ≤ (bytes l').length := by
  unfold bytes
  rw [List.length_append, List.length_append, length_head, length_head]
  repeat' split
  all_goals omega

theorem bytes_length_strict {l l' : Bytes} (h : (bytes l').length = (bytes l).length) : l'.length = l.length := by
  unfold bytes at h
  rw [List.length_append, List.length_append, length_head, length_head] at h
  split at h <;> split at h <;> (try split at h) <;> (try split at h) <;> (try split at h) <;> (try split at h) <;>
    (try split at h) <;> (try split at h) <;> omega

theorem readU64_big {b rest : Bytes} {n : Nat} (h : readU64 b = .ok (n, rest)) : n < 2 ^ 64 := by
  obtain ⟨x, t, rfl, _, hx⟩ := readHead_inv h
  have := beNat_lt t
  rcases hx with ⟨h1, rfl, rfl⟩ | ⟨_, h2, rfl⟩ | ⟨_, h2, rfl⟩ | ⟨_, h2, rfl⟩ | ⟨_, h2, rfl⟩
  · omega
  all_goals rw [h2] at this; omega

/-- A tagged number. -/
theorem bignum_shortest {b t l e : Bytes} (h1 : readTag b = .ok (2, t)) (h2 : readBytes t = .ok (l, []))
    (he : ∀ x s, e = x :: s → x ≠ 0) (hl : beNat l = beNat e) : Shortest b (tag 2 ++ bytes e) := by
  obtain ⟨b1, rfl, s1⟩ := head_shortest h1
  obtain ⟨b2, rfl, s2⟩ := bytes_shortest h2
  have s3 := stripped_shortest he hl
  rw [List.append_nil]
  have hm := bytes_length_mono s3.1
  have l1 := s1.1
  have l2 := s2.1
  refine ⟨by simp only [List.length_append, tag]; omega, fun hlen => ?_⟩
  simp only [List.length_append, tag] at hlen
  have e1 := s1.2 (by omega)
  have e2 := s2.2 (by omega)
  have e3 := s3.2 (bytes_length_strict (by omega))
  rw [e1, e2, e3]; rfl

/-- **C36** From `2^64` on, the encoding of a 256-bit number is the shortest one that the decoder accepts, and the only one of
this length. -/
theorem C36_canonical_u256 {n : Nat} (h : 2 ^ 64 ≤ n) (hn : n < 2 ^ 256) {b : Bytes} (hb : readU256 b = .ok (n, [])) :
    (u256 n).length ≤ b.length ∧ (b.length = (u256 n).length → b = u256 n) := by
  have hu : u256 n = tag 2 ++ bytes (minBE 32 n) := by
    unfold u256; rw [if_neg (by omega), if_neg (by omega)]
  rw [hu]
  unfold readU256 at hb
  split at hb
  · rename_i r hr
    cases hb
    have := readU64_big hr
    omega
  · cases hb
  · simp only [bind_run] at hb
    split at hb
    · rename_i t r ht
      split at hb
      · cases hb
      · rename_i h2
        have h2 : t = 2 := Decidable.not_not.1 h2
        subst h2
        simp only [bind_run] at hb
        split at hb
        · rename_i l r' hl
          split at hb
          · cases hb
          · cases hb
            rw [beNat_zeros] at h hn ⊢
            exact bignum_shortest ht hl (minBE_nonzero _ _) (by rw [beNat_minBE (by omega)])
        · cases hb
    · cases hb

theorem natBE_nonzero {n : Nat} (h : n ≠ 0) : ∀ x t, natBE n = x :: t → x ≠ 0 := by
  unfold natBE
  rw [if_neg h]
  exact minBE_nonzero _ _

/-- **C36** The same for naturals of any size. -/
theorem C36_canonical_nat {n : Nat} (h : 2 ^ 64 ≤ n) {b : Bytes} (hb : readNat b = .ok (n, [])) :
    (nat n).length ≤ b.length ∧ (b.length = (nat n).length → b = nat n) := by
  have hu : nat n = tag 2 ++ bytes (natBE n) := by
    unfold nat; rw [if_neg (by omega), if_neg (by omega)]
  rw [hu]
  unfold readNat at hb
  split at hb
  · rename_i r hr
    cases hb
    have := readU64_big hr
    omega
  · cases hb
  · simp only [bind_run] at hb
    split at hb
    · rename_i t r ht
      split at hb
      · cases hb
      · rename_i h2
        have h2 : t = 2 := Decidable.not_not.1 h2
        subst h2
        simp only [bind_run] at hb
        split at hb
        · rename_i l r' hl
          cases hb
          exact bignum_shortest ht hl (natBE_nonzero (by omega)) (by rw [beNat_natBE])
        · cases hb
    · cases hb

/-- **C36** Principals have one shortest encoding. -/
theorem C36_canonical_principal {p : Principal} {b : Bytes} (hb : readPrincipal b = .ok (p, [])) :
    (principal p).length ≤ b.length ∧ (b.length = (principal p).length → b = principal p) := by
  simp only [readPrincipal, bind_run] at hb
  split at hb
  · rename_i l r hl
    split at hb
    · cases hb
      obtain ⟨e, rfl, hs⟩ := bytes_shortest hl
      rw [List.append_nil]
      exact hs
    · cases hb
  · cases hb

namespace Example

/-- Encodings of `1000`, `2^64` and the anonymous principal. -/
theorem C36_example : u256 1000 = [0x19, 0x03, 0xe8] ∧ u256 (2 ^ 64) = [0xc2, 0x49, 1, 0, 0, 0, 0, 0, 0, 0, 0] ∧
    nat (2 ^ 64) = u256 (2 ^ 64) ∧ principal .anonymous = [0x41, 4] ∧ option nat none = [0xf6] := by
  decide +kernel

/-- The bound `2^64` in `C36_canonical_u256` is needed: the decoder also accepts a bignum for `2^32`, and it is shorter than the
integer the minter writes. It is not a preferred serialization in the sense of RFC 8949. -/
theorem C36_bignum_of_small : readU256 [0xc2, 0x45, 1, 0, 0, 0, 0] = .ok (2 ^ 32, []) ∧ (u256 (2 ^ 32)).length = 9 := by
  constructor <;> decide +kernel

end Example

end EvmMinter
