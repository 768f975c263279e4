/-!
# Byte strings and big-endian numbers
-/

namespace EvmMinter

abbrev Bytes := List UInt8

/-- Big-endian value of a byte string. -/
def beNat : Bytes → Nat
  | [] => 0
  | b :: t => b.toNat * 256 ^ t.length + beNat t

/-- Big-endian encoding on exactly `w` bytes (truncating, like `to_be_bytes` of a `8*w`-bit integer). -/
def toBE : Nat → Nat → Bytes
  | 0, _ => []
  | w + 1, n => UInt8.ofNat (n / 256 ^ w) :: toBE w n

/-- Drop leading zero bytes: `bytes[leading_zeros / 8 ..]`. -/
def stripZeros (l : Bytes) : Bytes := l.dropWhile (· == 0)

@[simp] theorem length_toBE (w n : Nat) : (toBE w n).length = w := by
  induction w generalizing n with
  | zero => rfl
  | succ w ih => simp [toBE, ih]

theorem beNat_lt (l : Bytes) : beNat l < 256 ^ l.length := by
  induction l with
  | nil => simp [beNat]
  | cons b t ih =>
    simp only [beNat, List.length_cons]
    have hb : b.toNat < 256 := b.toNat_lt
    have : b.toNat * 256 ^ t.length ≤ 255 * 256 ^ t.length := Nat.mul_le_mul_right _ (by omega)
    have : 256 ^ (t.length + 1) = 256 * 256 ^ t.length := by rw [Nat.pow_succ]; omega
    omega

theorem beNat_toBE (w n : Nat) : beNat (toBE w n) = n % 256 ^ w := by
  induction w with
  | zero => simp [toBE, beNat, Nat.mod_one]
  | succ w ih =>
    simp only [toBE, beNat, length_toBE, ih]
    have : (UInt8.ofNat (n / 256 ^ w)).toNat = n / 256 ^ w % 256 := by simp
    rw [this, Nat.pow_succ, Nat.mod_mul]
    rw [Nat.mul_comm]
    omega

theorem beNat_toBE_of_lt {w n : Nat} (h : n < 256 ^ w) : beNat (toBE w n) = n := by
  rw [beNat_toBE, Nat.mod_eq_of_lt h]

theorem toBE_mod (w n : Nat) : toBE w n = toBE w (n % 256 ^ w) := by
  suffices h : ∀ w k n : Nat, w ≤ k → toBE w n = toBE w (n % 256 ^ k) from h w w n (Nat.le_refl _)
  intro w
  induction w with
  | zero => intros; rfl
  | succ w ih =>
    intro k n hk
    simp only [toBE]
    rw [← ih k n (by omega)]
    congr 1
    have : (n % 256 ^ k) / 256 ^ w % 256 = n / 256 ^ w % 256 := by
      have hk' : k = w + 1 + (k - w - 1) := by omega
      rw [hk', Nat.pow_add, Nat.pow_succ, Nat.mul_assoc, Nat.mod_mul_right_div_self,
        Nat.mod_mul_right_mod]
    apply UInt8.toNat.inj
    simp [this]

theorem toBE_beNat (l : Bytes) : toBE l.length (beNat l) = l := by
  induction l with
  | nil => rfl
  | cons b t ih =>
    simp only [List.length_cons, toBE, beNat]
    have hlt := beNat_lt t
    have hpos : 0 < 256 ^ t.length := Nat.pow_pos (by decide)
    have hd : (b.toNat * 256 ^ t.length + beNat t) / 256 ^ t.length = b.toNat := by
      rw [Nat.mul_comm, Nat.mul_add_div hpos, Nat.div_eq_of_lt hlt]; omega
    have hm : (b.toNat * 256 ^ t.length + beNat t) % 256 ^ t.length = beNat t := by
      rw [Nat.mul_comm, Nat.mul_add_mod, Nat.mod_eq_of_lt hlt]
    rw [hd, toBE_mod, hm, ih]
    simp

theorem beNat_inj {a b : Bytes} (hl : a.length = b.length) (h : beNat a = beNat b) : a = b := by
  rw [← toBE_beNat a, ← toBE_beNat b, hl, h]

theorem beNat_append (a b : Bytes) : beNat (a ++ b) = beNat a * 256 ^ b.length + beNat b := by
  induction a with
  | nil => simp [beNat]
  | cons x a ih =>
    simp only [List.cons_append, beNat, ih, List.length_append, Nat.pow_add, Nat.add_mul,
      Nat.mul_assoc, Nat.add_assoc]

theorem beNat_stripZeros (l : Bytes) : beNat (stripZeros l) = beNat l := by
  unfold stripZeros
  induction l with
  | nil => rfl
  | cons b t ih =>
    rw [List.dropWhile_cons]
    split
    · rename_i h
      have : b = 0 := by simpa using h
      subst this
      simp [beNat, ih]
    · rfl

theorem stripZeros_head {l : Bytes} {b : UInt8} {t : Bytes} (h : stripZeros l = b :: t) : b ≠ 0 := by
  unfold stripZeros at h
  induction l with
  | nil => simp at h
  | cons c l ih =>
    rw [List.dropWhile_cons] at h
    split at h
    · exact ih h
    · rename_i hc
      cases h
      simpa using hc

theorem length_stripZeros_le (l : Bytes) : (stripZeros l).length ≤ l.length := by
  unfold stripZeros
  induction l with
  | nil => simp
  | cons c l ih =>
    rw [List.dropWhile_cons]
    split
    · simp; omega
    · simp

/-- A byte string without leading zero is determined by its value. -/
theorem stripped_unique {a b : Bytes} (ha : ∀ x t, a = x :: t → x ≠ 0) (hb : ∀ x t, b = x :: t → x ≠ 0)
    (h : beNat a = beNat b) : a = b := by
  have low : ∀ {l : Bytes}, (∀ x t, l = x :: t → x ≠ 0) → l ≠ [] → 256 ^ (l.length - 1) ≤ beNat l := by
    intro l hl hne
    cases l with
    | nil => exact absurd rfl hne
    | cons x t =>
      have hx := hl x t rfl
      have : 1 ≤ x.toNat := by
        rcases Nat.eq_zero_or_pos x.toNat with h0 | h0
        · exact absurd (UInt8.toNat.inj (by simpa using h0)) hx
        · exact h0
      simp only [beNat, List.length_cons, Nat.add_sub_cancel]
      calc 256 ^ t.length = 1 * 256 ^ t.length := by omega
        _ ≤ x.toNat * 256 ^ t.length := Nat.mul_le_mul_right _ this
        _ ≤ _ := by omega
  have key : ∀ {p q : Bytes}, (∀ x t, q = x :: t → x ≠ 0) →
      beNat p = beNat q → q.length ≤ p.length := by
    intro p q hq e
    cases hq' : q with
    | nil => simp
    | cons x t =>
      have h1 := low hq (by rw [hq']; simp)
      have h2 := beNat_lt p
      rw [e] at h2
      have : 256 ^ (q.length - 1) < 256 ^ p.length := Nat.lt_of_le_of_lt h1 h2
      have := (Nat.pow_lt_pow_iff_right (by decide : 1 < 256)).1 this
      rw [hq'] at this
      simp at this ⊢
      omega
  exact beNat_inj (Nat.le_antisymm (key ha h.symm) (key hb h)) h

theorem stripZeros_spec (l : Bytes) : ∀ x t, stripZeros l = x :: t → x ≠ 0 :=
  fun _ _ h => stripZeros_head h

/-- Minimal big-endian encoding of a `w`-byte integer. -/
def minBE (w n : Nat) : Bytes := stripZeros (toBE w n)

theorem beNat_minBE {w n : Nat} (h : n < 256 ^ w) : beNat (minBE w n) = n := by
  rw [minBE, beNat_stripZeros, beNat_toBE_of_lt h]

theorem length_minBE_le (w n : Nat) : (minBE w n).length ≤ w := by
  have := length_stripZeros_le (toBE w n)
  simpa [minBE] using this

end EvmMinter
