import Verif.Model.CheckedAmount
import Verif.Model.State
/-!
# C37: checked amounts compute exactly or report overflow
-/

namespace EvmMinter
namespace Word256

theorem toNat_lt (a : Word256) : a.toNat < U256 := a.isLt

theorem toNat_lit {a b : Word256} : a = b ↔ a.toNat = b.toNat := BitVec.toNat_inj.symm

/-! ## Arithmetic -/

/-- **C37** Addition is exact, or there is no result because the sum does not fit. -/
theorem C37_add {a b : Word256} :
    (∀ c, checkedAdd a b = some c ↔ a.toNat + b.toNat = c.toNat) ∧ (checkedAdd a b = none ↔ 2 ^ 256 ≤ a.toNat + b.toNat) := by
  have ha := a.isLt
  have hb := b.isLt
  have hs : (a + b).toNat = (a.toNat + b.toNat) % 2 ^ 256 := BitVec.toNat_add a b
  have hl : a + b < a ↔ 2 ^ 256 ≤ a.toNat + b.toNat := by rw [BitVec.lt_def, hs]; omega
  unfold checkedAdd
  constructor
  · intro c
    have hc := c.isLt
    split
    · rename_i h
      have := hl.1 h
      simp only [reduceCtorEq, false_iff]
      omega
    · rename_i h
      rw [Option.some.injEq, toNat_lit, hs]
      have := mt hl.2 h
      omega
  · split
    · rename_i h; simpa using hl.1 h
    · rename_i h; simpa using mt hl.2 h

/-- **C37** Subtraction is exact, or there is no result because it would be negative. -/
theorem C37_sub {a b : Word256} :
    (∀ c, checkedSub a b = some c ↔ a.toNat = b.toNat + c.toNat) ∧ (checkedSub a b = none ↔ a.toNat < b.toNat) := by
  have ha := a.isLt
  have hb := b.isLt
  have hl : a < b ↔ a.toNat < b.toNat := BitVec.lt_def
  unfold checkedSub
  constructor
  · intro c
    have hc := c.isLt
    split
    · rename_i h
      have := hl.1 h
      simp only [reduceCtorEq, false_iff]
      omega
    · rename_i h
      have := mt hl.2 h
      rw [Option.some.injEq, toNat_lit, BitVec.toNat_sub]
      omega
  · split
    · rename_i h; simpa using hl.1 h
    · rename_i h; simpa using mt hl.2 h

/-- **C37** Multiplication is exact, or there is no result because the product does not fit. -/
theorem C37_mul {a b : Word256} :
    (∀ c, checkedMul a b = some c ↔ a.toNat * b.toNat = c.toNat) ∧ (checkedMul a b = none ↔ 2 ^ 256 ≤ a.toNat * b.toNat) := by
  have ha := a.isLt
  have hb := b.isLt
  have hlt : a.toNat * b.toNat < 2 ^ 512 := by
    calc a.toNat * b.toNat < 2 ^ 256 * 2 ^ 256 := Nat.mul_lt_mul'' ha hb
      _ = 2 ^ 512 := by rw [← Nat.pow_add]
  have hp : (a.setWidth 512 * b.setWidth 512 : BitVec 512).toNat = a.toNat * b.toNat := by
    rw [BitVec.toNat_mul, BitVec.toNat_setWidth, BitVec.toNat_setWidth, Nat.mod_eq_of_lt (by omega : a.toNat < 2 ^ 512),
      Nat.mod_eq_of_lt (by omega : b.toNat < 2 ^ 512), Nat.mod_eq_of_lt hlt]
  have hh : ((a.setWidth 512 * b.setWidth 512 : BitVec 512).extractLsb' 256 256 = 0#256) ↔ a.toNat * b.toNat < 2 ^ 256 := by
    rw [toNat_lit, BitVec.extractLsb'_toNat, hp, Nat.shiftRight_eq_div_pow]
    have : a.toNat * b.toNat / 2 ^ 256 < 2 ^ 256 := Nat.div_lt_of_lt_mul (by rw [← Nat.pow_add]; exact hlt)
    rw [Nat.mod_eq_of_lt this]
    simp only [BitVec.toNat_ofNat, Nat.zero_mod]
    omega
  have hv : ((a.setWidth 512 * b.setWidth 512 : BitVec 512).setWidth 256).toNat = a.toNat * b.toNat % 2 ^ 256 := by
    rw [BitVec.toNat_setWidth, hp]
  unfold checkedMul
  dsimp only
  constructor
  · intro c
    have hc := c.isLt
    split
    · rename_i h
      have := hh.1 h
      rw [Option.some.injEq, toNat_lit, hv, Nat.mod_eq_of_lt this]
    · rename_i h
      have := mt hh.2 h
      simp only [reduceCtorEq, false_iff]
      omega
  · split
    · rename_i h
      have := hh.1 h
      simp only [reduceCtorEq, false_iff]
      omega
    · rename_i h
      have := mt hh.2 h
      simp only [true_iff]
      omega

/-- **C37** Floor division: the largest `q` with `q * b ≤ a`; no result exactly if `b` is zero. -/
theorem C37_div_floor {a b : Word256} :
    (∀ q, checkedDivFloor a b = some q ↔ q.toNat * b.toNat ≤ a.toNat ∧ a.toNat < (q.toNat + 1) * b.toNat) ∧
    (checkedDivFloor a b = none ↔ b.toNat = 0) := by
  unfold checkedDivFloor
  have h0 : b = 0#256 ↔ b.toNat = 0 := by rw [toNat_lit]; simp
  constructor
  · intro q
    split
    · rename_i h
      rw [h0.1 h]
      simp
    · rename_i h
      have hb : 0 < b.toNat := Nat.pos_of_ne_zero (mt h0.2 h)
      rw [Option.some.injEq, toNat_lit, BitVec.toNat_udiv]
      rw [← Nat.le_div_iff_mul_le hb, ← Nat.div_lt_iff_lt_mul hb]
      omega
  · split
    · rename_i h; simpa using h0.1 h
    · rename_i h; simpa using mt h0.2 h

/-- **C37** Ceiling division: the smallest `q` with `a ≤ q * b`; no result exactly if `b` is zero. -/
theorem C37_div_ceil {a b : Word256} :
    (∀ q, checkedDivCeil a b = some q ↔ b.toNat ≠ 0 ∧ a.toNat ≤ q.toNat * b.toNat ∧ ∀ k, a.toNat ≤ k * b.toNat → q.toNat ≤ k) ∧
    (checkedDivCeil a b = none ↔ b.toNat = 0) := by
  have h0 : b = 0#256 ↔ b.toNat = 0 := by rw [toNat_lit]; simp
  have hr : a % b = 0#256 ↔ a.toNat % b.toNat = 0 := by rw [toNat_lit, BitVec.toNat_umod]; simp
  have hq : (a / b).toNat = a.toNat / b.toNat := BitVec.toNat_udiv
  have ha := a.isLt
  suffices hs : b.toNat ≠ 0 → ∃ r, checkedDivCeil a b = some r ∧ a.toNat ≤ r.toNat * b.toNat ∧ ∀ k, a.toNat ≤ k * b.toNat → r.toNat ≤ k by
    by_cases hb : b.toNat = 0
    · have hn : checkedDivCeil a b = none := by unfold checkedDivCeil; rw [if_pos (h0.2 hb)]
      rw [hn]
      simp [hb]
    · obtain ⟨r, h1, h2, h3⟩ := hs hb
      rw [h1]
      constructor
      · intro q
        rw [Option.some.injEq]
        constructor
        · rintro rfl; exact ⟨hb, h2, h3⟩
        · rintro ⟨_, h4, h5⟩
          exact toNat_lit.2 (Nat.le_antisymm (h3 _ h4) (h5 _ h2))
      · simp [hb]
  intro hb
  have hbp : 0 < b.toNat := Nat.pos_of_ne_zero hb
  have hd := Nat.div_add_mod a.toNat b.toNat
  have hm := Nat.mod_lt a.toNat hbp
  unfold checkedDivCeil
  rw [if_neg (mt h0.1 hb)]
  dsimp only
  split
  · rename_i h
    have hz := hr.1 h
    refine ⟨_, rfl, ?_, ?_⟩
    · rw [hq, Nat.mul_comm]; omega
    · intro k hk
      rw [hq]
      exact Nat.div_le_of_le_mul (by rw [Nat.mul_comm]; exact hk)
  · rename_i h
    have hz := mt hr.2 h
    have hlt : a.toNat / b.toNat + 1 < 2 ^ 256 := by
      have h2 : 2 ≤ b.toNat := by
        rcases Nat.lt_or_ge b.toNat 2 with h' | h'
        · exfalso
          have : b.toNat = 1 := by omega
          rw [this, Nat.mod_one] at hz
          exact hz rfl
        · exact h'
      have := Nat.div_le_div_left (c := 2) (a := a.toNat) h2 (by omega)
      omega
    have hi := (C37_add (a := a / b) (b := 1#256)).1 (BitVec.ofNat 256 (a.toNat / b.toNat + 1))
    have hv : (BitVec.ofNat 256 (a.toNat / b.toNat + 1)).toNat = a.toNat / b.toNat + 1 := by
      rw [BitVec.toNat_ofNat, Nat.mod_eq_of_lt hlt]
    refine ⟨_, hi.2 ?_, ?_, ?_⟩
    · rw [hv, hq]; simp
    · rw [hv, Nat.add_mul, Nat.one_mul, Nat.mul_comm]; omega
    · intro k hk
      rw [hv]
      rcases Nat.lt_or_ge (a.toNat / b.toNat) k with h' | h'
      · omega
      · exfalso
        have h3 := Nat.mul_le_mul_right b.toNat h'
        have h4 := Nat.mul_comm (a.toNat / b.toNat) b.toNat
        omega

/-- **C37** Increment, decrement and halving. -/
theorem C37_steps {a : Word256} :
    (∀ c, checkedIncrement a = some c ↔ a.toNat + 1 = c.toNat) ∧ (∀ c, checkedDecrement a = some c ↔ a.toNat = 1 + c.toNat) ∧
    (divByTwo a).toNat = a.toNat / 2 := by
  refine ⟨fun c => ?_, fun c => ?_, ?_⟩
  · simpa [checkedIncrement] using (C37_add (a := a) (b := 1#256)).1 c
  · simpa [checkedDecrement] using (C37_sub (a := a) (b := 1#256)).1 c
  · unfold divByTwo
    rw [BitVec.toNat_ushiftRight, Nat.shiftRight_eq_div_pow]

/-- **C37** The operations on natural numbers in the rest of the model are those on words. -/
theorem C37_refines {a b : Word256} :
    (checkedAdd a b).map BitVec.toNat = cadd a.toNat b.toNat ∧ (checkedSub a b).map BitVec.toNat = csub a.toNat b.toNat ∧
    (checkedMul a b).map BitVec.toNat = cmul a.toNat b.toNat ∧ (checkedDivFloor a b).map BitVec.toNat = cdivFloor a.toNat b.toNat ∧
    (checkedDivCeil a b).map BitVec.toNat = cdivCeil a.toNat b.toNat ∧ (checkedIncrement a).map BitVec.toNat = cinc a.toNat := by
  have add : ∀ a b : Word256, (checkedAdd a b).map BitVec.toNat = cadd a.toNat b.toNat := by
    intro a b
    cases h : checkedAdd a b with
    | none =>
      have := C37_add.2.1 h
      simp only [Option.map_none, cadd]
      rw [if_neg (by unfold U256; omega)]
    | some c =>
      have := (C37_add.1 c).1 h
      have := c.isLt
      simp only [Option.map_some, cadd]
      rw [if_pos (by unfold U256; omega)]
      congr 1
      omega
  have h0 : b = 0#256 ↔ b.toNat = 0 := by rw [toNat_lit]; simp
  have hr : a % b = 0#256 ↔ a.toNat % b.toNat = 0 := by rw [toNat_lit, BitVec.toNat_umod]; simp
  refine ⟨add a b, ?_, ?_, ?_, ?_, ?_⟩
  · cases h : checkedSub a b with
    | none =>
      have := C37_sub.2.1 h
      simp only [Option.map_none, csub]
      rw [if_neg (by omega)]
    | some c =>
      have := (C37_sub.1 c).1 h
      simp only [Option.map_some, csub]
      rw [if_pos (by omega)]
      congr 1
      omega
  · cases h : checkedMul a b with
    | none =>
      have := C37_mul.2.1 h
      simp only [Option.map_none, cmul]
      rw [if_neg (by unfold U256; omega)]
    | some c =>
      have := (C37_mul.1 c).1 h
      have := c.isLt
      simp only [Option.map_some, cmul]
      rw [if_pos (by unfold U256; omega)]
      congr 1
      omega
  · unfold checkedDivFloor cdivFloor
    by_cases hb : b = 0#256
    · rw [if_pos hb, if_pos (h0.1 hb)]; rfl
    · rw [if_neg hb, if_neg (mt h0.2 hb), Option.map_some, BitVec.toNat_udiv]
  · unfold checkedDivCeil cdivCeil
    dsimp only
    by_cases hb : b = 0#256
    · rw [if_pos hb, if_pos (h0.1 hb)]; rfl
    · rw [if_neg hb, if_neg (mt h0.2 hb)]
      by_cases hm : a % b = 0#256
      · rw [if_pos hm, if_pos (hr.1 hm), Option.map_some, BitVec.toNat_udiv]
      · rw [if_neg hm, if_neg (mt hr.2 hm), checkedIncrement, add, BitVec.toNat_udiv]
        rfl
  · exact add a 1#256

/-- **C37** Likewise for the cost of gas and for the price that an amount affords. -/
theorem C37_fees {a b : Word256} :
    (transactionCost a b).map BitVec.toNat = EvmMinter.transactionCost a.toNat b.toNat ∧
    (intoWeiPerGas a b).map BitVec.toNat = EvmMinter.intoWeiPerGas a.toNat b.toNat :=
  ⟨C37_refines.2.2.1, C37_refines.2.2.2.1⟩

/-! ## Conversions -/

theorem byte_eq (a : Word256) (k : Nat) : UInt8.ofBitVec (a.extractLsb' k 8) = UInt8.ofNat (a.toNat / 2 ^ k) := by
  apply UInt8.toNat.inj
  rw [UInt8.toNat_ofNat']
  change (a.extractLsb' k 8).toNat = _
  rw [BitVec.extractLsb'_toNat, Nat.shiftRight_eq_div_pow]

theorem toBytes_eq (a : Word256) : toBytes a = toBE 32 a.toNat := by
  unfold toBytes
  simp only [byte_eq]
  simp [List.range, List.range.loop, toBE]

theorem or_add {x b : Nat} (hb : b < 256) : x * 256 ||| b = x * 256 + b := by
  have := Nat.shiftLeft_add_eq_or_of_lt (i := 8) (b := b) (by omega) x
  rw [Nat.shiftLeft_eq] at this
  exact this.symm

theorem fold_eq (l : Bytes) : ∀ a : Word256, (l.foldl (fun (a : Word256) b => (a <<< 8) ||| b.toBitVec.setWidth 256) a).toNat =
    (a.toNat * 256 ^ l.length + beNat l) % 2 ^ 256 := by
  induction l with
  | nil => intro a; simp [beNat, Nat.mod_eq_of_lt a.isLt]
  | cons b t ih =>
    intro a
    rw [List.foldl_cons, ih, beNat, List.length_cons]
    have hb := b.toNat_lt
    have hstep : ((a <<< 8) ||| b.toBitVec.setWidth 256 : Word256).toNat = (a.toNat * 256 + b.toNat) % 2 ^ 256 := by
      rw [BitVec.toNat_or, BitVec.toNat_shiftLeft, BitVec.toNat_setWidth, UInt8.toNat_toBitVec, Nat.shiftLeft_eq,
        Nat.mod_eq_of_lt (by omega : b.toNat < 2 ^ 256)]
      have h1 : a.toNat * 2 ^ 8 % 2 ^ 256 = (a.toNat % 2 ^ 248) * 256 := by omega
      rw [h1, or_add hb]
      omega
    rw [hstep]
    have e : a.toNat * 256 ^ (t.length + 1) + (b.toNat * 256 ^ t.length + beNat t) = (a.toNat * 256 + b.toNat) * 256 ^ t.length + beNat t := by
      rw [Nat.pow_succ, Nat.add_mul, Nat.mul_assoc, Nat.mul_comm 256 (256 ^ t.length)]
      omega
    rw [e, Nat.add_mod, Nat.mul_mod, Nat.mod_mod, ← Nat.mul_mod, ← Nat.add_mod]

theorem fromBytes_toNat {l : Bytes} (h : l.length ≤ 32) : (fromBytes l).toNat = beNat l := by
  unfold fromBytes
  rw [fold_eq]
  have h1 := beNat_lt l
  have h2 : 256 ^ l.length ≤ 256 ^ 32 := Nat.pow_le_pow_right (by omega) h
  simp only [BitVec.toNat_ofNat, Nat.zero_mod, Nat.zero_mul, Nat.zero_add]
  exact Nat.mod_eq_of_lt (by omega)

/-- **C37** Big-endian bytes convert back and forth, and are the digits of the number in base 256. -/
theorem C37_bytes (a : Word256) :
    (toBytes a).length = 32 ∧ beNat (toBytes a) = a.toNat ∧ fromBytes (toBytes a) = a ∧
    ∀ l : Bytes, l.length = 32 → (fromBytes l).toNat = beNat l ∧ toBytes (fromBytes l) = l := by
  have h1 : (toBytes a).length = 32 := by rw [toBytes_eq, length_toBE]
  have h2 : beNat (toBytes a) = a.toNat := by rw [toBytes_eq, beNat_toBE_of_lt (show a.toNat < 256 ^ 32 from a.isLt)]
  refine ⟨h1, h2, toNat_lit.2 (by rw [fromBytes_toNat (by omega), h2]), ?_⟩
  intro l hl
  have h3 := fromBytes_toNat (l := l) (by omega)
  refine ⟨h3, beNat_inj (by rw [toBytes_eq, length_toBE, hl]) ?_⟩
  rw [toBytes_eq, h3, beNat_toBE_of_lt (by have := beNat_lt l; rwa [hl] at this)]

theorem bigBytes_spec (n : Nat) : beNat (bigBytes n) = n ∧ ∀ k, n < 256 ^ (k + 1) ↔ (bigBytes n).length ≤ k + 1 := by
  have app : ∀ (l : Bytes) (b : UInt8), beNat (l ++ [b]) = beNat l * 256 + b.toNat := by
    intro l b
    induction l with
    | nil => simp [beNat]
    | cons x t ih =>
      simp only [List.cons_append, beNat, ih, List.length_append, List.length_cons, List.length_nil, Nat.zero_add, Nat.pow_succ]
      rw [Nat.add_mul, Nat.mul_assoc]
      omega
  induction n using Nat.strongRecOn with
  | ind n ih =>
    unfold bigBytes
    split
    · rename_i h
      refine ⟨by simp [beNat]; omega, fun k => ?_⟩
      have : 256 ^ 1 ≤ 256 ^ (k + 1) := Nat.pow_le_pow_right (by omega) (by omega)
      simp
      omega
    · rename_i h
      obtain ⟨h1, h2⟩ := ih (n / 256) (by omega)
      refine ⟨?_, fun k => ?_⟩
      · rw [app, h1, UInt8.toNat_ofNat']
        omega
      · rw [List.length_append, List.length_singleton]
        cases k with
        | zero =>
          have : 1 ≤ (bigBytes (n / 256)).length := by
            unfold bigBytes; split <;> simp
          rw [Nat.zero_add, Nat.pow_one]
          omega
        | succ k =>
          have := h2 k
          rw [Nat.pow_succ, ← Nat.div_lt_iff_lt_mul (by omega)]
          omega

/-- **C37** An arbitrary-precision number converts exactly if it has at most 256 bits, and back to itself. -/
theorem C37_nat (n : Nat) :
    (∀ a, tryFromNat n = some a ↔ n = a.toNat) ∧ (tryFromNat n = none ↔ 2 ^ 256 ≤ n) ∧
    (tryFromNat n).map BitVec.toNat = u256OfNat n ∧ ∀ a : Word256, intoNat a = a.toNat := by
  obtain ⟨hv, hl⟩ := bigBytes_spec n
  have hl := hl 31
  have hz : ∀ k, beNat (List.replicate k 0 ++ bigBytes n) = n := by
    intro k
    induction k with
    | zero => simpa using hv
    | succ k ih => rw [List.replicate_succ, List.cons_append, beNat, ih]; simp
  have hs : n < 2 ^ 256 → ∃ a, tryFromNat n = some a ∧ a.toNat = n := by
    intro h
    have h' : (bigBytes n).length ≤ 32 := hl.1 h
    unfold tryFromNat
    rw [if_pos h']
    exact ⟨_, rfl, by rw [fromBytes_toNat (by simp; omega), hz]⟩
  have hn : ¬ n < 2 ^ 256 → tryFromNat n = none := by
    intro h
    unfold tryFromNat
    rw [if_neg (fun h' => h (hl.2 h'))]
  refine ⟨fun a => ?_, ?_, ?_, fun a => (C37_bytes a).2.1⟩
  · rcases Nat.lt_or_ge n (2 ^ 256) with h | h
    · obtain ⟨b, h1, h2⟩ := hs h
      rw [h1, Option.some.injEq, toNat_lit, h2]
    · rw [hn (by omega)]
      have := a.isLt
      simp only [reduceCtorEq, false_iff]
      omega
  · rcases Nat.lt_or_ge n (2 ^ 256) with h | h
    · obtain ⟨b, h1, h2⟩ := hs h
      rw [h1]
      simp only [reduceCtorEq, false_iff]
      omega
    · simp only [hn (show ¬ n < 2 ^ 256 by omega), true_iff]
      exact h
  · unfold u256OfNat U256
    rcases Nat.lt_or_ge n (2 ^ 256) with h | h
    · obtain ⟨b, h1, h2⟩ := hs h
      rw [h1, if_pos h, Option.map_some, h2]
    · rw [hn (by omega), if_neg (by omega)]; rfl

/-- **C37** Two words of 128 bits. -/
theorem C37_words (hi lo : BitVec 128) : (fromWords hi lo).toNat = hi.toNat * 2 ^ 128 + lo.toNat := by
  unfold fromWords
  rw [BitVec.toNat_append]
  have := Nat.shiftLeft_add_eq_or_of_lt (i := 128) (b := lo.toNat) lo.isLt hi.toNat
  rw [← this, Nat.shiftLeft_eq]

theorem drop_toBE (k w n : Nat) : (toBE w n).drop k = toBE (w - k) n := by
  induction w generalizing k with
  | zero => simp [toBE]
  | succ w ih =>
    cases k with
    | zero => rfl
    | succ k =>
      rw [toBE, List.drop_succ_cons, ih]
      congr 1
      omega

/-- **C37** RLP gets the shortest form of the number: no leading zero byte, and nothing for zero. -/
theorem C37_rlp (a : Word256) : beNat (rlpBytes a) = a.toNat ∧ (∀ x t, rlpBytes a = x :: t → x ≠ 0) ∧ rlpBytes a = minBE 32 a.toNat := by
  have hr : rlpBytes a = toBE (32 - a.clz.toNat / 8) a.toNat := by rw [rlpBytes, toBytes_eq, drop_toBE]
  have hp : ∀ k : Nat, 256 ^ k = 2 ^ (8 * k) := fun k => by rw [Nat.pow_mul]
  have hup : a.toNat < 2 ^ (256 - a.clz.toNat) := BitVec.toNat_lt_two_pow_sub_clz
  have h1 : beNat (rlpBytes a) = a.toNat := by
    rw [hr]
    refine beNat_toBE_of_lt (Nat.lt_of_lt_of_le hup ?_)
    rw [hp]
    exact Nat.pow_le_pow_right (by omega) (by omega)
  have h2 : ∀ x t, rlpBytes a = x :: t → x ≠ 0 := by
    intro x t h
    by_cases ha : a = 0#256
    · subst ha
      have : rlpBytes 0#256 = [] := by decide +kernel
      rw [this] at h
      cases h
    · have hlo : 2 ^ (256 - 1 - a.clz.toNat) ≤ a.toNat := BitVec.two_pow_sub_clz_le_toNat_of_ne_zero (by omega) ha
      have hlt : a.clz.toNat < 256 := by
        have := BitVec.clz_lt_iff_ne_zero.2 ha
        simpa [BitVec.lt_def] using this
      obtain ⟨k, hk⟩ : ∃ k, 32 - a.clz.toNat / 8 = k + 1 := ⟨31 - a.clz.toNat / 8, by omega⟩
      rw [hr, hk, toBE] at h
      injection h with hx _
      have hge : 256 ^ k ≤ a.toNat := by
        rw [hp]
        exact Nat.le_trans (Nat.pow_le_pow_right (by omega) (by omega)) hlo
      have hlt' : a.toNat < 256 ^ k * 256 := by
        rw [← Nat.pow_succ, hp]
        exact Nat.lt_of_lt_of_le hup (Nat.pow_le_pow_right (by omega) (by omega))
      have hd1 : 1 ≤ a.toNat / 256 ^ k := (Nat.le_div_iff_mul_le (Nat.pow_pos (by omega))).2 (by omega)
      have hd2 : a.toNat / 256 ^ k < 256 := Nat.div_lt_of_lt_mul hlt'
      intro h0
      rw [h0] at hx
      have := congrArg UInt8.toNat hx
      rw [UInt8.toNat_ofNat'] at this
      simp at this
      omega
  refine ⟨h1, h2, stripped_unique h2 (stripZeros_spec _) ?_⟩
  rw [h1]
  exact (beNat_minBE (show a.toNat < 256 ^ 32 from a.isLt)).symm

/-- **C37** No amount of milli ether panics. -/
theorem C37_milli_ether (v : BitVec 128) : ∃ a, weiFromMilliEther v = some a ∧ a.toNat = v.toNat * 10 ^ 18 := by
  have hv := v.isLt
  have h1 : (v.setWidth 256).toNat = v.toNat := by rw [BitVec.toNat_setWidth, Nat.mod_eq_of_lt (by omega)]
  have h2 : (1000000000000000000#256).toNat = 10 ^ 18 := by decide
  have h3 : v.toNat * 10 ^ 18 < 2 ^ 256 := by omega
  refine ⟨BitVec.ofNat 256 (v.toNat * 10 ^ 18), (C37_mul.1 _).2 ?_, ?_⟩
  · rw [h1, h2, BitVec.toNat_ofNat, Nat.mod_eq_of_lt h3]
  · rw [BitVec.toNat_ofNat, Nat.mod_eq_of_lt h3]

end Word256

namespace Example
open Word256

/-- At the limits. -/
theorem C37_example :
    checkedAdd (BitVec.allOnes 256) 1#256 = none ∧ checkedSub 0#256 1#256 = none ∧
    checkedMul (BitVec.ofNat 256 (2 ^ 128)) (BitVec.ofNat 256 (2 ^ 128)) = none ∧
    checkedMul (BitVec.ofNat 256 (2 ^ 128 - 1)) (BitVec.ofNat 256 (2 ^ 128 + 1)) = some (BitVec.allOnes 256) ∧
    checkedDivCeil (BitVec.allOnes 256) 2#256 = some (BitVec.ofNat 256 (2 ^ 255)) ∧
    tryFromNat (2 ^ 256) = none ∧ tryFromNat (2 ^ 256 - 1) = some (BitVec.allOnes 256) ∧ tryFromNat 0 = some 0#256 ∧
    rlpBytes 1024#256 = [4, 0] := by
  decide +kernel

/-- `wei_from_milli_ether` of one milli ether is one ether: the constant is `10^18`, not `10^15` as its comment says. -/
theorem C37_milli_ether_wrong : weiFromMilliEther 1#128 = some (BitVec.ofNat 256 (10 ^ 18)) := by decide +kernel

end Example
end EvmMinter
