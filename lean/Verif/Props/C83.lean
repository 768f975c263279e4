import Verif.Model.Texts
import Verif.Props.C79
import Verif.Props.C81
/-!
# C83: texts of amounts, blocks and data stand for their values
-/

namespace EvmMinter
open Spec Texts

/-! ## Decimal numbers -/

theorem separate_digits (l : List Char) (h : ∀ c ∈ l, c ≠ '_') : (separate l).filter (· ≠ '_') = l := by
  induction l with
  | nil => rfl
  | cons c t ih =>
    have hc := h c (by simp)
    have it := ih fun x hx => h x (by simp [hx])
    unfold separate
    split
    · rw [List.filter_cons_of_pos (by simpa using hc), List.filter_cons_of_neg (by simp), it]
    · rw [List.filter_cons_of_pos (by simpa using hc), it]

theorem separate_length (l : List Char) : (separate l).length = l.length + (l.length - 1) / 3 := by
  induction l with
  | nil => rfl
  | cons c t ih =>
    unfold separate
    split
    · rename_i h
      have : t.length ≠ 0 := fun e => h.2 (List.length_eq_zero_iff.1 e)
      simp only [List.length_cons, ih]; omega
    · rename_i h
      have : ¬ (t.length % 3 = 0 ∧ t.length ≠ 0) := fun e => h ⟨e.1, fun e' => e.2 (by rw [e']; rfl)⟩
      simp only [List.length_cons, ih]; omega

/-- Counted from the right, every fourth character is an underscore, and no other. -/
theorem separate_get (l : List Char) (h : ∀ c ∈ l, c ≠ '_') : ∀ i c, (separate l)[i]? = some c →
    (c = '_' ↔ ((separate l).length - i) % 4 = 0) := by
  induction l with
  | nil => intro i c hc; cases hc
  | cons d t ih =>
    have hd := h d (by simp)
    have it := ih fun x hx => h x (by simp [hx])
    have hl := separate_length t
    intro i c
    unfold separate
    split
    · rename_i g
      have : t.length ≠ 0 := fun e => g.2 (List.length_eq_zero_iff.1 e)
      match i with
      | 0 =>
        intro hc
        obtain rfl : d = c := by simpa using hc
        simp only [List.length_cons, hl]
        exact ⟨fun e => absurd e hd, fun e => by omega⟩
      | 1 =>
        intro hc
        obtain rfl : '_' = c := by simpa using hc
        simp only [List.length_cons, hl, true_iff]
        omega
      | i + 2 =>
        intro hc
        have := it i c (by simpa using hc)
        simpa only [List.length_cons, Nat.add_sub_add_right, show (separate t).length + 1 + 1 - (i + 2) = (separate t).length - i from by omega] using this
    · rename_i g
      have : ¬ (t.length % 3 = 0 ∧ t.length ≠ 0) := fun e => g ⟨e.1, fun e' => e.2 (by rw [e']; rfl)⟩
      match i with
      | 0 =>
        intro hc
        obtain rfl : d = c := by simpa using hc
        simp only [List.length_cons, hl]
        exact ⟨fun e => absurd e hd, fun e => by omega⟩
      | i + 1 =>
        intro hc
        have := it i c (by simpa using hc)
        simpa only [List.length_cons, show (separate t).length + 1 - (i + 1) = (separate t).length - i from by omega] using this

theorem decimal_plain (n : Nat) : ∀ c ∈ Logs.decimal n, c ≠ '_' := by
  rintro c hc rfl
  have := Logs.decimal_digits n _ hc
  exact absurd this.2 (by decide)

/-! ## Hexadecimal numbers -/

theorem hexValue_append (l l' : List Char) : ∀ acc, hexValue acc (l ++ l') = (hexValue acc l).bind fun n => hexValue n l' := by
  induction l with
  | nil => intro acc; rfl
  | cons c t ih =>
    intro acc
    simp only [List.cons_append, hexValue]
    cases hexDigit c with
    | none => rfl
    | some d => exact ih _

theorem hexValue_hexits {fuel n : Nat} (h : n < fuel) : hexValue 0 (hexits fuel n) = some n := by
  induction fuel generalizing n with
  | zero => omega
  | succ fuel ih =>
    unfold hexits
    by_cases h' : n < 16
    · rw [if_pos h']
      simp only [hexValue, (hexDigit_hexChar n h').1, Option.bind_some]
      congr 1; omega
    · rw [if_neg h', hexValue_append, ih (n := n / 16) (by omega)]
      simp only [hexValue, Option.bind_some, (hexDigit_hexChar (n % 16) (by omega)).1]
      congr 1; omega

theorem hexits_upper (fuel n : Nat) : ∀ c ∈ hexits fuel n, hexDigit c.toUpper = hexDigit c := by
  induction fuel generalizing n with
  | zero => intro c hc; cases hc
  | succ fuel ih =>
    have hx : ∀ d < 16, hexDigit (hexChar d).toUpper = hexDigit (hexChar d) := fun d hd => by
      rw [(hexDigit_hexChar d hd).1, (hexDigit_hexChar d hd).2]
    unfold hexits
    intro c hc
    split at hc
    · rename_i h; rw [List.mem_singleton] at hc; subst hc; exact hx n h
    · rcases List.mem_append.1 hc with hc | hc
      · exact ih _ c hc
      · rw [List.mem_singleton] at hc; subst hc; exact hx _ (by omega)

theorem hexits_ne (fuel n : Nat) : hexits (fuel + 1) n ≠ [] := by
  unfold hexits
  split
  · simp
  · simp

theorem unsignedHex_eq {s : List Char} {n : Nat} : unsignedHex s = some n ↔
    ∃ ds, HexString ds.length s ds ∧ ds ≠ [] ∧ n = base16 ds ∧ n < 2 ^ 256 := by
  have hu : U256 = 2 ^ 256 := rfl
  constructor
  · intro h
    unfold unsignedHex at h
    split at h
    · rename_i ds
      split at h
      · cases h
      · rename_i hn
        obtain ⟨m, h1, h2⟩ := Option.bind_eq_some_iff.1 h
        unfold u256OfNat at h2
        split at h2
        · rename_i hm
          cases h2
          exact ⟨ds, ⟨rfl, rfl, ((hexValue_eq _ _ _).1 h1).1⟩, hn, ((hexValue_eq _ _ _).1 h1).2, hu ▸ hm⟩
        · cases h2
    · cases h
  · rintro ⟨ds, ⟨rfl, _, hd⟩, hn, e, hlt⟩
    unfold unsignedHex
    simp only [if_neg hn]
    rw [(hexValue_eq ds 0 n).2 ⟨hd, e⟩]
    show u256OfNat n = some n
    unfold u256OfNat
    rw [if_pos (hu ▸ hlt)]

theorem fromStrHex_unsigned (t : List Char) : fromStrHex ('0' :: t) = unsignedHex ('0' :: t) := by
  unfold fromStrHex
  split
  · rename_i h; simp at h
  · rfl

theorem parseBlockSpec_number (t : List Char) : parseBlockSpec ('0' :: 'x' :: t) = (unsignedHex ('0' :: 'x' :: t)).map .number := by
  have h : ['0', 'x'].isPrefixOf ('0' :: 'x' :: t) = true := List.isPrefixOf_iff_prefix.2 ⟨t, rfl⟩
  unfold parseBlockSpec
  rw [if_pos h, fromStrHex_unsigned]

/-! ## Bytes -/

theorem hexDecode_hexEncode (b : Bytes) : hexDecode (hexEncode b) = some b := by
  induction b with
  | nil => rfl
  | cons x t ih =>
    have hx := x.toNat_lt
    have e : hexEncode (x :: t) = hexChar (x.toNat / 16) :: hexChar (x.toNat % 16) :: hexEncode t := rfl
    rw [e]
    unfold hexDecode
    rw [(hexDigit_hexChar _ (by omega)).1, (hexDigit_hexChar _ (by omega)).1, ih]
    have : x.toNat / 16 * 16 + x.toNat % 16 = x.toNat := by omega
    simp only [this, UInt8.ofNat_toNat]

theorem hexDecode_sound : ∀ (ds : List Char) (b : Bytes), hexDecode ds = some b → HexBytes ('0' :: 'x' :: ds) b
  | [], b, h => by
    cases h
    exact ⟨[], ⟨rfl, rfl, by simp⟩, fun i h => absurd h (by simp)⟩
  | [_], b, h => by cases h
  | a :: c :: t, b, h => by
    unfold hexDecode at h
    split at h
    · rename_i x y l hx hy hl
      cases h
      obtain ⟨ds, ⟨e, h1, h2⟩, h3⟩ := hexDecode_sound t l hl
      simp only [List.cons.injEq, true_and] at e
      subst e
      have hxs := hexDigit_some hx
      have hys := hexDigit_some hy
      have := hexDigit_lt hx
      have := hexDigit_lt hy
      refine ⟨a :: c :: t, ⟨rfl, by simp only [List.length_cons] at h1 ⊢; omega, ?_⟩, ?_⟩
      · intro z hz
        rcases List.mem_cons.1 hz with rfl | hz
        · exact hxs.1
        · rcases List.mem_cons.1 hz with rfl | hz
          · exact hys.1
          · exact h2 z hz
      · intro i hi
        cases i with
        | zero =>
          refine ⟨a, c, rfl, rfl, ?_⟩
          rw [← hxs.2.1, ← hys.2.1]
          show (UInt8.ofNat (x * 16 + y)).toNat = _
          rw [UInt8.toNat_ofNat']
          omega
        | succ i =>
          obtain ⟨u, v, g1, g2, g3⟩ := h3 i (by simpa using hi)
          exact ⟨u, v, by rw [show 2 * (i + 1) = 2 * i + 1 + 1 from by omega]; simpa using g1,
            by rw [show 2 * (i + 1) + 1 = 2 * i + 1 + 1 + 1 from by omega]; simpa using g2, by simpa using g3⟩
    · cases h

theorem hexDecode_total : ∀ (k : Nat) (ds : List Char), ds.length = 2 * k → (∀ c ∈ ds, c ∈ hexDigits) →
    ∃ b, hexDecode ds = some b
  | 0, ds, h, _ => by
    obtain rfl : ds = [] := List.length_eq_zero_iff.1 (by omega)
    exact ⟨[], rfl⟩
  | k + 1, [], h, _ => by simp at h
  | k + 1, [_], h, _ => by simp at h; omega
  | k + 1, a :: c :: t, h, hd => by
    obtain ⟨l, hl⟩ := hexDecode_total k t (by simp only [List.length_cons] at h; omega) fun z hz => hd z (by simp [hz])
    unfold hexDecode
    rw [hexDigit_of_mem a (hd a (by simp)), hexDigit_of_mem c (hd c (by simp)), hl]
    exact ⟨_, rfl⟩

theorem hexDecode_eq {ds : List Char} {b : Bytes} : hexDecode ds = some b ↔ HexBytes ('0' :: 'x' :: ds) b := by
  refine ⟨hexDecode_sound ds b, fun h => ?_⟩
  obtain ⟨ds', ⟨e, hl, hd⟩, _⟩ := id h
  simp only [List.cons.injEq, true_and] at e
  subst e
  obtain ⟨b', hb⟩ := hexDecode_total b.length ds hl hd
  rw [hb, hexBytes_unique (hexDecode_sound ds b' hb) h]

theorem hexBytes_prefix {s : List Char} {b : Bytes} (h : HexBytes s b) : ∃ ds, s = '0' :: 'x' :: ds ∧ ds.length = 2 * b.length := by
  obtain ⟨ds, ⟨e, hl, _⟩, _⟩ := h
  exact ⟨ds, e, hl⟩

/-! ## No zeros in front -/

theorem hexChar_zero : ∀ d < 16, hexChar d = '0' → d = 0 := by decide +kernel

theorem digits_head {fuel n : Nat} (h : n < fuel) {t : List Char} (e : Logs.digits fuel n = '0' :: t) : n = 0 := by
  induction fuel generalizing n t with
  | zero => omega
  | succ fuel ih =>
    unfold Logs.digits at e
    split at e
    · rename_i hn
      exact hexChar_zero n (by omega) (List.cons.inj e).1
    · cases hd : Logs.digits fuel (n / 10) with
      | nil =>
        have h0 := Logs.value_digits (fuel := fuel) (n := n / 10) (by omega)
        rw [hd] at h0
        have : (0 : Nat) = n / 10 := h0
        omega
      | cons c u =>
        rw [hd, List.cons_append] at e
        rw [(List.cons.inj e).1] at hd
        have := ih (n := n / 10) (by omega) hd
        omega

theorem hexits_head {fuel n : Nat} (h : n < fuel) {t : List Char} (e : hexits fuel n = '0' :: t) : n = 0 := by
  induction fuel generalizing n t with
  | zero => omega
  | succ fuel ih =>
    unfold hexits at e
    split at e
    · rename_i hn
      exact hexChar_zero n hn (List.cons.inj e).1
    · cases hd : hexits fuel (n / 16) with
      | nil =>
        have h0 := hexValue_hexits (fuel := fuel) (n := n / 16) (by omega)
        rw [hd] at h0
        have : (0 : Nat) = n / 16 := Option.some.inj h0
        omega
      | cons c u =>
        rw [hd, List.cons_append] at e
        rw [(List.cons.inj e).1] at hd
        have := ih (n := n / 16) (by omega) hd
        omega

/-! ## The property -/

/-- **C83** Without its underscores, the text of an amount consists of decimal digits whose value is the amount. Counted from the right,
every fourth character is an underscore, and no other is; the first character is a digit. -/
theorem C83_amount (n : Nat) :
    (∀ c ∈ (amount n).filter (· ≠ '_'), 48 ≤ c.toNat ∧ c.toNat ≤ 57) ∧
    ((amount n).filter (· ≠ '_')).foldl (fun v c => 10 * v + (c.toNat - 48)) 0 = n ∧
    (∀ i c, (amount n)[i]? = some c → (c = '_' ↔ ((amount n).length - i) % 4 = 0)) ∧
    (∃ c t, amount n = c :: t ∧ c ≠ '_') := by
  have hp := decimal_plain n
  have hf := separate_digits _ hp
  refine ⟨?_, ?_, separate_get _ hp, ?_⟩
  · unfold amount; rw [hf]; exact Logs.decimal_digits n
  · unfold amount; rw [hf]; exact Logs.value_decimal n
  · unfold amount
    cases h : Logs.decimal n with
    | nil =>
      have := congrArg List.length h
      unfold Logs.decimal Logs.digits at this
      split at this <;> simp at this
    | cons c t =>
      have hc := hp c (by rw [h]; simp)
      unfold separate
      split
      · exact ⟨_, _, rfl, hc⟩
      · exact ⟨_, _, rfl, hc⟩

/-- **C83** Numbers are written without zeros in front, only zero itself is written as one zero. -/
theorem C83_canonical {n : Nat} {t : List Char} :
    (amount n = '0' :: t → n = 0 ∧ t = []) ∧ (lowerHex n = '0' :: t → n = 0 ∧ t = []) ∧ (upperHex n = '0' :: t → n = 0 ∧ t = []) := by
  have z1 : amount 0 = ['0'] := by decide
  have z2 : lowerHex 0 = ['0'] := by decide
  have z3 : upperHex 0 = ['0'] := by decide
  have fin : ∀ {f : Nat → List Char}, f 0 = ['0'] → n = 0 → f n = '0' :: t → n = 0 ∧ t = [] := by
    rintro f hf rfl h
    rw [hf] at h
    exact ⟨rfl, (List.cons.inj h).2.symm⟩
  have up : ∀ fuel n : Nat, ∀ c ∈ hexits fuel n, c.toUpper = '0' → c = '0' := by
    intro fuel
    have hx : ∀ d < 16, (hexChar d).toUpper = '0' → hexChar d = '0' := by decide +kernel
    induction fuel with
    | zero => intro n c hc; cases hc
    | succ fuel ih =>
      intro n c hc
      unfold hexits at hc
      split at hc
      · rename_i h; rw [List.mem_singleton] at hc; subst hc; exact hx n h
      · rcases List.mem_append.1 hc with hc | hc
        · exact ih _ c hc
        · rw [List.mem_singleton] at hc; subst hc; exact hx _ (by omega)
  refine ⟨fun h => fin z1 ?_ h, fun h => fin z2 (hexits_head (Nat.lt_succ_self n) h) h, fun h => fin z3 ?_ h⟩
  · have hd := separate_digits _ (decimal_plain n)
    rw [show separate (Logs.decimal n) = '0' :: t from h, List.filter_cons_of_pos (by decide)] at hd
    exact digits_head (Nat.lt_succ_self n) hd.symm
  · unfold upperHex at h
    cases hl : lowerHex n with
    | nil => rw [hl] at h; cases h
    | cons c u =>
      rw [hl, List.map_cons] at h
      have hc := up _ _ c (by rw [show hexits (n + 1) n = c :: u from hl]; simp) (List.cons.inj h).1
      subst hc
      exact hexits_head (Nat.lt_succ_self n) hl

/-- **C83** The text determines the amount. -/
theorem C83_amount_injective {m n : Nat} (h : amount m = amount n) : m = n := by
  rw [← (C83_amount m).2.1, ← (C83_amount n).2.1, h]

/-- **C83** Quantities are read exactly from an optional plus sign, `0x` and at least one hexadecimal digit, if they are less than 2^256. -/
theorem C83_quantity {s : List Char} {n : Nat} : fromStrHex s = some n ↔
    ∃ ds, (HexString ds.length s ds ∨ ∃ t, s = '+' :: t ∧ HexString ds.length t ds) ∧ ds ≠ [] ∧ n = base16 ds ∧ n < 2 ^ 256 := by
  constructor
  · intro h
    unfold fromStrHex at h
    split at h
    · rename_i t
      obtain ⟨ds, h1, h2⟩ := unsignedHex_eq.1 h
      exact ⟨ds, .inr ⟨t, rfl, h1⟩, h2⟩
    · obtain ⟨ds, h1, h2⟩ := unsignedHex_eq.1 h
      exact ⟨ds, .inl h1, h2⟩
  · rintro ⟨ds, h1 | ⟨t, rfl, h1⟩, h2⟩
    · have hs := h1.1
      subst hs
      rw [fromStrHex_unsigned]
      exact unsignedHex_eq.2 ⟨ds, h1, h2⟩
    · exact unsignedHex_eq.2 ⟨ds, h1, h2⟩

/-- **C83** Both hexadecimal forms of an amount are read back. -/
theorem C83_quantity_round_trip {n : Nat} (h : n < 2 ^ 256) :
    fromStrHex ('0' :: 'x' :: lowerHex n) = some n ∧ fromStrHex ('0' :: 'x' :: upperHex n) = some n := by
  have hv : hexValue 0 (lowerHex n) = some n := hexValue_hexits (Nat.lt_succ_self n)
  have hn : lowerHex n ≠ [] := hexits_ne _ _
  have hu : u256OfNat n = some n := by
    unfold u256OfNat
    rw [if_pos (show n < U256 from h)]
  refine ⟨?_, ?_⟩
  · rw [fromStrHex_unsigned]
    unfold unsignedHex
    simp only [if_neg hn, hv, Option.bind_some, hu]
  · have hn' : upperHex n ≠ [] := fun e => hn (List.map_eq_nil_iff.1 e)
    have hv' : hexValue 0 (upperHex n) = some n := by
      exact (hexValue_upper _ (hexits_upper _ _) 0).trans hv
    rw [fromStrHex_unsigned]
    unfold unsignedHex
    simp only [if_neg hn', hv', Option.bind_some, hu]

/-- **C83** The text of a block is read exactly as a quantity or as one of the three tags. -/
theorem C83_block {s : List Char} {b : BlockSpec} : parseBlockSpec s = some b ↔
    (∃ ds, HexString ds.length s ds ∧ ds ≠ [] ∧ base16 ds < 2 ^ 256 ∧ b = .number (base16 ds)) ∨
    (s = "latest".toList ∧ b = .tag .latest) ∨ (s = "safe".toList ∧ b = .tag .safe) ∨
    (s = "finalized".toList ∧ b = .tag .finalized) := by
  have pre : ∀ {s : List Char}, ['0', 'x'].isPrefixOf s = true → ∃ t, s = '0' :: 'x' :: t := by
    intro s h
    obtain ⟨t, ht⟩ := List.isPrefixOf_iff_prefix.1 h
    exact ⟨t, ht.symm⟩
  constructor
  · intro h
    unfold parseBlockSpec at h
    split at h
    · rename_i hp
      obtain ⟨t, rfl⟩ := pre hp
      obtain ⟨n, h1, rfl⟩ := Option.map_eq_some_iff.1 h
      obtain ⟨ds, h2, h3, rfl, h4⟩ := unsignedHex_eq.1 ((fromStrHex_unsigned _).symm.trans h1)
      exact .inl ⟨ds, h2, h3, h4, rfl⟩
    · split at h
      · rename_i e; cases h; exact .inr (.inl ⟨e, rfl⟩)
      · split at h
        · rename_i e; cases h; exact .inr (.inr (.inl ⟨e, rfl⟩))
        · split at h
          · rename_i e; cases h; exact .inr (.inr (.inr ⟨e, rfl⟩))
          · cases h
  · rintro (⟨ds, h1, h2, h3, rfl⟩ | ⟨rfl, rfl⟩ | ⟨rfl, rfl⟩ | ⟨rfl, rfl⟩)
    · have hq := unsignedHex_eq.2 ⟨ds, h1, h2, rfl, h3⟩
      have hs := h1.1
      subst hs
      rw [parseBlockSpec_number, hq]
      rfl
    · decide
    · decide
    · decide

/-- **C83** The serialised form of a block is read back. -/
theorem C83_block_round_trip {b : BlockSpec} (h : ∀ n, b = .number n → n < 2 ^ 256) : parseBlockSpec (blockSpec b) = some b := by
  cases b with
  | number n =>
    have hq := (C83_quantity_round_trip (h n rfl)).1
    rw [fromStrHex_unsigned] at hq
    show parseBlockSpec ('0' :: 'x' :: lowerHex n) = _
    rw [parseBlockSpec_number, hq]
    rfl
  | tag t => cases t <;> decide

/-- **C83** Data is read exactly from `0x` and two hexadecimal digits for each byte. -/
theorem C83_data {s : List Char} {b : Bytes} : parseData s = some b ↔ HexBytes s b := by
  constructor
  · intro h
    unfold parseData at h
    split at h
    · exact hexDecode_eq.1 h
    · cases h
  · intro h
    obtain ⟨ds, rfl, _⟩ := hexBytes_prefix h
    exact hexDecode_eq.2 h

/-- **C83** Topics are read in the same way, if they have 32 bytes. -/
theorem C83_topic {s : List Char} {b : Bytes} : parseFixedData s = some b ↔ HexBytes s b ∧ b.length = 32 := by
  constructor
  · intro h
    unfold parseFixedData at h
    split at h
    · rename_i ds
      split at h
      · rename_i hl
        have hb := hexDecode_eq.1 h
        obtain ⟨ds', e, hl'⟩ := hexBytes_prefix hb
        simp only [List.cons.injEq, true_and] at e
        subst e
        exact ⟨hb, by omega⟩
      · cases h
    · cases h
  · rintro ⟨h, hl⟩
    obtain ⟨ds, rfl, hl'⟩ := hexBytes_prefix h
    unfold parseFixedData
    simp only [show ds.length = 64 from by omega, if_true]
    exact hexDecode_eq.2 h

/-- **C83** The serialised form of data is read back. -/
theorem C83_data_round_trip (b : Bytes) : parseData (data b) = some b ∧ (b.length = 32 → parseFixedData (data b) = some b) :=
  ⟨hexDecode_hexEncode b, fun h => C83_topic.2 ⟨hexEncode_bytes b, h⟩⟩

namespace Example

/-- Texts that are read, among them digits in upper case and a plus sign, and texts that are refused: too few digits, no digits, a number
of 257 bits, an unknown tag, a sign before the text of a block. -/
theorem C83_example :
    amount 1234567 = "1_234_567".toList ∧ amount 123 = "123".toList ∧ amount 0 = "0".toList ∧
    fromStrHex "+0xfF".toList = some 255 ∧ fromStrHex "0x".toList = none ∧ fromStrHex "ff".toList = none ∧
    fromStrHex ('0' :: 'x' :: '1' :: List.replicate 64 '0') = none ∧
    parseBlockSpec "0x3aa4f4".toList = some (.number 3843316) ∧ parseBlockSpec "safe".toList = some (.tag .safe) ∧
    parseBlockSpec "pending".toList = none ∧ parseBlockSpec "+0x1".toList = none ∧
    parseData "0x00Ff".toList = some [0, 255] ∧ parseData "0x0".toList = none ∧ parseFixedData "0x00ff".toList = none := by
  decide +kernel

end Example

end EvmMinter
