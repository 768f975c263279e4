import Verif.Model.Address
import Verif.Props.C06
import Verif.Props.C30
import Verif.Base.Keccak256
/-!
# C44: chain identifiers and addresses are parsed exactly
-/

namespace EvmMinter
open Spec

namespace Spec

/-- The hexadecimal digits. -/
def hexDigits : List Char := "0123456789abcdefABCDEF".toList

/-- The value of a digit: its position. -/
def digitValue (c : Char) : Nat := "0123456789abcdef".toList.idxOf c.toLower

/-- The value of a number written in base 16. -/
def base16 (l : List Char) : Nat := l.foldl (fun n c => 16 * n + digitValue c) 0

/-- `0x` followed by `k` hexadecimal digits. -/
def HexString (k : Nat) (s digits : List Char) : Prop :=
  s = '0' :: 'x' :: digits ∧ digits.length = k ∧ ∀ c ∈ digits, c ∈ hexDigits

end Spec

/-! ## Digits -/

theorem hexDigit_small : ∀ n < 128, ∀ d, hexDigit (Char.ofNat n) = some d →
    Char.ofNat n ∈ hexDigits ∧ d = digitValue (Char.ofNat n) ∧ (Char.ofNat n).toLower = hexChar d := by
  have h : ∀ n < 128, (match hexDigit (Char.ofNat n) with
      | none => true
      | some d => decide (Char.ofNat n ∈ hexDigits ∧ d = digitValue (Char.ofNat n) ∧ (Char.ofNat n).toLower = hexChar d)) = true := by
    decide +kernel
  intro n hn d hd
  have := h n hn
  rw [hd] at this
  simpa using this

theorem hexDigit_some {c : Char} {d : Nat} (h : hexDigit c = some d) : c ∈ hexDigits ∧ d = digitValue c ∧ c.toLower = hexChar d := by
  have hn : c.toNat < 128 := by
    unfold hexDigit at h
    dsimp only at h
    split at h
    · omega
    · split at h
      · omega
      · split at h
        · omega
        · cases h
  have := hexDigit_small c.toNat hn d
  rw [Char.ofNat_toNat] at this
  exact this h

theorem hexDigit_of_mem : ∀ c ∈ hexDigits, hexDigit c = some (digitValue c) := by decide +kernel

theorem hexDigit_eq {c : Char} {d : Nat} : hexDigit c = some d ↔ c ∈ hexDigits ∧ d = digitValue c := by
  constructor
  · intro h; exact ⟨(hexDigit_some h).1, (hexDigit_some h).2.1⟩
  · rintro ⟨h, rfl⟩; exact hexDigit_of_mem c h

theorem hexDigit_hexChar : ∀ d < 16, hexDigit (hexChar d) = some d ∧ hexDigit (hexChar d).toUpper = some d := by decide +kernel

/-! ## Values -/

theorem hexValue_eq (l : List Char) : ∀ (acc n : Nat), hexValue acc l = some n ↔
    (∀ c ∈ l, c ∈ hexDigits) ∧ n = l.foldl (fun n c => 16 * n + digitValue c) acc := by
  induction l with
  | nil => intro acc n; simp [hexValue, eq_comm]
  | cons c t ih =>
    intro acc n
    simp only [hexValue, Option.bind_eq_some_iff, hexDigit_eq, ih, List.forall_mem_cons, List.foldl_cons, Nat.mul_comm 16]
    constructor
    · rintro ⟨d, ⟨h1, rfl⟩, h2, h3⟩; exact ⟨⟨h1, h2⟩, h3⟩
    · rintro ⟨⟨h1, h2⟩, h3⟩; exact ⟨_, ⟨h1, rfl⟩, h2, h3⟩

theorem hexValue_inj (l : List Char) : ∀ (l' : List Char) (acc acc' n : Nat), l.length = l'.length → hexValue acc l = some n →
    hexValue acc' l' = some n → acc = acc' ∧ l.map Char.toLower = l'.map Char.toLower := by
  induction l with
  | nil =>
    intro l' acc acc' n hl h h'
    have : l' = [] := List.length_eq_zero_iff.1 (by simpa using hl.symm)
    subst this
    simp only [hexValue, Option.some.injEq] at h h'
    exact ⟨h.trans h'.symm, rfl⟩
  | cons c t ih =>
    intro l' acc acc' n hl h h'
    cases l' with
    | nil => simp at hl
    | cons c' t' =>
      simp only [hexValue, Option.bind_eq_some_iff] at h h'
      obtain ⟨d, hd, h⟩ := h
      obtain ⟨d', hd', h'⟩ := h'
      have := ih t' _ _ n (by simpa using hl) h h'
      have h1 := hexDigit_lt hd
      have h2 := hexDigit_lt hd'
      have : d = d' := by omega
      subst this
      refine ⟨by omega, ?_⟩
      simp only [List.map_cons, (hexDigit_some hd).2.2, (hexDigit_some hd').2.2]
      congr 1
      exact (ih t' _ _ n (by simpa using hl) h h').2


theorem hexValue_hexEncode (l : Bytes) : ∀ acc, hexValue acc (hexEncode l) = some (acc * 256 ^ l.length + beNat l) := by
  induction l with
  | nil => intro acc; simp [hexEncode, hexValue, beNat]
  | cons b t ih =>
    intro acc
    have hb := b.toNat_lt
    have h1 := (hexDigit_hexChar (b.toNat / 16) (by omega)).1
    have h2 := (hexDigit_hexChar (b.toNat % 16) (by omega)).1
    simp only [hexEncode, List.flatMap_cons, List.cons_append, List.nil_append, hexValue, h1, h2, Option.bind_some] at ih ⊢
    rw [ih, beNat, List.length_cons, Nat.pow_succ]
    congr 1
    have : (acc * 16 + b.toNat / 16) * 16 + b.toNat % 16 = acc * 256 + b.toNat := by omega
    rw [this, Nat.add_mul, Nat.mul_assoc, Nat.mul_comm 256 (256 ^ t.length), Nat.add_assoc]

theorem hexEncode_length (l : Bytes) : (hexEncode l).length = 2 * l.length := by
  induction l with
  | nil => rfl
  | cons b t ih => simp only [hexEncode, List.flatMap_cons, List.length_append, List.length_cons, List.length_nil] at ih ⊢; omega

theorem hexEncode_upper (l : Bytes) : ∀ c ∈ hexEncode l, hexDigit c.toUpper = hexDigit c := by
  intro c hc
  obtain ⟨b, _, hc⟩ := List.mem_flatMap.1 hc
  have hb := b.toNat_lt
  have h1 := hexDigit_hexChar (b.toNat / 16) (by omega)
  have h2 := hexDigit_hexChar (b.toNat % 16) (by omega)
  simp only [List.mem_cons, List.not_mem_nil, or_false] at hc
  rcases hc with rfl | rfl
  · rw [h1.1, h1.2]
  · rw [h2.1, h2.2]

theorem hexValue_zipWith {g : Nat → Prop} [DecidablePred g] (l : List Char) (h : ∀ c ∈ l, hexDigit c.toUpper = hexDigit c) :
    ∀ (ns : List Nat) (acc : Nat), l.length ≤ ns.length →
      hexValue acc (List.zipWith (fun c n => if g n then c.toUpper else c) l ns) = hexValue acc l := by
  induction l with
  | nil => intro ns acc _; simp
  | cons c t ih =>
    intro ns acc hl
    cases ns with
    | nil => simp at hl
    | cons n ns =>
      simp only [List.zipWith_cons_cons, hexValue]
      have : hexDigit (if g n then c.toUpper else c) = hexDigit c := by
        split
        · exact h c (by simp)
        · rfl
      rw [this]
      congr 1
      funext d
      exact ih (fun c hc => h c (by simp [hc])) ns _ (by simpa using hl)

theorem hexValue_upper (l : List Char) (h : ∀ c ∈ l, hexDigit c.toUpper = hexDigit c) (acc : Nat) :
    hexValue acc (l.map Char.toUpper) = hexValue acc l := by
  induction l generalizing acc with
  | nil => rfl
  | cons c t ih =>
    simp only [List.map_cons, hexValue, h c (by simp)]
    congr 1
    funext d
    exact ih (fun c hc => h c (by simp [hc])) _

theorem nibbles_length (l : Bytes) : (nibbles l).length = 2 * l.length := by
  induction l with
  | nil => rfl
  | cons b t ih => simp only [nibbles, List.flatMap_cons, List.length_append, List.length_cons, List.length_nil] at ih ⊢; omega

/-! ## The property -/

/-- **C44** A network is recognised exactly for its chain id. -/
theorem C44_network {n : Nat} {x : EvmNetwork} : EvmNetwork.ofChainId n = some x ↔ x.chainId = n := ofChainId_eq

/-- **C44** Chain ids are distinct. -/
theorem C44_chain_ids {x y : EvmNetwork} (h : x.chainId = y.chainId) : x = y := by
  have h1 := ofChainId_eq.2 (rfl : x.chainId = x.chainId)
  rw [h, ofChainId_eq.2 rfl] at h1
  exact (Option.some.inj h1).symm

/-- **C44** Parsing accepts exactly `0x` followed by 40 hexadecimal digits in any case, and returns their value. -/
theorem C44_parse {s : List Char} {a : Address} :
    Address.parse s = some a ↔ ∃ digits, HexString 40 s digits ∧ a = base16 digits := by
  unfold Address.parse HexString base16
  constructor
  · intro h
    split at h
    · rename_i rest
      split at h
      · rename_i hl
        exact ⟨rest, ⟨rfl, hl, ((hexValue_eq _ _ _).1 h).1⟩, ((hexValue_eq _ _ _).1 h).2⟩
      · cases h
    · cases h
  · rintro ⟨ds, ⟨rfl, hl, hd⟩, rfl⟩
    simp only [hl, if_true]
    exact (hexValue_eq _ _ _).2 ⟨hd, rfl⟩

/-- **C44** A parsed address has 20 bytes. -/
theorem C44_parse_range {s : List Char} {a : Address} (h : Address.parse s = some a) : a < 2 ^ 160 := Address.parse_lt h

/-- **C44** The printed forms of an address parse back to it. -/
theorem C44_round_trip [Keccak] {a : Address} (h : a < 2 ^ 160) :
    Address.parse a.display = some a ∧ Address.parse a.lowerHex = some a ∧ Address.parse a.upperHex = some a := by
  have hl : (hexEncode (toBE 20 a)).length = 40 := by rw [hexEncode_length, length_toBE]
  have hv : hexValue 0 (hexEncode (toBE 20 a)) = some a := by
    rw [hexValue_hexEncode, beNat_toBE_of_lt (show a < 256 ^ 20 from h)]
    simp
  have hu := hexEncode_upper (toBE 20 a)
  refine ⟨?_, ?_, ?_⟩
  · unfold Address.display Address.parse
    have hn : 40 ≤ (nibbles (toBE 32 (Keccak.hash ((hexEncode (toBE 20 a)).map fun c => UInt8.ofNat c.toNat)))).length := by
      rw [nibbles_length, length_toBE]; omega
    simp only [List.length_zipWith, hl]
    rw [if_pos (by omega), hexValue_zipWith (g := fun n => 8 ≤ n) _ hu _ _ (by omega)]
    exact hv
  · unfold Address.lowerHex Address.parse
    simp only [hl, if_true]
    exact hv
  · unfold Address.upperHex hexEncodeUpper Address.parse
    simp only [List.length_map, hl, if_true]
    rw [hexValue_upper _ hu]
    exact hv

/-- **C44** The printed form determines the address. -/
theorem C44_display_injective [Keccak] {a b : Address} (ha : a < 2 ^ 160) (hb : b < 2 ^ 160) (h : a.display = b.display) : a = b := by
  have := (C44_round_trip ha).1
  rw [h, (C44_round_trip hb).1] at this
  exact (Option.some.inj this).symm

/-- **C44** Two strings stand for the same address exactly if they differ at most in the case of digits. -/
theorem C44_case {s t : List Char} {a b : Address} (hs : Address.parse s = some a) (ht : Address.parse t = some b) :
    a = b ↔ s.map Char.toLower = t.map Char.toLower := by
  have hr : ∀ {s : List Char} {a : Address}, Address.parse s = some a → ∃ ds, s = '0' :: 'x' :: ds ∧ ds.length = 40 ∧ hexValue 0 ds = some a := by
    intro s a h
    unfold Address.parse at h
    split at h
    · rename_i rest
      split at h
      · rename_i hl; exact ⟨rest, rfl, hl, h⟩
      · cases h
    · cases h
  obtain ⟨ds, rfl, hl, h⟩ := hr hs
  obtain ⟨ds', rfl, hl', h'⟩ := hr ht
  constructor
  · rintro rfl
    simp only [List.map_cons, (hexValue_inj ds ds' 0 0 a (by omega) h h').2]
  · intro hm
    simp only [List.map_cons, List.cons.injEq, true_and] at hm
    have low : ∀ (l : List Char) (acc n : Nat), hexValue acc l = some n → hexValue acc (l.map Char.toLower) = some n := by
      intro l
      induction l with
      | nil => intro acc n h; exact h
      | cons c t ih =>
        intro acc n h
        simp only [hexValue, Option.bind_eq_some_iff, List.map_cons] at h ⊢
        obtain ⟨d, hd, h⟩ := h
        refine ⟨d, ?_, ih _ _ h⟩
        rw [(hexDigit_some hd).2.2]
        exact (hexDigit_hexChar d (hexDigit_lt hd)).1
    have h1 := low _ _ _ h
    rw [hm, low _ _ _ h'] at h1
    exact (Option.some.inj h1).symm

/-- **C44** A withdrawal goes to the address that the recipient string stands for, and not to the zero address. -/
theorem C44_destination {s : List Char} {a : Address} :
    validateDestination s = some a ↔ Address.parse s = some a ∧ a ≠ 0 := by
  unfold validateDestination
  rw [Option.filter_eq_some_iff]
  simp [Address.zero]

/-- **C44** The same for transaction hashes. -/
theorem C44_hash {s : List Char} {h : Hash} :
    (Hash.parse s = some h ↔ ∃ digits, HexString 64 s digits ∧ h = base16 digits) ∧
    (h < 2 ^ 256 → Hash.parse h.display = some h) := by
  constructor
  · unfold Hash.parse HexString base16
    constructor
    · intro h
      split at h
      · rename_i rest
        split at h
        · rename_i hl
          exact ⟨rest, ⟨rfl, hl, ((hexValue_eq _ _ _).1 h).1⟩, ((hexValue_eq _ _ _).1 h).2⟩
        · cases h
      · cases h
    · rintro ⟨ds, ⟨rfl, hl, hd⟩, rfl⟩
      simp only [hl, if_true]
      exact (hexValue_eq _ _ _).2 ⟨hd, rfl⟩
  · intro hh
    unfold Hash.display Hash.parse
    have hl : (hexEncode (toBE 32 h)).length = 64 := by rw [hexEncode_length, length_toBE]
    simp only [hl, if_true]
    rw [hexValue_hexEncode, beNat_toBE_of_lt (show h < 256 ^ 32 from hh)]
    simp

/-- **C44** The address of a public key is the last 20 bytes of its hash. -/
theorem C44_key [Keccak] (key : Bytes) : addressOfKey key = Keccak.hash key % 2 ^ 160 := by
  unfold addressOfKey
  have h := beNat_append ((toBE 32 (Keccak.hash key)).take 12) ((toBE 32 (Keccak.hash key)).drop 12)
  rw [List.take_append_drop, List.length_drop, length_toBE, beNat_toBE] at h
  have hl := beNat_lt ((toBE 32 (Keccak.hash key)).drop 12)
  rw [List.length_drop, length_toBE] at hl
  have hm : Keccak.hash key % 256 ^ 32 % 2 ^ 160 = Keccak.hash key % 2 ^ 160 := Nat.mod_mod_of_dvd _ (by decide)
  rw [← hm, h, Nat.mul_comm, show 2 ^ 160 = 256 ^ (32 - 12) from by decide, Nat.mul_add_mod, Nat.mod_eq_of_lt hl]

namespace Example

/-- The actual hash function. -/
@[instance_reducible] def realKeccak : Keccak := ⟨fun b => beNat (Keccak256.hash b)⟩

/-- An address from EIP-55. -/
theorem C44_example :
    Address.parse "0x5aaeb6053f3e94c9b9a09f33669435e7ef1beaed".toList = some 0x5aAeb6053F3E94C9b9A09f33669435E7Ef1BeAed ∧
    String.ofList (@Address.display realKeccak 0x5aAeb6053F3E94C9b9A09f33669435E7Ef1BeAed) = "0x5aAeb6053F3E94C9b9A09f33669435E7Ef1BeAed" ∧
    Address.parse "0x5aaeb6053f3e94c9b9a09f33669435e7ef1beae".toList = none ∧
    Address.parse "0X5aaeb6053f3e94c9b9a09f33669435e7ef1beaed".toList = none ∧
    validateDestination "0x0000000000000000000000000000000000000000".toList = none := by
  decide +kernel

/-- The address of the private key 1: the public key is the generator of the curve. -/
theorem C44_example_key : @addressOfKey realKeccak
    (toBE 32 0x79BE667EF9DCBBAC55A06295CE870B07029BFCDB2DCE28D959F2815B16F81798 ++
      toBE 32 0x483ADA7726A3C4655DA4FBFC0E1108A8FD17B448A68554199C47D08FFB10D4B8) = 0x7E5F4552091A69125d5dfCb7b8C2659029395Bdf := by
  decide +kernel

end Example
end EvmMinter
