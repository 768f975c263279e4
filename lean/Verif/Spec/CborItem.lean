import Verif.Base.Bytes
/-!
# CBOR data items (RFC 8949)

The part of the format that the minter uses: unsigned numbers, byte and text strings, arrays, bignums (tag 2), booleans and null, in
preferred serialisation (section 4.1): arguments in the shortest form, bignums only for what is no 64-bit number, without zeros in front,
definite lengths.
-/

namespace EvmMinter
namespace Spec

/-- A data item. -/
inductive Item where
  | number (n : Nat)
  | bytes (b : Bytes)
  | text (s : String)
  | array (l : List Item)
  | bool (b : Bool)
  | null

/-- The number that bytes stand for, the most significant first. -/
def bigEndian (l : Bytes) : Nat := l.foldl (fun v b => 256 * v + b.toNat) 0

/-- The head of an item (section 3): a byte with the major type in the upper three bits, and the argument, in its lower five bits or in the
1, 2, 4 or 8 bytes after it. -/
inductive Head (major : Nat) : Nat → Bytes → Prop where
  | direct {n : Nat} {b : UInt8} : n < 24 → b.toNat = 32 * major + n → Head major n [b]
  | one {n : Nat} {b : UInt8} {l : Bytes} : 24 ≤ n → b.toNat = 32 * major + 24 → l.length = 1 → bigEndian l = n → Head major n (b :: l)
  | two {n : Nat} {b : UInt8} {l : Bytes} : 2 ^ 8 ≤ n → b.toNat = 32 * major + 25 → l.length = 2 → bigEndian l = n → Head major n (b :: l)
  | four {n : Nat} {b : UInt8} {l : Bytes} : 2 ^ 16 ≤ n → b.toNat = 32 * major + 26 → l.length = 4 → bigEndian l = n → Head major n (b :: l)
  | eight {n : Nat} {b : UInt8} {l : Bytes} : 2 ^ 32 ≤ n → b.toNat = 32 * major + 27 → l.length = 8 → bigEndian l = n → Head major n (b :: l)

mutual
/-- The bytes are the encoding of the item. -/
inductive Encodes : Item → Bytes → Prop where
  | number {n : Nat} {h : Bytes} : Head 0 n h → Encodes (.number n) h
  | bignum {b t h : Bytes} : 2 ^ 64 ≤ bigEndian b → b.head? ≠ some 0 → Head 6 2 t → Head 2 b.length h →
      Encodes (.number (bigEndian b)) (t ++ (h ++ b))
  | bytes {b h : Bytes} : Head 2 b.length h → Encodes (.bytes b) (h ++ b)
  | text {s : String} {h : Bytes} : Head 3 s.toUTF8.data.toList.length h → Encodes (.text s) (h ++ s.toUTF8.data.toList)
  | array {l : List Item} {b h : Bytes} : Head 4 l.length h → EncodesAll l b → Encodes (.array l) (h ++ b)
  | no : Encodes (.bool false) [0xf4]
  | yes : Encodes (.bool true) [0xf5]
  | null : Encodes .null [0xf6]
/-- The bytes are the encodings of the items, one after the other. -/
inductive EncodesAll : List Item → Bytes → Prop where
  | nil : EncodesAll [] []
  | cons {i : Item} {l : List Item} {a b : Bytes} : Encodes i a → EncodesAll l b → EncodesAll (i :: l) (a ++ b)
end

end Spec
end EvmMinter
