import Verif.Base.Bytes
import Verif.Model.Types
/-!
# CBOR (crate minicbor 0.19.1 with minicbor-derive 0.13.0, and minter/src/cbor)

The encoders and decoders of the library that the minter uses, and the ones of minter/src/cbor. The library is not part of
/repo; it is modelled from its documentation.

Simplifications of the decoder:
* arrays, byte strings and texts of indefinite length are refused. No encoder of the minter writes them;
* a struct with more elements than the type has fields is refused, where the library skips the additional ones;
* errors are of two kinds, of which the minter tells apart.
-/

namespace EvmMinter
namespace Cbor

/-- `minicbor::decode::Error`: `is_type_mismatch()` or not. -/
inductive Err where
  | typeMismatch
  | other
deriving DecidableEq, Repr

/-- A decoder: the input from the current position, to the value and the rest of the input. -/
def Dec (α : Type) : Type := Bytes → Except Err (α × Bytes)

instance : Monad Dec where
  pure a := fun l => .ok (a, l)
  bind d f := fun l => match d l with
    | .ok (a, t) => f a t
    | .error e => .error e

def fail (e : Err) : Dec α := fun _ => .error e

/-! ## Heads -/

/-- `Encoder::type_len` and the encoders of unsigned integers: initial byte with major type `m` and argument `n` in the shortest
form. -/
def head (m n : Nat) : Bytes :=
  if n < 24 then [UInt8.ofNat (m * 32 + n)]
  else if n < 2 ^ 8 then UInt8.ofNat (m * 32 + 24) :: toBE 1 n
  else if n < 2 ^ 16 then UInt8.ofNat (m * 32 + 25) :: toBE 2 n
  else if n < 2 ^ 32 then UInt8.ofNat (m * 32 + 26) :: toBE 4 n
  else UInt8.ofNat (m * 32 + 27) :: toBE 8 n

/-- `Decoder::read`: one byte. -/
def readByte : Dec UInt8
  | [] => .error .other
  | b :: t => .ok (b, t)

/-- `Decoder::read_slice`. -/
def readSlice (n : Nat) : Dec Bytes := fun l => if n ≤ l.length then .ok (l.take n, l.drop n) else .error .other

/-- A big-endian number of `w` bytes. -/
def readBE (w : Nat) : Dec Nat := do return beNat (← readSlice w)

/-- `Decoder::unsigned`: the argument, given the low five bits of the initial byte. -/
def argument (info : Nat) : Dec Nat :=
  if info < 24 then pure info
  else if info = 24 then readBE 1
  else if info = 25 then readBE 2
  else if info = 26 then readBE 4
  else if info = 27 then readBE 8
  else fail .typeMismatch

/-- A head of the given major type. -/
def readHead (m : Nat) : Dec Nat := do
  let b ← readByte
  if b.toNat / 32 = m then argument (b.toNat % 32) else fail .typeMismatch

/-! ## Library types -/

/-- `Encoder::u64` (and `u8`, `u16`, `u32`). -/
def u64 (n : Nat) : Bytes := head 0 n
/-- `Decoder::u64`. -/
def readU64 : Dec Nat := readHead 0
/-- `Decoder::u32`. -/
def readU32 : Dec Nat := do
  let n ← readHead 0
  if n < 2 ^ 32 then pure n else fail .other

/-- `Encoder::bytes`. -/
def bytes (l : Bytes) : Bytes := head 2 l.length ++ l
/-- `Decoder::bytes`. -/
def readBytes : Dec Bytes := do readSlice (← readHead 2)

/-- The bytes of a string. -/
def utf8 (s : String) : Bytes := s.toUTF8.data.toList
/-- `Encoder::str`. -/
def text (s : String) : Bytes := head 3 (utf8 s).length ++ utf8 s
/-- `Decoder::str`. -/
def readText : Dec String := do
  match String.fromUTF8? ⟨(← readSlice (← readHead 3)).toArray⟩ with
  | some s => pure s
  | none => fail .other

/-- `Encoder::bool`. -/
def bool (b : Bool) : Bytes := if b then [0xf5] else [0xf4]
/-- `Decoder::bool`. -/
def readBool : Dec Bool := do
  let b ← readByte
  if b = 0xf4 then pure false else if b = 0xf5 then pure true else fail .typeMismatch

/-- `Encoder::array`. -/
def array (n : Nat) : Bytes := head 4 n
/-- `Decoder::array`. -/
def readArray : Dec Nat := readHead 4

/-- `Encoder::tag`. -/
def tag (n : Nat) : Bytes := head 6 n
/-- `Decoder::tag`. -/
def readTag : Dec Nat := readHead 6

/-- `Encoder::null`. -/
def null : Bytes := [0xf6]

/-- `Encode for Option<T>`. -/
def option (e : α → Bytes) : Option α → Bytes
  | none => null
  | some a => e a
/-- `Decode for Option<T>`. -/
def readOption (d : Dec α) : Dec (Option α) := fun l =>
  match l with
  | [] => .error .other
  | b :: t => if b = 0xf6 then .ok (none, t) else (do return some (← d) : Dec (Option α)) l

/-- `Encode for Vec<T>`. -/
def vec (e : α → Bytes) (l : List α) : Bytes := array l.length ++ l.flatMap e
/-- `n` times `d`. -/
def readMany (d : Dec α) : Nat → Dec (List α)
  | 0 => pure []
  | n + 1 => do
    let a ← d
    return a :: (← readMany d n)
/-- `Decode for Vec<T>`. -/
def readVec (d : Dec α) : Dec (List α) := do readMany d (← readArray)

/-- `minicbor::bytes` for `[u8; w]`; the array is its big-endian value. -/
def fixed (w n : Nat) : Bytes := bytes (toBE w n)
/-- `minicbor::bytes` for `[u8; w]`. -/
def readFixed (w : Nat) : Dec Nat := do
  let l ← readBytes
  if l.length = w then pure (beNat l) else fail .other

/-! ## Derived codecs

A struct is an array of its fields in the order of their numbers. The array ends at the last field that is not nil. -/

/-- An encoded field; the first component is `is_nil`. -/
abbrev Field := Bool × Bytes

/-- `derive(Encode)` for a struct. -/
def struct (fs : List Field) : Bytes :=
  let n := (fs.reverse.dropWhile (·.1)).length
  array n ++ (fs.take n).flatMap (·.2)

/-- A field that is never nil. -/
def req (b : Bytes) : Field := (false, b)
/-- A field with an optional type. -/
def opt (e : α → Bytes) (o : Option α) : Field := (o.isNone, option e o)
/-- A field with an optional type and `with = …`. Whether the library regards it as nil is the parameter `nil`: the
documentation does not say. -/
def optWith (nil : Bool) (e : α → Bytes) (o : Option α) : Field := (nil && o.isNone, option e o)

/-- A decoder of fields: it has, and returns, the number of elements that are left. -/
def FieldDec (α : Type) : Type := Nat → Dec (α × Nat)

instance : Monad FieldDec where
  pure a := fun k => pure (a, k)
  bind d f := fun k => do
    let r ← d k
    f r.1 r.2

/-- A field that must be present. -/
def readReq (d : Dec α) : FieldDec α := fun k =>
  match k with
  | 0 => fail .other
  | k + 1 => do return (← d, k)

/-- A field that may be absent. -/
def readOpt (d : Dec α) : FieldDec (Option α) := fun k =>
  match k with
  | 0 => pure (none, 0)
  | k + 1 => do return (← readOption d, k)

/-- `derive(Decode)` for a struct. -/
def readStruct (d : FieldDec α) : Dec α := do
  let r ← d (← readArray)
  if r.2 = 0 then pure r.1 else fail .other

/-- `derive(Encode)` for a variant of an enum. -/
def variant (index : Nat) (fs : List Field) : Bytes := array 2 ++ u64 index ++ struct fs

/-- `derive(Decode)` for an enum: the head and the index of the variant. -/
def readVariant : Dec Nat := do
  if (← readArray) = 2 then readU32 else fail .other

/-! ## minter/src/cbor -/

/-- `cbor::u256::encode` (cbor/u256.rs:38-56). -/
def u256 (n : Nat) : Bytes :=
  if n < 2 ^ 32 then u64 n
  else if n < 2 ^ 64 then u64 n
  else tag 2 ++ bytes (minBE 32 n)

/-- `cbor::u256::decode` (cbor/u256.rs:10-36). -/
def readU256 : Dec Nat := fun l =>
  match readU64 l with
  | .ok r => .ok r
  | .error .other => .error .other
  | .error .typeMismatch => (do
      let t ← readTag
      if t ≠ 2 then fail .other
      else
        let b ← readBytes
        if 32 < b.length then fail .other
        else pure (beNat (List.replicate (32 - b.length) 0 ++ b)) : Dec Nat) l

/-- `BigUint::to_bytes_be`: without leading zeros; zero is one byte. -/
def natBE (n : Nat) : Bytes := if n = 0 then [0] else minBE (n.log2 / 8 + 1) n

/-- `cbor::nat::encode` (cbor/nat.rs:28-40). -/
def nat (n : Nat) : Bytes :=
  if n < 2 ^ 32 then u64 n
  else if n < 2 ^ 64 then u64 n
  else tag 2 ++ bytes (natBE n)

/-- `cbor::nat::decode` (cbor/nat.rs:9-27). -/
def readNat : Dec Nat := fun l =>
  match readU64 l with
  | .ok r => .ok r
  | .error .other => .error .other
  | .error .typeMismatch => (do
      let t ← readTag
      if t ≠ 2 then fail .other
      else return beNat (← readBytes) : Dec Nat) l

/-- `cbor::principal::encode` (cbor/principal.rs:11-18). -/
def principal (p : Principal) : Bytes := bytes p.bytes

/-- `cbor::principal::decode` (cbor/principal.rs:6-9); `Principal::try_from_slice` accepts at most 29 bytes. -/
def readPrincipal : Dec Principal := do
  let b ← readBytes
  if b.length ≤ 29 then pure ⟨b⟩ else fail .other

/-- `cbor::id::encode` for `Id<_, u64>` (cbor/id.rs:18-27). -/
def id (n : Nat) : Bytes := u64 n
/-- `cbor::id::decode` for `Id<_, u64>` (cbor/id.rs:8-16). -/
def readId : Dec Nat := readU64

end Cbor
end EvmMinter
