import Verif.Model.Address
import Verif.Model.Logs
import Verif.Model.Requests
/-!
# Texts of amounts, data and blocks (checked_amount/mod.rs, rpc_declrations.rs, eth_types/serde_data.rs)

The texts of errors are left out. `ethnum`, `hex` and `thousands` are modelled from their documentation: `u256` is printed without leading
zeros, `from_str_hex` takes an optional plus sign, `0x` and at least one digit, `separate_with_underscores` groups the digits by three
from the right, and `u256` is serialised as `0x` with its hexadecimal digits.
-/

namespace EvmMinter
namespace Texts

/-- An underscore between groups of three digits (`thousands::Separable::separate_with_underscores`). -/
def separate : List Char → List Char
  | [] => []
  | c :: t => if t.length % 3 = 0 ∧ t ≠ [] then c :: '_' :: separate t else c :: separate t

/-- `Display` and `Debug` for `CheckedAmountOf` (checked_amount/mod.rs:217-229). -/
def amount (n : Nat) : List Char := separate (Logs.decimal n)

/-- The hexadecimal digits of a number below `16 ^ fuel`. -/
def hexits : Nat → Nat → List Char
  | 0, _ => []
  | fuel + 1, n => if n < 16 then [hexChar n] else hexits fuel (n / 16) ++ [hexChar (n % 16)]

/-- `LowerHex` for `CheckedAmountOf` (checked_amount/mod.rs:231-235). -/
def lowerHex (n : Nat) : List Char := hexits (n + 1) n

/-- `UpperHex` for `CheckedAmountOf` (checked_amount/mod.rs:237-241). -/
def upperHex (n : Nat) : List Char := (lowerHex n).map Char.toUpper

/-- The part of `u256::from_str_hex` after the sign. -/
def unsignedHex : List Char → Option Nat
  | '0' :: 'x' :: ds => if ds = [] then none else (hexValue 0 ds).bind u256OfNat
  | _ => none

/-- `CheckedAmountOf::from_str_hex` (checked_amount/mod.rs:88-90). -/
def fromStrHex : List Char → Option Nat
  | '+' :: s => unsignedHex s
  | s => unsignedHex s

/-- `Display` for `BlockTag` (rpc_declrations.rs:174-182), also its serialised form (:140). -/
def blockTag : BlockTag → List Char
  | .latest => "latest".toList
  | .safe => "safe".toList
  | .finalized => "finalized".toList

/-- The serialised form of `BlockSpec` (rpc_declrations.rs:185-192, checked_amount/mod.rs:277-281), without quotes. -/
def blockSpec : BlockSpec → List Char
  | .number n => '0' :: 'x' :: lowerHex n
  | .tag t => blockTag t

/-- `FromStr` for `BlockSpec` (rpc_declrations.rs:205-222). -/
def parseBlockSpec (s : List Char) : Option BlockSpec :=
  if ['0', 'x'].isPrefixOf s then (fromStrHex s).map .number
  else if s = "latest".toList then some (.tag .latest)
  else if s = "safe".toList then some (.tag .safe)
  else if s = "finalized".toList then some (.tag .finalized)
  else none

/-- `hex::decode`. -/
def hexDecode : List Char → Option Bytes
  | [] => some []
  | [_] => none
  | a :: b :: t =>
    match hexDigit a, hexDigit b, hexDecode t with
    | some x, some y, some l => some (UInt8.ofNat (x * 16 + y) :: l)
    | _, _, _ => none

/-- `serde_data::serialize` (eth_types/serde_data.rs:9-17), without quotes. -/
def data (b : Bytes) : List Char := '0' :: 'x' :: hexEncode b

/-- `FromStr` for `Data` (rpc_declrations.rs:24-31), which is `serde_data::deserialize` (eth_types/serde_data.rs:20-51). -/
def parseData : List Char → Option Bytes
  | '0' :: 'x' :: ds => hexDecode ds
  | _ => none

/-- `FromStr` for `FixedSizeData` (rpc_declrations.rs:49-61): the slice of 32 bytes is filled exactly. -/
def parseFixedData : List Char → Option Bytes
  | '0' :: 'x' :: ds => if ds.length = 64 then hexDecode ds else none
  | _ => none

end Texts
end EvmMinter
