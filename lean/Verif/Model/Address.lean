import Verif.Model.Parser
import Verif.Model.State
/-!
# Printing of addresses and hashes (eth_types/mod.rs, address.rs)
-/

namespace EvmMinter

/-- `hex::encode`. -/
def hexEncode (l : Bytes) : List Char := l.flatMap fun b => [hexChar (b.toNat / 16), hexChar (b.toNat % 16)]

/-- `hex::encode_upper`. -/
def hexEncodeUpper (l : Bytes) : List Char := (hexEncode l).map Char.toUpper

/-- `LowerHex for Address` (eth_types/mod.rs:44-48). -/
def Address.lowerHex (a : Address) : List Char := '0' :: 'x' :: hexEncode (toBE 20 a)

/-- `UpperHex for Address` (eth_types/mod.rs:50-54). -/
def Address.upperHex (a : Address) : List Char := '0' :: 'x' :: hexEncodeUpper (toBE 20 a)

/-- The half bytes of a byte string (eth_types/mod.rs:113-116). -/
def nibbles (l : Bytes) : List Nat := l.flatMap fun b => [b.toNat / 16, b.toNat % 16]

/-- `Display for Address` (eth_types/mod.rs:104-128): EIP-55, a letter is in upper case if the half byte at its position in
the hash of the lower-case digits is at least 8. -/
def Address.display [Keccak] (a : Address) : List Char :=
  let digits := hexEncode (toBE 20 a)
  let checksum := nibbles (toBE 32 (Keccak.hash (digits.map fun c => UInt8.ofNat c.toNat)))
  '0' :: 'x' :: List.zipWith (fun c n => if 8 ≤ n then c.toUpper else c) digits checksum

/-- `Display for Hash` (rpc_declrations.rs:104-114). -/
def Hash.display (h : Hash) : List Char := '0' :: 'x' :: hexEncode (toBE 32 h)

/-- `FromStr for Hash` (rpc_declrations.rs:122-134). -/
def Hash.parse (s : List Char) : Option Hash :=
  match s with
  | '0' :: 'x' :: rest => if rest.length = 64 then hexValue 0 rest else none
  | _ => none

/-- `ecdsa_public_key_to_address` (address.rs:11-18) on the 64 bytes of the uncompressed key after its first byte: the last 20
bytes of the hash. -/
def addressOfKey [Keccak] (key : Bytes) : Address := beNat ((toBE 32 (Keccak.hash key)).drop 12)

end EvmMinter
