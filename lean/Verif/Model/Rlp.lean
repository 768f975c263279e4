import Verif.Base.Bytes
/-!
# RLP encoding

Models the behaviour of the `rlp` crate (0.5.2) used by minter/src/tx.rs. The crate itself is not in the
repository; its encoding is the one of the Ethereum yellow paper.
-/

namespace EvmMinter

/-- RLP trees. -/
inductive Rlp where
  | str (b : Bytes)
  | list (l : List Rlp)

namespace Rlp

/-- Length header with offset `off` (0x80 for strings, 0xc0 for lists). -/
def header (off : Nat) (len : Nat) : Bytes :=
  if len < 56 then [UInt8.ofNat (off + len)]
  else UInt8.ofNat (off + 55 + (minBE 8 len).length) :: minBE 8 len

/-- Encoding of a byte string (`encode_value`). -/
def encStr (b : Bytes) : Bytes :=
  match b with
  | [x] => if x.toNat < 128 then [x] else header 128 1 ++ [x]
  | _ => header 128 b.length ++ b

mutual
/-- RLP encoding of a tree. -/
def encode : Rlp → Bytes
  | .str b => encStr b
  | .list l => header 192 (encodeList l).length ++ encodeList l
/-- Concatenated encodings of the elements of a list. -/
def encodeList : List Rlp → Bytes
  | [] => []
  | r :: t => encode r ++ encodeList t
end

end Rlp

end EvmMinter
