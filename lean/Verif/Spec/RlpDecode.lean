import Verif.Model.Types
import Verif.Model.Rlp
/-!
# How a node reads RLP and EIP-1559 transactions

A strict decoder after the Ethereum yellow paper (appendix B) and EIP-1559, EIP-2930: it refuses lengths that are not
minimal, single bytes below 128 with a length, and integers with leading zeros. It does not refer to the encoder.
-/

namespace EvmMinter
namespace Spec

/-- The first `n` bytes and the rest. -/
def takeN (n : Nat) (bs : Bytes) : Option (Bytes × Bytes) :=
  if bs.length < n then none else some (bs.take n, bs.drop n)

/-- A length on `k` bytes, minimal and at least 56. -/
def longLength (k : Nat) (bs : Bytes) : Option (Nat × Bytes) :=
  match takeN k bs with
  | none => none
  | some (l, r) => if l.head? = some 0 ∨ beNat l < 56 then none else some (beNat l, r)

/-- The first item: whether it is a list, its payload, and what follows. -/
def firstItem : Bytes → Option (Bool × Bytes × Bytes)
  | [] => none
  | b :: t =>
    if b.toNat < 128 then some (false, [b], t)
    else if b.toNat < 184 then
      match takeN (b.toNat - 128) t with
      | none => none
      | some ([x], r) => if x.toNat < 128 then none else some (false, [x], r)
      | some (p, r) => some (false, p, r)
    else if b.toNat < 192 then
      match longLength (b.toNat - 183) t with
      | none => none
      | some (n, t) => (takeN n t).map fun x => (false, x.1, x.2)
    else if b.toNat < 248 then (takeN (b.toNat - 192) t).map fun x => (true, x.1, x.2)
    else
      match longLength (b.toNat - 247) t with
      | none => none
      | some (n, t) => (takeN n t).map fun x => (true, x.1, x.2)

mutual
/-- The first item as a tree and what follows; the first argument bounds the recursion. -/
def decodeItem : Nat → Bytes → Option (Rlp × Bytes)
  | 0, _ => none
  | f + 1, bs =>
    match firstItem bs with
    | none => none
    | some (false, p, r) => some (.str p, r)
    | some (true, p, r) => (decodeItems f p).map fun l => (.list l, r)
/-- All items. -/
def decodeItems : Nat → Bytes → Option (List Rlp)
  | 0, bs => if bs.isEmpty then some [] else none
  | f + 1, bs =>
    if bs.isEmpty then some []
    else
      match decodeItem f bs with
      | none => none
      | some (x, r) => (decodeItems f r).map (x :: ·)
end

/-- A byte string that is one item. The bound on the recursion is never reached. -/
def decodeRlp (bs : Bytes) : Option Rlp :=
  match decodeItem (2 * bs.length + 1) bs with
  | some (x, []) => some x
  | _ => none

/-- An integer of at most `w` bytes without leading zeros. -/
def asNat (w : Nat) : Rlp → Option Nat
  | .str b => if b.head? = some 0 ∨ w < b.length then none else some (beNat b)
  | .list _ => none

/-- A string of exactly `w` bytes. -/
def asFixed (w : Nat) : Rlp → Option Nat
  | .str b => if b.length = w then some (beNat b) else none
  | .list _ => none

/-- Any string. -/
def asBytes : Rlp → Option Bytes
  | .str b => some b
  | .list _ => none

/-- All or nothing. -/
def mapAll {α β : Type} (f : α → Option β) : List α → Option (List β)
  | [] => some []
  | a :: t =>
    match f a, mapAll f t with
    | some b, some l => some (b :: l)
    | _, _ => none

/-- Entry of an access list (EIP-2930). -/
def asAccessListItem : Rlp → Option AccessListItem
  | .list [a, .list ks] =>
    match asFixed 20 a, mapAll (asFixed 32) ks with
    | some a, some ks => some ⟨a, ks⟩
    | _, _ => none
  | _ => none

/-- Access list (EIP-2930). -/
def asAccessList : Rlp → Option (List AccessListItem)
  | .list l => mapAll asAccessListItem l
  | .str _ => none

/-- The nine fields (EIP-1559): `chain_id, nonce, max_priority_fee_per_gas, max_fee_per_gas, gas_limit, destination, amount,
data, access_list`. -/
def asTx : List Rlp → Option Tx
  | [c, n, mp, mf, g, d, a, x, l] => do
    return ⟨← asNat 8 c, ← asNat 32 n, ← asNat 32 mp, ← asNat 32 mf, ← asNat 32 g, ← asFixed 20 d, ← asNat 32 a,
      ← asBytes x, ← asAccessList l⟩
  | _ => none

/-- `signature_y_parity, signature_r, signature_s`. -/
def asSignature : List Rlp → Option Signature
  | [y, r, s] => do
    let y ← asNat 1 y
    if y ≤ 1 then return ⟨y == 1, ← asNat 32 r, ← asNat 32 s⟩ else none
  | _ => none

/-- The payload that is signed: `0x02 || rlp([...])` with nine fields. -/
def readUnsigned : Bytes → Option Tx
  | 2 :: bs =>
    match decodeRlp bs with
    | some (.list l) => asTx l
    | _ => none
  | _ => none

/-- The transaction that is broadcast: `0x02 || rlp([...])` with twelve fields. -/
def readSigned : Bytes → Option SignedTx
  | 2 :: bs =>
    match decodeRlp bs with
    | some (.list l) => do return ⟨← asTx (l.take 9), ← asSignature (l.drop 9)⟩
    | _ => none
  | _ => none

end Spec
end EvmMinter
