import Verif.Base.Checked
import Verif.Base.Bytes
/-!
# `CheckedAmountOf` on machine words (checked_amount/mod.rs, numeric/mod.rs)

The rest of the model computes with natural numbers (Base/Checked.lean). Here the same operations are written on 256-bit words,
where arithmetic wraps around, as the program has them. `ethnum::u256` is modelled by `BitVec 256`: its `checked_*` functions
report the carry of the wrapping operation, its bytes are those of the number.
-/

namespace EvmMinter

/-- `ethnum::u256`. -/
abbrev Word256 := BitVec 256

namespace Word256

/-- `u256::checked_add`: the sum wrapped around if it is less than a summand. -/
def checkedAdd (a b : Word256) : Option Word256 := if a + b < a then none else some (a + b)

/-- `u256::checked_sub`. -/
def checkedSub (a b : Word256) : Option Word256 := if a < b then none else some (a - b)

/-- `u256::checked_mul`: the product of 512 bits has an upper half of zero. -/
def checkedMul (a b : Word256) : Option Word256 :=
  let p : BitVec 512 := a.setWidth 512 * b.setWidth 512
  if p.extractLsb' 256 256 = 0#256 then some (p.setWidth 256) else none

/-- `checked_increment` (checked_amount/mod.rs:104-106). -/
def checkedIncrement (a : Word256) : Option Word256 := checkedAdd a 1#256

/-- `checked_decrement` (checked_amount/mod.rs:108-110). -/
def checkedDecrement (a : Word256) : Option Word256 := checkedSub a 1#256

/-- `checked_div_ceil` (checked_amount/mod.rs:124-135). -/
def checkedDivCeil (a b : Word256) : Option Word256 :=
  if b = 0#256 then none
  else
    let quotient := a / b
    let remainder := a % b
    if remainder = 0#256 then some quotient else checkedIncrement quotient

/-- `checked_div_floor` (checked_amount/mod.rs:137-144). -/
def checkedDivFloor (a b : Word256) : Option Word256 := if b = 0#256 then none else some (a / b)

/-- `div_by_two` (checked_amount/mod.rs:146-148). -/
def divByTwo (a : Word256) : Word256 := a >>> 1

/-- `from_words` (checked_amount/mod.rs:84-86). -/
def fromWords (hi lo : BitVec 128) : Word256 := hi ++ lo

/-- `to_be_bytes` (checked_amount/mod.rs:96-98): byte `i` has the bits from `248 - 8 * i`. -/
def toBytes (a : Word256) : Bytes := (List.range 32).map fun i => UInt8.ofBitVec (a.extractLsb' (248 - 8 * i) 8)

/-- `from_be_bytes` (checked_amount/mod.rs:92-94): shifts the bytes in, one after the other. -/
def fromBytes (l : Bytes) : Word256 := l.foldl (fun a b => (a <<< 8) ||| b.toBitVec.setWidth 256) 0#256

/-- `BigUint::to_bytes_be`: the shortest form, one byte for zero. -/
def bigBytes (n : Nat) : Bytes := if n < 256 then [UInt8.ofNat n] else bigBytes (n / 256) ++ [UInt8.ofNat n]

/-- `TryFrom<candid::Nat>` (checked_amount/mod.rs:183-196). -/
def tryFromNat (n : Nat) : Option Word256 :=
  let value := bigBytes n
  if value.length ≤ 32 then some (fromBytes (List.replicate (32 - value.length) 0 ++ value)) else none

/-- `From<CheckedAmountOf> for candid::Nat` (checked_amount/mod.rs:210-215). -/
def intoNat (a : Word256) : Nat := beNat (toBytes a)

/-- The bytes that `rlp_append` writes (checked_amount/mod.rs:305-310): those without the leading zero bytes, counted by
`leading_zeros / 8`. -/
def rlpBytes (a : Word256) : Bytes := (toBytes a).drop (a.clz.toNat / 8)

/-- `wei_from_milli_ether` (numeric/mod.rs:25-30). -/
def weiFromMilliEther (value : BitVec 128) : Option Word256 := checkedMul (value.setWidth 256) 1000000000000000000#256

/-- `WeiPerGas::transaction_cost` (numeric/mod.rs:63-66). -/
def transactionCost (price gas : Word256) : Option Word256 := checkedMul price gas

/-- `Wei::into_wei_per_gas` (numeric/mod.rs:70-73). -/
def intoWeiPerGas (amount gas : Word256) : Option Word256 := checkedDivFloor amount gas

end Word256
end EvmMinter
