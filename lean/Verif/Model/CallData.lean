import Verif.Model.Types
/-!
# ERC-20 transfer call data (minter/src/state/transactions/mod.rs:1182-1227) and ABI words
-/

namespace EvmMinter

/-- `From<&Address> for [u8; 32]` (eth_types/mod.rs:74-82): left padding with 12 zero bytes. -/
def Address.toWord (a : Address) : Bytes := List.replicate 12 0 ++ toBE 20 a

/-- `TryFrom<&[u8; 32]> for Address` (eth_types/mod.rs:56-71) on a 32-byte word. -/
def Address.ofWord (w : Bytes) : Option Address :=
  if (w.take 12).all (· == 0) then some (beNat (w.drop 12)) else none

/-- `ERC_20_TRANSFER_FUNCTION_SELECTOR` (transactions/mod.rs:1183). -/
def transferSelector : Bytes := [0xa9, 0x05, 0x9c, 0xbb]

/-- `TransactionCallData::Erc20Transfer` (transactions/mod.rs:1186-1188). -/
structure Erc20Transfer where
  to : Address
  value : Erc20Value
deriving DecidableEq, Repr

/-- `TransactionCallData::encode` (transactions/mod.rs:1193-1203). -/
def Erc20Transfer.encode (c : Erc20Transfer) : Bytes :=
  transferSelector ++ Address.toWord c.to ++ toBE 32 c.value

/-- `TransactionCallData::decode` (transactions/mod.rs:1205-1226): the outer `Res` is a panic (the
`unwrap` on the address), the inner one the returned error. -/
def Erc20Transfer.decode (data : Bytes) : Res (Except String Erc20Transfer) :=
  if data.length < 4 then .ok (.error "missing function selector")
  else if data.take 4 = transferSelector then
    if data.length ≠ 68 then .ok (.error "Invalid data length")
    else do
      let to ← expect (Address.ofWord ((data.drop 4).take 32))
        "called `Result::unwrap()` on an `Err` value"
      return .ok ⟨to, beNat (data.drop 36)⟩
  else .ok (.error "Unknown function selector")

end EvmMinter
