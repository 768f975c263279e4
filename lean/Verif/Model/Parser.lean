import Verif.Model.Types
/-!
# Deposit logs and their decoding (minter/src/deposit_logs/parser.rs, mod.rs, minter/src/rpc_declrations.rs)

Decoding returns `Res (Except LogError Deposit)`: `.error` is a panic, `.ok (.error e)` a rejected log.
-/

namespace EvmMinter

/-- `FixedSizeData` (rpc_declrations.rs): 32 bytes. -/
abbrev Word32 := { b : Bytes // b.length = 32 }

/-- `LogEntry` (rpc_declrations.rs:279-310). `transactionIndex` and the hashes are numbers. -/
structure LogEntry where
  address : Address
  topics : List Word32
  data : Bytes
  blockNumber : Option BlockNumber
  transactionHash : Option Hash
  transactionIndex : Option Nat
  blockHash : Option Hash
  logIndex : Option LogIndex
  removed : Bool
deriving DecidableEq

/-- `EventSourceError` (deposit_logs/mod.rs:215-220). -/
inductive SourceError where
  | invalidPrincipal (word : Word32)
  | invalidEvent (message : String)
deriving DecidableEq

/-- `ReceivedDepsitEventError` (deposit_logs/mod.rs:206-212). -/
inductive LogError where
  | pending
  | invalid (source : EventSource) (error : SourceError)
deriving DecidableEq

/-- Lower-case hexadecimal digit. -/
def hexChar (n : Nat) : Char := Char.ofNat (if n < 10 then 48 + n else 87 + n)

/-- `hex::encode`. -/
def hexString (b : Bytes) : String :=
  String.ofList (b.flatMap fun x => [hexChar (x.toNat / 16), hexChar (x.toNat % 16)])

/-- `EventSourceError::to_string` (deposit_logs/mod.rs:215-220; `Display for FixedSizeData`, rpc_declrations.rs). -/
def SourceError.message : SourceError → String
  | .invalidPrincipal w => "failed to decode principal from bytes 0x" ++ hexString w.1
  | .invalidEvent m => "invalid ReceivedDepositEvent: " ++ m

/-- `RECEIVED_DEPOSITED_TOKEN_EVENT_TOPIC` (deposit_logs/mod.rs:22-23). -/
def depositTopic : Word32 :=
  ⟨toBE 32 0xdeaddf8708b62ae1bf8ec4693b523254aa961b2da6bc5be57f3188ee784d6275, length_toBE _ _⟩

/-- `LedgerSubaccount::from_bytes` (deposit_logs/mod.rs:249-256). -/
def subaccountOfBytes (b : Bytes) : Option Subaccount :=
  if b = List.replicate 32 0 then none else some (beNat b)

/-- `parse_principal_from_slice` (deposit_logs/mod.rs:276-308). Slicing and `split_at` are checked. -/
def parsePrincipal (slice : Bytes) : Res (Except String Principal) :=
  match slice with
  | [] => .ok (.error "slice too short")
  | first :: rest =>
    if slice.length > 32 then .ok (.error "Expected at most 32 bytes")
    else
      let n := first.toNat
      if n = 0 then .ok (.error "management canister principal is not allowed")
      else if n > 29 then .ok (.error "invalid number of bytes: expected a number in the range [1,29]")
      else if slice.length < 1 + n then .ok (.error "slice too short")
      else do
        ensure (decide (n ≤ rest.length)) "split_at: mid > len"
        let principal := rest.take n
        let trailing := rest.drop n
        if !(trailing.all (· == 0)) then return .error "trailing non-zero bytes"
        else if principal = [4] then return .error "anonymous principal is not allowed"
        -- Principal::try_from_slice (crate ic_principal): at most 29 bytes
        else if principal.length > 29 then return .error "Bytes is longer than 29 bytes."
        else return .ok ⟨principal⟩

/-- `TryFrom<&[u8; 32]> for Address` (eth_types/mod.rs:55-69). -/
def addressOfWord (w : Word32) : Except String Address :=
  if !((w.1.take 12).all (· == 0)) then
    .error ("address has leading non-zero bytes: " ++ toString ((w.1.take 12).map UInt8.toNat))
  else .ok (beNat (w.1.drop 12))

/-- `From<&Address> for [u8; 32]` (eth_types/mod.rs:72-80). -/
def wordOfAddress (a : Address) : Word32 :=
  ⟨List.replicate 12 0 ++ toBE 20 a, by simp⟩

/-- `ensure_not_pending` (parser.rs:107-132). -/
def ensureNotPending (e : LogEntry) : Except LogError (BlockNumber × EventSource) :=
  match e.blockHash with
  | none => .error .pending
  | some _ =>
    match e.blockNumber with
    | none => .error .pending
    | some b =>
      match e.transactionHash with
      | none => .error .pending
      | some h =>
        match e.transactionIndex with
        | none => .error .pending
        | some _ =>
          match e.logIndex with
          | none => .error .pending
          | some i => .ok (b, ⟨h, i⟩)

/-- `parse_data_into_32_byte_words::<2>` (parser.rs:190-212); a `Vec` of two words converts to an array of two. -/
def parseTwoWords (data : Bytes) : Except String (Word32 × Word32) :=
  if h : data.length = 64 then
    .ok (⟨data.take 32, by simp [h]⟩, ⟨data.drop 32, by simp [h]⟩)
  else .error ("Expected 64 bytes, got " ++ toString data.length)

/-- `parse_log` (parser.rs:37-104). -/
def parseLog (e : LogEntry) : Res (Except LogError Deposit) :=
  match ensureNotPending e with
  | .error x => .ok (.error x)
  | .ok (blockNumber, source) =>
    if e.removed then
      .ok (.error (.invalid source (.invalidEvent "this event has been removed from the chain")))
    else if !(e.topics.length == 4 && e.topics.head? == some depositTopic) then
      .ok (.error (.invalid source (.invalidEvent "Invalid topics")))
    else
      match parseTwoWords e.data with
      | .error m => .ok (.error (.invalid source (.invalidEvent m)))
      | .ok (fromWord, subWord) =>
        match addressOfWord fromWord with
        | .error m => .ok (.error (.invalid source (.invalidEvent ("Invalid address in log entry: " ++ m))))
        | .ok fromAddress => do
          let subaccount := subaccountOfBytes subWord.1
          let topic1 ← expect e.topics[1]? "index out of bounds"
          match addressOfWord topic1 with
          | .error m => return .error (.invalid source (.invalidEvent ("Invalid address in log entry: " ++ m)))
          | .ok token => do
            let topic3 ← expect e.topics[3]? "index out of bounds"
            match ← parsePrincipal topic3.1 with
            | .error _ => return .error (.invalid source (.invalidPrincipal topic3))
            | .ok principal => do
              let value ← expect e.topics[2]? "index out of bounds"
              -- `is_native_token` (eth_types/mod.rs:34-36)
              if token = 0 then
                return .ok (.native ⟨source.transactionHash, blockNumber, source.logIndex, fromAddress, beNat value.1,
                  principal, subaccount⟩)
              else
                return .ok (.erc20 ⟨source.transactionHash, blockNumber, source.logIndex, fromAddress, beNat value.1,
                  principal, token, subaccount⟩)

/-- `parse_all_logs` (parser.rs:19-31). -/
def parseAllLogs : List LogEntry → Res (List Deposit × List LogError)
  | [] => .ok ([], [])
  | e :: t => do
    let r ← parseLog e
    let (ok, err) ← parseAllLogs t
    match r with
    | .ok d => return (d :: ok, err)
    | .error x => return (ok, x :: err)

end EvmMinter
