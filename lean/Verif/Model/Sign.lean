import Verif.Model.Tx
import Verif.Model.Address
/-!
# Signing (management.rs, tx.rs: `sign`, state.rs: `lazy_call_ecdsa_public_key`, `minter_address`)

The management canister is given by its answers (`Management`), which may be anything. Signing waits for two answers; the cache
of the public key (`State::ecdsa_public_key`) is an argument, with its content at the time when it is read. `debug_assert!` of
`compute_recovery_id` is not part of the deployed program.
-/

namespace EvmMinter

/-- A recovery id (`k256::ecdsa::RecoveryId`): the parity of the y coordinate of the point of the signature, and whether its x
coordinate was reduced modulo the group order. -/
structure RecoveryId where
  yOdd : Bool
  xReduced : Bool
deriving DecidableEq, Repr

/-- The curve secp256k1, uninterpreted. A public key is given by the 64 bytes of its uncompressed form after the first byte.
`decode` is `PublicKey::deserialize_sec1`, `recover digest signature id` the public key that has the signature (64 bytes) of
the digest with the given recovery id. -/
class Secp256k1 where
  decode : Bytes → Option Bytes
  recover : Hash → Bytes → RecoveryId → Option Bytes

/-- The recovery ids in their order (k256: bit 0 is the parity, bit 1 the reduction). -/
def RecoveryId.all : List RecoveryId := [⟨false, false⟩, ⟨true, false⟩, ⟨false, true⟩, ⟨true, true⟩]

/-- `PublicKey::try_recovery_from_digest` (ic_crypto_secp256k1, k256 `trial_recovery_from_prehash`): the first recovery id that
leads to the key. -/
def tryRecovery [Secp256k1] (key : Bytes) (digest : Hash) (signature : Bytes) : Option RecoveryId :=
  RecoveryId.all.find? fun id => Secp256k1.recover digest signature id == some key

/-- `RejectionCode` (ic_cdk). -/
inductive RejectionCode where
  | noError | sysFatal | sysTransient | destinationInvalid | canisterReject | canisterError | unknown
deriving DecidableEq, Repr

/-- `Reason` (management.rs:41-53); the texts of internal errors without their prefix. -/
inductive Reason where
  | outOfCycles
  | canisterError (msg : String)
  | rejected (msg : String)
  | transientInternalError (msg : String)
  | internalError (code : RejectionCode) (msg : String)
deriving DecidableEq, Repr

/-- `Reason::from_reject` (management.rs:70-83). -/
def Reason.fromReject (code : RejectionCode) (msg : String) : Reason :=
  match code with
  | .sysTransient => .transientInternalError msg
  | .canisterError => .canisterError msg
  | .canisterReject => .rejected msg
  | .noError | .sysFatal | .destinationInvalid | .unknown => .internalError code msg

/-- `EcdsaPublicKeyArgument` (ic_cdk); the curve is always secp256k1. -/
structure KeyArg where
  canisterId : Option Principal
  derivationPath : List Bytes
  keyName : List Char
deriving DecidableEq

/-- `SignWithECDSAArgs` (ic_management_canister_types) and the cycles sent along; the curve is always secp256k1. -/
structure SignArg where
  messageHash : Hash
  derivationPath : List Bytes
  keyName : List Char
  cycles : Nat
deriving DecidableEq

/-- The answers of the management canister, and the minter's balance of cycles. -/
structure Management where
  balance : Nat
  publicKey : KeyArg → Except (RejectionCode × String) Bytes
  signature : SignArg → Except (RejectionCode × String) Bytes

/-- `sign_with_ecdsa` and `call` (management.rs:86-145). -/
def signWithEcdsa (env : Management) (keyName : List Char) (derivationPath : List Bytes) (messageHash : Hash) : Res (Except Reason Bytes) :=
  let cyclesPerSignature := 27000000000
  if env.balance < cyclesPerSignature then .ok (.error .outOfCycles)
  else
    match env.signature ⟨messageHash, derivationPath, keyName, cyclesPerSignature⟩ with
    | .error (code, msg) => .ok (.error (.fromReject code msg))
    | .ok sig => if sig.length = 64 then .ok (.ok sig) else .error "BUG: invalid signature from management canister"

/-- `MAIN_DERIVATION_PATH` (state.rs:44). -/
def mainDerivationPath : List Bytes := []

/-- `to_public_key` (state.rs:756-760). -/
def toPublicKey [Secp256k1] (response : Bytes) : Res Bytes :=
  match Secp256k1.decode response with
  | some key => .ok key
  | none => .error "failed to decode minter's public key"

/-- `lazy_call_ecdsa_public_key` (state.rs:751-787), with the cache afterwards. -/
def lazyCallEcdsaPublicKey [Secp256k1] (env : Management) (keyName : List Char) (cache : Option Bytes) : Res (Bytes × Option Bytes) :=
  match cache with
  | some response => do return (← toPublicKey response, cache)
  | none =>
    match env.publicKey ⟨none, mainDerivationPath, keyName⟩ with
    | .error _ => .error "failed to get minter's public key"
    | .ok response => do return (← toPublicKey response, some response)

/-- `minter_address` (state.rs:789-791), with the cache afterwards. -/
def minterAddress [Keccak] [Secp256k1] (env : Management) (keyName : List Char) (cache : Option Bytes) : Res (Address × Option Bytes) := do
  let (key, cache) ← lazyCallEcdsaPublicKey env keyName cache
  return (addressOfKey key, cache)

/-- `compute_recovery_id` (tx.rs:579-604), with the cache afterwards. -/
def computeRecoveryId [Secp256k1] (env : Management) (keyName : List Char) (cache : Option Bytes) (digest : Hash) (signature : Bytes) :
    Res (RecoveryId × Option Bytes) := do
  let (key, cache) ← lazyCallEcdsaPublicKey env keyName cache
  match tryRecovery key digest signature with
  | some id => return (id, cache)
  | none => .error "BUG: failed to recover public key"

/-- `Eip1559TransactionRequest::sign` (tx.rs:538-562), with the cache afterwards. -/
def Tx.sign [Keccak] [Secp256k1] (env : Management) (keyName : List Char) (cache : Option Bytes) (tx : Tx) :
    Res (Except String SignedTx × Option Bytes) := do
  let hash := tx.hash
  match ← signWithEcdsa env keyName [] hash with
  | .error _ => return (.error "failed to sign tx", cache)
  | .ok signature =>
    let (recid, cache) ← computeRecoveryId env keyName cache hash signature
    if recid.xReduced then return (.error "BUG: affine x-coordinate of r is reduced", cache)
    else
      let r := beNat (signature.take 32)
      let s := beNat (signature.drop 32)
      return (.ok ⟨tx, ⟨recid.yOdd, r, s⟩⟩, cache)

/-- The signatures of a batch (withdraw.rs:294-299): the transactions with the answers that their calls get. The calls run
concurrently; here one after the other. -/
def signBatch [Keccak] [Secp256k1] (keyName : List Char) : Option Bytes → List (Management × Tx) → Res (List (Except String SignedTx) × Option Bytes)
  | cache, [] => .ok ([], cache)
  | cache, (env, tx) :: rest => do
    let (x, cache) ← tx.sign env keyName cache
    let (xs, cache) ← signBatch keyName cache rest
    return (x :: xs, cache)

end EvmMinter
