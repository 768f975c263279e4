import Verif.Model.Cbor
import Verif.Model.Providers
/-!
# The API keys in stable memory (storage.rs:69-81)

The stable map (`ic_stable_structures::StableBTreeMap`) is a list of entries with the bytes of the key; it compares keys after decoding
them, so every search decodes. Its values are strings, which the library stores.
-/

namespace EvmMinter

namespace Cbor

/-- `derive(Encode)` for `Provider` (rpc_client/providers.rs:8-16), as `Storable::to_bytes` uses it (storage.rs:39-43). -/
def provider : RpcProvider → Bytes
  | .ankr => variant 0 []
  | .llamaNodes => variant 1 []
  | .publicNode => variant 2 []

/-- `derive(Decode)` for `Provider` (rpc_client/providers.rs:8-16). -/
def readProvider : Dec RpcProvider := readVariant >>= fun i =>
  match i with
  | 0 => readStruct (pure .ankr)
  | 1 => readStruct (pure .llamaNodes)
  | 2 => readStruct (pure .publicNode)
  | _ => fail .other

/-- `Storable::from_bytes` for `Provider` (storage.rs:45-48). -/
def decodeProvider (l : Bytes) : Res RpcProvider :=
  match readProvider l with
  | .ok r => .ok r.1
  | .error _ => .error "failed to decode event bytes"

end Cbor

/-- The entries of `RPC_API_KEYS` (storage.rs:69-72). -/
abbrev KeyStore := List (Bytes × List Char)

/-- `get_rpc_api_key` (storage.rs:79-81). -/
def KeyStore.get : KeyStore → RpcProvider → Res (Option (List Char))
  | [], _ => .ok none
  | (b, key) :: t, p => do
    let q ← Cbor.decodeProvider b
    if q = p then return some key else KeyStore.get t p

/-- `set_rpc_api_key` (storage.rs:76-78): replaces the value of a key that is there. The order of the entries does not matter. -/
def KeyStore.set : KeyStore → RpcProvider → List Char → Res KeyStore
  | [], p, key => .ok [(Cbor.provider p, key)]
  | (b, old) :: t, p, key => do
    let q ← Cbor.decodeProvider b
    if q = p then return (b, key) :: t
    else
      let t ← KeyStore.set t p key
      return (b, old) :: t

end EvmMinter
