import Verif.Model.Address

/-!
# Registration of the native ledger suite

`minter/src/lsm_client.rs`: right after the installation the minter tells the ledger suite manager about the canisters of the
native twin token. The contents of the wasm files that are compiled in, and SHA-256, are parameters.
-/

namespace EvmMinter

/-- The compressed wasm files of `wasm/` named in lsm_client.rs:22-24. -/
inductive WasmFile where
  /-- `ledger_canister_u256.wasm.gz` -/
  | ledgerCanister
  /-- `index_ng_canister_u256.wasm.gz` -/
  | indexNgCanister
deriving DecidableEq, Repr

/-- `LEDGER_BYTECODE` (lsm_client.rs:22-23). -/
def ledgerBytecode : WasmFile := .indexNgCanister
/-- `INDEX_BYTECODE` (lsm_client.rs:24). -/
def indexBytecode : WasmFile := .ledgerCanister

/-- What is compiled in: the files, and the hash function used on them. -/
structure Wasm where
  file : WasmFile → Bytes
  sha256 : Bytes → Hash

/-- `WasmHash::new(..).to_string()` (lsm_client.rs:37-41, 52-56): hexadecimal without `0x`. -/
def wasmHash (w : Wasm) (f : WasmFile) : List Char := hexEncode (toBE 32 (w.sha256 (w.file f)))

/-- `InstalledNativeLedgerSuite` (lsm_client.rs:89-98). -/
structure InstalledNativeLedgerSuite where
  symbol : String
  ledger : Principal
  ledgerWasmHash : List Char
  index : Principal
  indexWasmHash : List Char
  archives : List Principal
  chainId : Nat
deriving DecidableEq

/-- `LSMClient::new_native_ls` (lsm_client.rs:113-129). -/
def newNativeLs (w : Wasm) (symbol : String) (ledgerId indexId : Principal) (chainId : Nat) : InstalledNativeLedgerSuite where
  symbol := symbol
  ledger := ledgerId
  ledgerWasmHash := wasmHash w ledgerBytecode
  index := indexId
  indexWasmHash := wasmHash w indexBytecode
  archives := []
  chainId := chainId

/-- `lazy_add_native_ls_to_lsm_canister` and `call_lsm_to_add_twin_native` (lsm_client.rs:131-150, 190-208) up to the call: the
canister called and the argument of `add_native_ls`. The answer is only logged. -/
def lazyAddNativeLs (w : Wasm) (s : State) : Res (Principal × InstalledNativeLedgerSuite) :=
  match s.ledgerSuiteManagerId with
  | none => .error "called `Option::unwrap()` on a `None` value"
  | some lsm => .ok (lsm, newNativeLs w s.nativeSymbol s.nativeLedgerId s.nativeIndexId s.evmNetwork.chainId)

end EvmMinter
