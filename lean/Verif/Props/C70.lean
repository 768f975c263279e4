import Verif.Model.Lsm
import Verif.Props.C67

/-!
# C70: the native ledger suite as registered with the ledger suite manager

The manager tops up the canisters that it is told about, and compares their wasm hashes. The minter tells it the right
canisters, symbol and chain, but takes the hash of either wasm for that of the other.
-/

namespace EvmMinter
open Spec

namespace Spec

/-- The suite as configured at the installation; the hashes are those of the wasm of the ledger and of the index. -/
structure Suite (w : Wasm) (a : InitArg) (x : InstalledNativeLedgerSuite) : Prop where
  symbol : x.symbol = a.nativeSymbol
  ledger : x.ledger = a.nativeLedgerId
  index : x.index = a.nativeIndexId
  chain : x.chainId = a.evmNetwork.chainId
  archives : x.archives = []
  ledgerHash : x.ledgerWasmHash = hexEncode (toBE 32 (w.sha256 (w.file .ledgerCanister)))
  indexHash : x.indexWasmHash = hexEncode (toBE 32 (w.sha256 (w.file .indexNgCanister)))

end Spec

/-- **C70**, as far as it holds: the registration never panics, goes to the configured manager, and names the canisters, symbol
and chain given at the installation.

Not proved, since false (`C70_hashes_swapped`): that the hashes are right, the last two parts of `Spec.Suite`. -/
theorem C70_registration_partial [Keccak] (w : Wasm) {c : World} (h : Reachable c) :
    ∃ a t x, c.mem.m.log = .init a :: t ∧ lazyAddNativeLs w c.mem.m.st = .ok (a.ledgerSuiteManagerId, x) ∧
      x.symbol = a.nativeSymbol ∧ x.ledger = a.nativeLedgerId ∧ x.index = a.nativeIndexId ∧
      x.chainId = a.evmNetwork.chainId ∧ x.archives = [] := by
  suffices ∃ a t, c.mem.m.log = .init a :: t ∧ c.mem.m.st.ledgerSuiteManagerId = some a.ledgerSuiteManagerId ∧
      c.mem.m.st.nativeSymbol = a.nativeSymbol ∧ c.mem.m.st.nativeLedgerId = a.nativeLedgerId ∧
      c.mem.m.st.nativeIndexId = a.nativeIndexId ∧ c.mem.m.st.evmNetwork = a.evmNetwork by
    obtain ⟨a, t, h1, h2, h3, h4, h5, h6⟩ := this
    refine ⟨a, t, newNativeLs w a.nativeSymbol a.nativeLedgerId a.nativeIndexId a.evmNetwork.chainId, h1, ?_, rfl, rfl, rfl,
      rfl, rfl⟩
    unfold lazyAddNativeLs
    rw [h2, h3, h4, h5, h6]
  induction h with
  | init id a s blocks h1 h2 =>
    refine ⟨a, [], rfl, ?_⟩
    change s.ledgerSuiteManagerId = _ ∧ s.nativeSymbol = _ ∧ s.nativeLedgerId = _ ∧ s.nativeIndexId = _ ∧ s.evmNetwork = _
    simp only [State.ofInit, bind_ok', pure_ok', orErr_ok, u256OfNat_some] at h1
    obtain ⟨n, ⟨rfl, hn⟩, w, ⟨rfl, hw⟩, f, ⟨rfl, hf⟩, hp, hhp, l, ⟨rfl, hl⟩, p, ⟨rfl, hpp⟩, fs, hfs, d, ⟨rfl, hd⟩,
      wf, ⟨rfl, hwf⟩, _, hv, rfl⟩ := h1
    exact ⟨rfl, rfl, rfl, rfl, rfl⟩
  | step w w' h0 hs ih =>
    obtain ⟨a, t, h1, h2, h3, h4, h5, h6⟩ := ih
    have g := Step.grows h0 hs
    obtain ⟨l, hl⟩ := g.log
    exact ⟨a, t ++ l, by rw [hl, h1]; rfl, (congrArg FixedConfig.ledgerSuiteManagerId g.fixed).trans h2,
      (congrArg FixedConfig.nativeSymbol g.fixed).trans h3, (congrArg FixedConfig.nativeLedgerId g.fixed).trans h4,
      (congrArg FixedConfig.nativeIndexId g.fixed).trans h5, (congrArg FixedConfig.evmNetwork g.fixed).trans h6⟩

theorem hexEncode_word_inj {a b : Nat} (h : hexEncode (toBE 32 a) = hexEncode (toBE 32 b)) : a % 2 ^ 256 = b % 2 ^ 256 := by
  have h1 := hexValue_hexEncode (toBE 32 a) 0
  have h2 := hexValue_hexEncode (toBE 32 b) 0
  rw [h, h2] at h1
  simp only [Nat.zero_mul, Nat.zero_add, beNat_toBE, Option.some.injEq] at h1
  exact h1.symm

/-- **C70**, the defect: the hash given for the ledger is that of the index canister's wasm and vice versa. If those differ, as
different files do unless SHA-256 collides, the registration is wrong in any state. -/
theorem C70_hashes_swapped (w : Wasm) (s : State) (a : InitArg) {lsm : Principal} {x : InstalledNativeLedgerSuite}
    (hr : lazyAddNativeLs w s = .ok (lsm, x)) :
    x.ledgerWasmHash = hexEncode (toBE 32 (w.sha256 (w.file .indexNgCanister))) ∧
    x.indexWasmHash = hexEncode (toBE 32 (w.sha256 (w.file .ledgerCanister))) ∧
    (w.sha256 (w.file .ledgerCanister) % 2 ^ 256 ≠ w.sha256 (w.file .indexNgCanister) % 2 ^ 256 → ¬ Suite w a x) := by
  unfold lazyAddNativeLs at hr
  split at hr
  · cases hr
  · rw [Except.ok.injEq, Prod.mk.injEq] at hr
    obtain ⟨-, rfl⟩ := hr
    refine ⟨rfl, rfl, fun hne hs => hne ?_⟩
    exact (hexEncode_word_inj hs.ledgerHash).symm

namespace Example

/-- Two wasm files of one byte each, and a hash function that tells them apart. -/
def wasm : Wasm := ⟨fun f => match f with | .ledgerCanister => [1] | .indexNgCanister => [2], fun b => beNat b⟩

/-- **C70**, example: the registration of the example's minter, with the two hashes swapped. -/
theorem C70_example : (match State.ofInit initArg with
    | .ok s => (lazyAddNativeLs wasm s).toOption.map (fun x => ([x.1, x.2.ledger, x.2.index], x.2.chainId,
        [x.2.ledgerWasmHash.getLast?, x.2.indexWasmHash.getLast?]))
    | .error _ => none) =
    some ([initArg.ledgerSuiteManagerId, initArg.nativeLedgerId, initArg.nativeIndexId], 11155111, [some '2', some '1']) := by
  decide +kernel

end Example
end EvmMinter
