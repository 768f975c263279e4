import Verif.Model.Sign
import Verif.Spec.World
import Verif.Spec.History
/-!
# Executions with signatures

`Keyed pk w cache`: the world `w` can come about, with the given cache of the public key, when the signatures are made by
`Tx.sign`. The management canister may answer anything to requests for signatures. When asked for the public key of the minter
it answers with `pk` of the key name, or not at all.
-/

namespace EvmMinter
namespace Spec

/-- The sender of a signed transaction, as the chain determines it (EIP-1559: `ecrecover` of the hash of the unsigned payload, the
parity and `r`, `s`; EIP-155 and the Yellow Paper, appendix F: the last 20 bytes of the hash of the public key). -/
def _root_.EvmMinter.SignedTx.sender [Keccak] [Secp256k1] (x : SignedTx) : Option Address :=
  (Secp256k1.recover (Keccak.hash (2 :: Rlp.encode (.list x.tx.rlpInner))) (toBE 32 x.signature.r ++ toBE 32 x.signature.s)
    ⟨x.signature.yParity, false⟩).map fun key => Keccak.hash key % 2 ^ 160

/-- The minter's own key, derived with the empty path, is `pk` of the key name. -/
def Management.Faithful (pk : List Char → Bytes) (env : Management) : Prop :=
  ∀ name r, env.publicKey ⟨none, [], name⟩ = .ok r → r = pk name

section
variable [Keccak] [Secp256k1]

/-- Executions with the cache of the public key. -/
inductive Keyed (pk : List Char → Bytes) : World → Option Bytes → Prop where
  | init (id : Principal) (a : InitArg) (s : State) (blocks : List Block) : State.ofInit a = .ok s →
      (∀ b ∈ blocks, b.by' = none ∧ b.call.op.Foreign) → Keyed pk (World.initial id a s blocks) none
  /-- A step that records no signatures; an upgrade loses the cache. -/
  | step (w w' : World) (cache cache' : Option Bytes) : Keyed pk w cache → Step w w' →
      (∀ i x, .signedTransaction i x ∉ w'.since w) → cache' = cache ∨ cache' = none → Keyed pk w' cache'
  /-- The public key is read (when timers are set up, by `minter_address`, before transaction counts are asked for). -/
  | key (w : World) (cache cache' : Option Bytes) (env : Management) (k : Bytes) : Keyed pk w cache → Management.Faithful pk env →
      lazyCallEcdsaPublicKey env w.mem.m.st.ecdsaKeyName cache = .ok (k, cache') → Keyed pk w cache'
  /-- A batch is signed. -/
  | sign (w : World) (cache cache' : Option Bytes) (pre post : List Pending) (id : Nat) (count : Option TransactionCount)
      (batch : List (LedgerBurnIndex × Tx)) (envs : List Management) (o : Option LedgerAnswer) (l : List (Except String SignedTx)) (now : Nat)
      (c : Mem) (n : Next) : Keyed pk w cache → w.tasks = pre ++ ⟨id, .ext (.retrieveSign count batch), o⟩ :: post →
      (∀ env ∈ envs, Management.Faithful pk env) → envs.length = batch.length →
      signBatch w.mem.m.st.ecdsaKeyName cache (envs.zip (batch.map Prod.snd)) = .ok (l, cache') →
      (ExtTask.retrieveSign count batch).resume w.mem now (.signatures (l.map fun x => x.toOption.map SignedTx.signature)) = some (.ok (c, n)) →
      Keyed pk (w.advance pre post id c n) cache'

end

end Spec
end EvmMinter
