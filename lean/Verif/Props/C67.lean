import Verif.Spec.Sign
import Verif.Lemmas.Evm
import Verif.Props.C44
import Verif.Props.C34
import Verif.Props.C55
import Verif.Base.Secp256k1
/-!
# C67: every transaction is signed with the minter's key, whose address is the one it shows
-/

namespace EvmMinter
open Spec

theorem signWithEcdsa_ok {env : Management} {name : List Char} {path : List Bytes} {hash : Hash} {x : Except Reason Bytes}
    (h : signWithEcdsa env name path hash = .ok x) : ∀ sig, x = .ok sig → sig.length = 64 := by
  unfold signWithEcdsa at h
  simp only [] at h
  split at h
  · cases h; rintro _ ⟨⟩
  · split at h
    · cases h; rintro _ ⟨⟩
    · split at h
      · cases h
        rintro _ ⟨⟩
        assumption
      · cases h

/-- **C67.** What a failed request for a signature is reported as: being out of cycles if and only if the balance does not pay for the
signature (then nothing is asked), and otherwise what the management canister said. Only a transient rejection is reported as one that
may be retried. -/
theorem C67_reason (env : Management) (name : List Char) (path : List Bytes) (hash : Hash) :
    (signWithEcdsa env name path hash = .ok (.error .outOfCycles) ↔ env.balance < 27000000000) ∧
    ∀ code msg, 27000000000 ≤ env.balance → env.signature ⟨hash, path, name, 27000000000⟩ = .error (code, msg) →
      ∃ r, signWithEcdsa env name path hash = .ok (.error r) ∧ (code = .sysTransient ↔ r = .transientInternalError msg) ∧
        (code = .canisterError ↔ r = .canisterError msg) ∧ (code = .canisterReject ↔ r = .rejected msg) ∧
        (code ∈ [.noError, .sysFatal, .destinationInvalid, .unknown] ↔ r = .internalError code msg) := by
  constructor
  · unfold signWithEcdsa
    constructor
    · intro h
      simp only [] at h
      split at h
      · assumption
      · split at h
        · rename_i code msg _
          simp only [Except.ok.injEq, Except.error.injEq] at h
          cases code <;> cases h
        · split at h <;> cases h
    · intro h
      simp [h]
  · intro code msg hb hs
    refine ⟨.fromReject code msg, ?_, ?_⟩
    · unfold signWithEcdsa
      simp only [hs]
      rw [if_neg (by omega)]
    · cases code <;> simp [Reason.fromReject]

section
variable [Secp256k1]

theorem toPublicKey_ok {r k : Bytes} : toPublicKey r = .ok k ↔ Secp256k1.decode r = some k := by
  unfold toPublicKey
  split
  · rename_i h; rw [h]; simp
  · rename_i h; rw [h]; simp

/-- The key comes from the cache, or is the one of the minter with the empty path. -/
theorem lazyCallEcdsaPublicKey_ok {env : Management} {name : List Char} {cache cache' : Option Bytes} {k : Bytes}
    (h : lazyCallEcdsaPublicKey env name cache = .ok (k, cache')) : ∃ r, cache' = some r ∧ Secp256k1.decode r = some k ∧
      (cache = some r ∨ cache = none ∧ env.publicKey ⟨none, [], name⟩ = .ok r) := by
  unfold lazyCallEcdsaPublicKey at h
  split at h
  · rename_i r
    simp only [Res.bind_ok, Res.pure_ok, toPublicKey_ok] at h
    obtain ⟨k', h1, h2⟩ := h
    cases h2
    exact ⟨r, rfl, h1, .inl rfl⟩
  · split at h
    · cases h
    · rename_i r hr
      simp only [Res.bind_ok, Res.pure_ok, toPublicKey_ok] at h
      obtain ⟨k', h1, h2⟩ := h
      cases h2
      exact ⟨r, rfl, h1, .inr ⟨rfl, hr⟩⟩

theorem tryRecovery_ok {key sig : Bytes} {digest : Hash} {id : RecoveryId} (h : tryRecovery key digest sig = some id) :
    Secp256k1.recover digest sig id = some key := by
  unfold tryRecovery at h
  simpa using List.find?_some h

variable [Keccak]

/-- **C67.** Whatever the management canister answers: if signing succeeds then the transaction is the one that was to be signed, and
its sender is the address of the public key — the one of the cache, or else the one that the management canister names for the
key of the minter with the empty derivation path. Signing that fails gives no signature. -/
theorem C67_sender {env : Management} {name : List Char} {cache cache' : Option Bytes} {tx : Tx} {x : SignedTx}
    (h : tx.sign env name cache = .ok (.ok x, cache')) : x.tx = tx ∧ ∃ r key, cache' = some r ∧ Secp256k1.decode r = some key ∧
      x.sender = some (Keccak.hash key % 2 ^ 160) ∧ (cache = some r ∨ cache = none ∧ env.publicKey ⟨none, [], name⟩ = .ok r) := by
  simp only [Tx.sign, Res.bind_ok] at h
  obtain ⟨y, hy, h⟩ := h
  split at h
  · cases h
  · rename_i sig
    have hlen := signWithEcdsa_ok hy sig rfl
    simp only [Res.bind_ok] at h
    obtain ⟨⟨id, c1⟩, h1, h⟩ := h
    simp only [computeRecoveryId, Res.bind_ok] at h1
    obtain ⟨⟨k, c2⟩, h2, h1⟩ := h1
    obtain ⟨r, hc, hd, hr⟩ := lazyCallEcdsaPublicKey_ok h2
    dsimp only at h1
    split at h1
    · rename_i id' hid
      cases h1
      dsimp only at h
      split at h
      · cases h
      · rename_i hx
        cases h
        refine ⟨rfl, r, k, hc, hd, ?_, hr⟩
        have hrec := tryRecovery_ok hid
        unfold SignedTx.sender
        have e1 : toBE 32 (beNat (sig.take 32)) = sig.take 32 := by
          have := toBE_beNat (sig.take 32)
          rwa [List.length_take, hlen] at this
        have e2 : toBE 32 (beNat (sig.drop 32)) = sig.drop 32 := by
          have := toBE_beNat (sig.drop 32)
          rwa [List.length_drop, hlen] at this
        dsimp only
        rw [e1, e2, List.take_append_drop]
        have e3 : (⟨id.yOdd, false⟩ : RecoveryId) = id := by
          cases id with
          | mk a b => cases b
                      · rfl
                      · exact absurd rfl hx
        rw [e3]
        have : Keccak.hash (2 :: Rlp.encode (.list tx.rlpInner)) = tx.hash := rfl
        rw [this, hrec]
        rfl
    · cases h1

/-- **C67.** Of the management canister only two things are asked: the signature of the transaction's hash, with the configured
key, the empty derivation path and 27 billion cycles; and, unless it is cached, the public key of the same name and path of the
minter itself. -/
theorem C67_asks {env env' : Management} {name : List Char} {cache : Option Bytes} {tx : Tx} (hb : env.balance = env'.balance)
    (hs : env.signature ⟨Keccak.hash (2 :: Rlp.encode (.list tx.rlpInner)), [], name, 27000000000⟩ =
      env'.signature ⟨Keccak.hash (2 :: Rlp.encode (.list tx.rlpInner)), [], name, 27000000000⟩)
    (hk : cache = none → env.publicKey ⟨none, [], name⟩ = env'.publicKey ⟨none, [], name⟩) :
    tx.sign env name cache = tx.sign env' name cache := by
  have h1 : signWithEcdsa env name [] tx.hash = signWithEcdsa env' name [] tx.hash := by
    have hs : env.signature ⟨tx.hash, [], name, 27000000000⟩ = env'.signature ⟨tx.hash, [], name, 27000000000⟩ := hs
    unfold signWithEcdsa
    simp only [hb, hs]
  have h2 : lazyCallEcdsaPublicKey env name cache = lazyCallEcdsaPublicKey env' name cache := by
    unfold lazyCallEcdsaPublicKey
    cases cache with
    | none => simp only [mainDerivationPath, hk rfl]
    | some r => rfl
  unfold Tx.sign computeRecoveryId
  simp only [h1, h2]

/-- **C67.** Signing succeeds if the minter has 27 billion cycles, and the management canister answers with a signature of the hash
whose recovery does not need a reduction, and with a public key to match (or it is cached). -/
theorem C67_signs {env : Management} {name : List Char} {cache : Option Bytes} {tx : Tx} {sig r key : Bytes} {y : Bool}
    (hb : 27000000000 ≤ env.balance)
    (hs : env.signature ⟨Keccak.hash (2 :: Rlp.encode (.list tx.rlpInner)), [], name, 27000000000⟩ = .ok sig) (hl : sig.length = 64)
    (hk : cache = some r ∨ cache = none ∧ env.publicKey ⟨none, [], name⟩ = .ok r) (hd : Secp256k1.decode r = some key)
    (hr : Secp256k1.recover (Keccak.hash (2 :: Rlp.encode (.list tx.rlpInner))) sig ⟨y, false⟩ = some key) :
    ∃ x, tx.sign env name cache = .ok (.ok x, some r) ∧ x.tx = tx ∧ toBE 32 x.signature.r ++ toBE 32 x.signature.s = sig := by
  have hs : env.signature ⟨tx.hash, [], name, 27000000000⟩ = .ok sig := hs
  have hr : Secp256k1.recover tx.hash sig ⟨y, false⟩ = some key := hr
  have h1 : signWithEcdsa env name [] tx.hash = .ok (.ok sig) := by
    unfold signWithEcdsa
    simp only [hs, if_neg (Nat.not_lt.2 hb), hl, if_true]
  have h2 : lazyCallEcdsaPublicKey env name cache = .ok (key, some r) := by
    unfold lazyCallEcdsaPublicKey
    rcases hk with rfl | ⟨rfl, hk⟩
    · simp [toPublicKey, hd]; rfl
    · simp [mainDerivationPath, hk, toPublicKey, hd]; rfl
  have h3 : ∃ z, tryRecovery key tx.hash sig = some ⟨z, false⟩ := by
    unfold tryRecovery RecoveryId.all
    cases h0 : (Secp256k1.recover tx.hash sig ⟨false, false⟩ == some key) with
    | true => exact ⟨false, by simp only [List.find?_cons, h0]⟩
    | false =>
      cases y with
      | false => rw [hr] at h0; simp at h0
      | true => exact ⟨true, by simp only [List.find?_cons, h0, hr, beq_self_eq_true]⟩
  obtain ⟨z, h3⟩ := h3
  refine ⟨⟨tx, z, beNat (sig.take 32), beNat (sig.drop 32)⟩, ?_, rfl, ?_⟩
  · simp [Tx.sign, h1, computeRecoveryId, h2, h3, bind, Except.bind, pure, Except.pure]
  · have e1 : toBE 32 (beNat (sig.take 32)) = sig.take 32 := by
      have := toBE_beNat (sig.take 32)
      rwa [List.length_take, hl] at this
    have e2 : toBE 32 (beNat (sig.drop 32)) = sig.drop 32 := by
      have := toBE_beNat (sig.drop 32)
      rwa [List.length_drop, hl] at this
    dsimp only
    rw [e1, e2, List.take_append_drop]

theorem signBatch_ok {pk : List Char → Bytes} {name : List Char} : ∀ {l : List (Management × Tx)} {cache cache' : Option Bytes}
    {xs : List (Except String SignedTx)}, (∀ e ∈ l, Management.Faithful pk e.1) → (cache = none ∨ cache = some (pk name)) →
    signBatch name cache l = .ok (xs, cache') → (cache' = none ∨ cache' = some (pk name)) ∧
    ∀ e ∈ (l.map Prod.snd).zip xs, ∀ x, e.2 = .ok x → x.tx = e.1 ∧ ∃ key, Secp256k1.decode (pk name) = some key ∧
      x.sender = some (Keccak.hash key % 2 ^ 160) := by
  intro l
  induction l with
  | nil => intro cache cache' xs _ hc h; cases h; exact ⟨hc, fun e he => by cases he⟩
  | cons e t ih =>
    intro cache cache' xs hf hc h
    obtain ⟨env, tx⟩ := e
    simp only [signBatch, Res.bind_ok, Res.pure_ok] at h
    obtain ⟨⟨x, c1⟩, h1, ⟨ys, c2⟩, h2, h3⟩ := h
    cases h3
    dsimp only at h2
    have hE : ∀ r, env.publicKey ⟨none, [], name⟩ = .ok r → r = pk name := fun r hr => hf (env, tx) (List.mem_cons_self ..) name r hr
    have hc1 : c1 = none ∨ c1 = some (pk name) := by
      simp only [Tx.sign, Res.bind_ok] at h1
      obtain ⟨y, hy, h1⟩ := h1
      split at h1
      · cases h1; exact hc
      · simp only [Res.bind_ok] at h1
        obtain ⟨⟨id, d1⟩, g1, h1⟩ := h1
        simp only [computeRecoveryId, Res.bind_ok] at g1
        obtain ⟨⟨k, d2⟩, g2, g1⟩ := g1
        obtain ⟨r, k1, k2, k3⟩ := lazyCallEcdsaPublicKey_ok g2
        have hr : r = pk name := by
          rcases k3 with k3 | ⟨-, k3⟩
          · rcases hc with hc | hc
            · rw [hc] at k3; cases k3
            · rw [hc] at k3; cases k3; rfl
          · exact hE r k3
        dsimp only at g1
        split at g1
        · cases g1
          dsimp only at h1
          split at h1 <;> (cases h1; exact .inr (by rw [k1, hr]))
        · cases g1
    obtain ⟨i1, i2⟩ := ih (fun e he => hf e (by simp [he])) hc1 h2
    refine ⟨i1, ?_⟩
    intro e he z hz
    simp only [List.map_cons, List.zip_cons_cons, List.mem_cons] at he
    rcases he with rfl | he
    · dsimp only at hz
      subst hz
      obtain ⟨k1, r, key, k2, k3, k4, k5⟩ := C67_sender h1
      refine ⟨k1, key, ?_, k4⟩
      have hr : r = pk name := by
        rcases k5 with k5 | ⟨-, k5⟩
        · rcases hc with hc | hc
          · rw [hc] at k5; cases k5
          · rw [hc] at k5; cases k5; rfl
        · exact hE r k5
      rw [← hr]; exact k3
    · exact i2 e he z hz

/-- What is recorded after the signatures. -/
theorem onSignatures_adds {c c' : Mem} {count : Option TransactionCount} {batch : List (LedgerBurnIndex × Tx)} {l : List (Option Signature)}
    {n : Next} (h : c.onSignatures count batch l = .ok (c', n)) :
    Adds (fun e => ∃ i tx sig, e = .signedTransaction i ⟨tx, sig⟩ ∧ ((i, tx), some sig) ∈ batch.zip l) c.m c'.m := by
  simp only [Mem.onSignatures, Res.bind_ok] at h
  obtain ⟨m, hm, h⟩ := h
  have hc : c'.m = m := Mem.retrieveSend_m h
  rw [hc]
  refine Adds.processEvents (fun e he => ?_) hm
  obtain ⟨x, hx, he⟩ := List.mem_filterMap.1 he
  obtain ⟨y, hy, rfl⟩ := List.mem_map.1 hx
  obtain ⟨⟨i, tx⟩, o⟩ := y
  cases o with
  | none => cases he
  | some sig => cases he; exact ⟨i, tx, sig, rfl, hy⟩

theorem Spec.Keyed.reachable {pk : List Char → Bytes} {w : World} {cache : Option Bytes} (h : Keyed pk w cache) : Reachable w := by
  induction h with
  | init id a s blocks h1 h2 => exact .init id a s blocks h1 h2
  | step w w' cache cache' _ hs _ _ ih => exact .step w w' ih hs
  | key _ _ _ _ _ _ _ _ ih => exact ih
  | sign w cache cache' pre post id count batch envs o l now c n _ ht _ _ _ hr ih =>
    exact .step _ _ ih (.answer w pre post id _ o (.signatures _) now c n ht trivial hr)

/-- **C67.** In every execution, whatever signatures the management canister gives: all transactions that the minter has ever
signed have the same sender, the address of the public key of the key that was named at initialization; and `minter_address` shows
this address whenever it answers. -/
theorem C67_one_address {pk : List Char → Bytes} {w : World} {cache : Option Bytes} (h : Keyed pk w cache) :
    ∃ a t, w.mem.m.log = .init a :: t ∧ w.mem.m.st.ecdsaKeyName = a.ecdsaKeyName ∧
      (∀ i x, .signedTransaction i x ∈ w.mem.m.log → ∃ key, Secp256k1.decode (pk a.ecdsaKeyName) = some key ∧
        x.sender = some (Keccak.hash key % 2 ^ 160)) ∧
      ∀ env addr cache', Management.Faithful pk env → minterAddress env w.mem.m.st.ecdsaKeyName cache = .ok (addr, cache') →
        ∃ key, Secp256k1.decode (pk a.ecdsaKeyName) = some key ∧ addr = Keccak.hash key % 2 ^ 160 := by
  suffices ∃ a t, w.mem.m.log = .init a :: t ∧ w.mem.m.st.ecdsaKeyName = a.ecdsaKeyName ∧
      (∀ i x, .signedTransaction i x ∈ w.mem.m.log → ∃ key, Secp256k1.decode (pk a.ecdsaKeyName) = some key ∧
        x.sender = some (Keccak.hash key % 2 ^ 160)) ∧ (cache = none ∨ cache = some (pk a.ecdsaKeyName)) by
    obtain ⟨a, t, h1, h2, h3, h4⟩ := this
    refine ⟨a, t, h1, h2, h3, fun env addr cache' hf hm => ?_⟩
    simp only [minterAddress, Res.bind_ok, Res.pure_ok] at hm
    obtain ⟨⟨k, c⟩, hk, hm⟩ := hm
    rw [Prod.mk.injEq] at hm
    rw [← hm.1]
    obtain ⟨r, k1, k2, k3⟩ := lazyCallEcdsaPublicKey_ok hk
    refine ⟨k, ?_, C44_key k⟩
    rcases k3 with k3 | ⟨-, k3⟩
    · rcases h4 with h4 | h4
      · rw [h4] at k3; cases k3
      · rw [h4] at k3; cases k3; exact k2
    · rw [h2] at k3
      rw [← hf _ _ k3]; exact k2
  have keyName : ∀ {w w' : World}, Reachable w → Step w w' → w'.mem.m.st.ecdsaKeyName = w.mem.m.st.ecdsaKeyName ∧
      ∃ l, w'.mem.m.log = w.mem.m.log ++ l ∧ w'.since w = l := fun {w w'} hr hs => by
    have g := Step.grows hr hs
    obtain ⟨l, hl⟩ := g.log
    exact ⟨congrArg FixedConfig.ecdsaKeyName g.fixed, l, hl, by unfold World.since; rw [hl, List.drop_left]⟩
  induction h with
  | init id a s blocks h1 h2 =>
    obtain ⟨_, _, _, _, _, _, _, _, _, _, _, _, _, hk, _⟩ := ofInit_ok h1
    refine ⟨a, [], rfl, hk, ?_, .inl rfl⟩
    intro i x hx
    have : Event.signedTransaction i x ∈ [Event.init a] := hx
    simp at this
  | step w w' cache cache' h0 hs hno hc ih =>
    obtain ⟨a, t, h1, h2, h3, h4⟩ := ih
    obtain ⟨k1, l, k2, k3⟩ := keyName h0.reachable hs
    refine ⟨a, t ++ l, by rw [k2, h1]; rfl, by rw [k1, h2], fun i x hx => ?_, ?_⟩
    · rw [k2, List.mem_append] at hx
      rcases hx with hx | hx
      · exact h3 i x hx
      · rw [← k3] at hx
        exact absurd hx (hno i x)
    · rcases hc with rfl | rfl
      · exact h4
      · exact .inl rfl
  | key w cache cache' env k _ hf hk ih =>
    obtain ⟨a, t, h1, h2, h3, h4⟩ := ih
    refine ⟨a, t, h1, h2, h3, ?_⟩
    obtain ⟨r, k1, k2, k3⟩ := lazyCallEcdsaPublicKey_ok hk
    right
    rw [k1]
    rcases k3 with k3 | ⟨-, k3⟩
    · rcases h4 with h4 | h4
      · rw [h4] at k3; cases k3
      · rw [← h4, k3]
    · rw [hf _ _ k3, h2]
  | sign w cache cache' pre post id count batch envs o l now c n h0 ht hf hl hb hr ih =>
    obtain ⟨a, t, h1, h2, h3, h4⟩ := ih
    have hs : Step w (w.advance pre post id c n) := .answer w pre post id _ o (.signatures _) now c n ht trivial hr
    obtain ⟨k1, l', k2, k3⟩ := keyName h0.reachable hs
    rw [← h2] at h4
    obtain ⟨g1, g2⟩ := signBatch_ok (fun e he => hf e.1 (List.of_mem_zip he).1) h4 hb
    rw [h2] at g1
    refine ⟨a, t ++ l', by rw [k2, h1]; rfl, by rw [k1, h2], fun i x hx => ?_, g1⟩
    rw [k2, List.mem_append] at hx
    rcases hx with hx | hx
    · exact h3 i x hx
    · have hr' : w.mem.onSignatures count batch (l.map fun x => x.toOption.map SignedTx.signature) = .ok (c, n) := by
        simpa [ExtTask.resume] using hr
      obtain ⟨es, e1, e2⟩ := onSignatures_adds hr'
      have : es = l' := by
        have k2 : c.m.log = w.mem.m.log ++ l' := k2
        rw [k2] at e1
        exact (List.append_cancel_left e1).symm
      subst this
      obtain ⟨i', tx, sig, he, hz⟩ := e2 _ hx
      cases he
      rw [List.zip_map_right] at hz
      obtain ⟨⟨⟨i2, tx2⟩, y⟩, hz, hy⟩ := List.mem_map.1 hz
      simp only [Prod.map, id_eq, Prod.mk.injEq] at hy
      obtain ⟨⟨rfl, rfl⟩, hy⟩ := hy
      cases y with
      | error e => cases hy
      | ok x =>
        have hy : some x.signature = some sig := hy
        have hmem : (tx2, Except.ok x) ∈ ((envs.zip (batch.map Prod.snd)).map Prod.snd).zip l := by
          rw [List.map_snd_zip (by simp [hl]), List.zip_map_left]
          exact List.mem_map.2 ⟨_, hz, rfl⟩
        obtain ⟨j1, key, j2, j3⟩ := g2 _ hmem x rfl
        refine ⟨key, by rw [← h2]; exact j2, ?_⟩
        have j1 : x.tx = tx2 := j1
        cases hy
        rw [← j1]
        exact j3

/-- As long as nothing is signed, the signatures do not matter. -/
theorem keyed_of_unsigned {pk : List Char → Bytes} {w : World} (h : Reachable w) (hno : ∀ i x, .signedTransaction i x ∉ w.mem.m.log) :
    Keyed pk w none := by
  induction h with
  | init id a s blocks h1 h2 => exact .init id a s blocks h1 h2
  | step w w' h hs ih =>
    obtain ⟨l, hl⟩ := (Step.grows h hs).log
    refine .step w w' none none (ih fun i x hx => hno i x ?_) hs (fun i x hx => hno i x ?_) (.inl rfl)
    · rw [hl]; exact List.mem_append_left _ hx
    · exact List.mem_of_mem_drop hx

end

namespace Example

/-- The actual curve. -/
@[instance_reducible] def realCurve : Secp256k1 := ⟨Secp256k1Curve.decode, fun d s i => Secp256k1Curve.recover d s i.yOdd i.xReduced⟩

section
attribute [local instance] realKeccak realCurve
attribute [-instance] keccak

/-- The sender of the transaction of Sepolia that is an example of C34, and its public key. -/
theorem C67_example_sender : sepoliaTx.sender = some 0xdd2851Cdd40aE6536831558DD46db62fAc7A844d := by decide +kernel

def sepoliaKey : Bytes := 2 :: toBE 32 0xb6fb17608bd3389242d3746988c6e45e89387ba80862414052a7893422397d6

/-- A management canister that signs this transaction, if asked in the right way. -/
def sepoliaManagement (name : List Char) (key : Bytes) : Management where
  balance := 27000000000
  publicKey a := if a = ⟨none, [], name⟩ then .ok key else .error (.canisterReject, "no such key")
  signature a := if a = ⟨0x2d9e6453d9864cff7453ca35dcab86be744c641ba4891c2fe9aeaa2f767b9758, [], name, 27000000000⟩ then
      .ok (toBE 32 0x7d097b81dc8bf5ad313f8d6656146d4723d0e6bb3fb35f1a709e6a3d4426c0f3 ++
        toBE 32 0x4f8a618d959e7d96e19156f0f5f2ed321b34e2004a0c8fdb7f02bc7d08b74441)
    else .error (.canisterReject, "no such key")

/-- The code signs it as it was signed: the parity is found. With another public key it panics. -/
theorem C67_example_sign :
    sepoliaTx.tx.sign (sepoliaManagement "key_1".toList sepoliaKey) "key_1".toList none = .ok (.ok sepoliaTx, some sepoliaKey) ∧
    sepoliaTx.tx.sign (sepoliaManagement "key_1".toList sepoliaKey) "key_2".toList none = .ok (.error "failed to sign tx", none) ∧
    sepoliaTx.tx.sign (sepoliaManagement "key_1".toList (3 :: sepoliaKey.tail)) "key_1".toList none =
      .error "BUG: failed to recover public key" := by
  decide +kernel

end

section

/-- A curve with one key. -/
@[instance_reducible] def toyCurve : Secp256k1 :=
  ⟨fun b => if b = [2, 9, 9] then some [9, 9, 9, 9] else none,
    fun d s i => if s = toBE 32 (d + 1) ++ toBE 32 5 ∧ i = ⟨d % 2 == 1, false⟩ then some [9, 9, 9, 9] else none⟩

attribute [local instance] keccak toyCurve

def toyKey : List Char → Bytes := fun _ => [2, 9, 9]

def toyManagement (balance : Nat) : Management :=
  ⟨balance, fun _ => .ok [2, 9, 9], fun a => .ok (toBE 32 (a.messageHash + 1) ++ toBE 32 5)⟩

/-- Sign the first batch after the given actions. -/
def keyedAfter (arg : InitArg) (l : List Action) (envs : List Nat) (p : World → Option Bytes → Bool) : Bool :=
  match playInit arg l with
  | none => false
  | some w =>
    match w.tasks with
    | ⟨id, .ext (.retrieveSign count batch), _⟩ :: post =>
      match signBatch w.mem.m.st.ecdsaKeyName none ((envs.map toyManagement).zip (batch.map Prod.snd)) with
      | .error _ => false
      | .ok (xs, cache) =>
        match (ExtTask.retrieveSign count batch).resume w.mem 0 (.signatures (xs.map fun x => x.toOption.map SignedTx.signature)) with
        | some (.ok (c, n)) => envs.length == batch.length && w.mem.m.log.all (fun | .signedTransaction _ _ => false | _ => true) &&
            p (w.advance [] post id c n) cache
        | _ => false
    | _ => false

theorem keyedAfter_keyed {arg : InitArg} {l : List Action} {envs : List Nat} {p : World → Option Bytes → Bool}
    (h : keyedAfter arg l envs p = true) : ∃ w cache, Keyed toyKey w cache ∧ p w cache = true := by
  unfold keyedAfter at h
  split at h
  · cases h
  · rename_i w hw
    split at h
    · rename_i id count batch o post ht
      split at h
      · cases h
      · rename_i xs cache hb
        split at h
        · rename_i c n hr
          simp only [Bool.and_eq_true, beq_iff_eq] at h
          refine ⟨_, _, .sign w none cache [] post id count batch (envs.map toyManagement) o xs 0 c n
            (keyed_of_unsigned (playInit_reachable hw) fun i x hx => ?_) ht ?_ (by simpa using h.1.1) hb hr, h.2⟩
          · have := List.all_eq_true.1 h.1.2 _ hx
            cases this
          · intro env he
            obtain ⟨b, _, rfl⟩ := List.mem_map.1 he
            intro name r hr
            cases hr; rfl
        · cases h
    · cases h

/-- Two transactions are to be signed, but the cycles run out. The first one is recorded, sent by the minter's address; the other
one waits. -/
theorem C67_example : ∃ w cache, Keyed toyKey w cache ∧ decide (
    (w.mem.m.log.filterMap fun | .signedTransaction _ x => some x.sender | _ => none) = [some (Keccak.hash [9, 9, 9, 9] % 2 ^ 160)] ∧
    (w.mem.m.log.filterMap fun | .createdTransaction i _ => some i | _ => none).length = 2 ∧ cache = some [2, 9, 9] ∧
    minterAddress (toyManagement 0) w.mem.m.st.ecdsaKeyName cache = .ok (Keccak.hash [9, 9, 9, 9] % 2 ^ 160, cache)) = true :=
  keyedAfter_keyed (arg := initArg) (l := sending) (envs := [27000000000, 26999999999]) (by decide +kernel)

end
end Example
end EvmMinter
