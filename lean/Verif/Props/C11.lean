import Verif.Spec.Helper
import Verif.Base.Keccak256
/-!
# C11: deposit log decoding is faithful and total
-/

namespace EvmMinter
open Spec

theorem beNat_replicate_zero (n : Nat) : beNat (List.replicate n 0) = 0 := by
  induction n with
  | zero => rfl
  | succ n ih => simp [List.replicate_succ, beNat, ih]

theorem eq_replicate_of_all {l : Bytes} (h : l.all (· == 0) = true) : l = List.replicate l.length 0 := by
  rw [List.eq_replicate_iff]
  refine ⟨rfl, fun b hb => ?_⟩
  simpa using List.all_eq_true.1 h b hb

theorem all_replicate_zero (n : Nat) : (List.replicate n (0 : UInt8)).all (· == 0) = true := by
  rw [List.all_eq_true]; intro b hb; rw [(List.mem_replicate.1 hb).2]; rfl

theorem word_beNat (w : Word32) : word (beNat w.1) = w := by
  apply Subtype.ext
  have := toBE_beNat w.1
  rw [w.2] at this; exact this

theorem beNat_word {n : Nat} (h : n < 2 ^ 256) : beNat (word n).1 = n :=
  beNat_toBE_of_lt (by rw [show (256 : Nat) ^ 32 = 2 ^ 256 by decide]; exact h)

theorem beNat_word32_lt (w : Word32) : beNat w.1 < 2 ^ 256 := by
  have := beNat_lt w.1
  rw [w.2, show (256 : Nat) ^ 32 = 2 ^ 256 by decide] at this; exact this

theorem word_inj {a b : Nat} (ha : a < 2 ^ 256) (hb : b < 2 ^ 256) (h : word a = word b) : a = b := by
  rw [← beNat_word ha, ← beNat_word hb, h]

/-- Padding an address is the same as writing it as a 256-bit number. -/
theorem wordOfAddress_eq {a : Address} (h : a < 2 ^ 160) : wordOfAddress a = word a := by
  apply Subtype.ext
  refine beNat_inj (by simp [wordOfAddress, word]) ?_
  rw [beNat_word (Nat.lt_of_lt_of_le h (by decide))]
  simp only [wordOfAddress, beNat_append, beNat_replicate_zero, Nat.zero_mul, Nat.zero_add]
  exact beNat_toBE_of_lt (by rw [show (256 : Nat) ^ 20 = 2 ^ 160 by decide]; exact h)

/-- An address is read from a word exactly if the word is that of the address. -/
theorem addressOfWord_ok (w : Word32) (a : Address) :
    addressOfWord w = .ok a ↔ a < 2 ^ 160 ∧ w = word a := by
  unfold addressOfWord
  constructor
  · intro h
    split at h
    · cases h
    · rename_i hz
      have hz : (w.1.take 12).all (· == 0) = true := by simpa using hz
      simp only [Except.ok.injEq] at h
      have hl : (w.1.drop 12).length = 20 := by simp [w.2]
      have hlt := beNat_lt (w.1.drop 12)
      rw [hl, show (256 : Nat) ^ 20 = 2 ^ 160 by decide, h] at hlt
      refine ⟨hlt, ?_⟩
      rw [← wordOfAddress_eq hlt]
      apply Subtype.ext
      simp only [wordOfAddress]
      have e1 := eq_replicate_of_all hz
      rw [show (w.1.take 12).length = 12 by simp [w.2]] at e1
      have e2 := toBE_beNat (w.1.drop 12)
      rw [hl, h] at e2
      rw [e2, ← e1, List.take_append_drop]
  · rintro ⟨ha, rfl⟩
    rw [← wordOfAddress_eq ha]
    have e1 : (wordOfAddress a).1.take 12 = List.replicate 12 0 := by simp [wordOfAddress]
    have e2 : (wordOfAddress a).1.drop 12 = toBE 20 a := by simp [wordOfAddress]
    rw [e1, e2, all_replicate_zero, if_neg (by simp)]
    rw [beNat_toBE_of_lt (by rw [show (256 : Nat) ^ 20 = 2 ^ 160 by decide]; exact ha)]

theorem length_principalWord (p : Principal) (h : p.bytes.length ≤ 31) : (principalWord p).length = 32 := by
  simp [principalWord]; omega

theorem parsePrincipal_total (b : Bytes) : ∃ r, parsePrincipal b = .ok r := by
  unfold parsePrincipal
  split
  · exact ⟨_, rfl⟩
  · rename_i first rest
    split
    · exact ⟨_, rfl⟩
    · simp only
      split
      · exact ⟨_, rfl⟩
      · split
        · exact ⟨_, rfl⟩
        · split
          · exact ⟨_, rfl⟩
          · rename_i hl
            have : decide (first.toNat ≤ rest.length) = true := by
              simp only [List.length_cons] at hl; simp; omega
            simp only [ensure, this, if_true, Res.ok_bind]
            split
            · exact ⟨_, rfl⟩
            · split
              · exact ⟨_, rfl⟩
              · split <;> exact ⟨_, rfl⟩

/-- A principal is read from a word exactly if it may be credited and the word is its encoding. -/
theorem parsePrincipal_ok (w : Word32) (p : Principal) :
    parsePrincipal w.1 = .ok (.ok p) ↔ Creditable p ∧ w.1 = principalWord p := by
  obtain ⟨b, hb⟩ := w
  simp only
  constructor
  · intro h
    unfold parsePrincipal at h
    split at h
    · simp at h
    · rename_i first rest
      split at h
      · simp at h
      simp only at h
      split at h
      · simp at h
      rename_i h0
      split at h
      · simp at h
      rename_i h29
      split at h
      · simp at h
      rename_i hlen
      simp only [Res.bind_ok, Res.ensure_ok] at h
      obtain ⟨_, _, h⟩ := h
      split at h
      · simp [pure, Except.pure] at h
      rename_i hz
      split at h
      · simp [pure, Except.pure] at h
      rename_i ha
      split at h
      · simp [pure, Except.pure] at h
      simp only [Res.pure_ok, Except.ok.injEq] at h
      subst h
      have hr : rest.length = 31 := by simpa using hb
      have hl : (rest.take first.toNat).length = first.toNat := by rw [List.length_take]; omega
      refine ⟨⟨?_, ?_, ?_⟩, ?_⟩
      · rw [hl]; omega
      · rw [hl]; omega
      · intro he; apply ha
        simp only [Principal.anonymous, Principal.mk.injEq] at he; exact he
      · have hz : (rest.drop first.toNat).all (· == 0) = true := by simpa using hz
        have e := eq_replicate_of_all hz
        rw [List.length_drop, hr] at e
        simp only [principalWord, hl]
        rw [← e]
        have : UInt8.ofNat first.toNat = first := by simp
        rw [this, List.cons_append, List.take_append_drop]
  · rintro ⟨⟨h1, h2, h3⟩, hw⟩
    subst hw
    unfold parsePrincipal principalWord
    have hn : (UInt8.ofNat p.bytes.length).toNat = p.bytes.length := by
      rw [UInt8.toNat_ofNat']; exact Nat.mod_eq_of_lt (by omega)
    have hl : (UInt8.ofNat p.bytes.length :: p.bytes ++ List.replicate (31 - p.bytes.length) 0).length = 32 := by
      simp; omega
    simp only [List.cons_append] at hl ⊢
    rw [hl, hn, if_neg (by omega), if_neg (by omega), if_neg (by omega), if_neg (by omega)]
    have e1 : decide (p.bytes.length ≤ (p.bytes ++ List.replicate (31 - p.bytes.length) (0 : UInt8)).length) = true := by
      simp
    have e2 : (p.bytes ++ List.replicate (31 - p.bytes.length) (0 : UInt8)).take p.bytes.length = p.bytes := by simp
    have e3 : (p.bytes ++ List.replicate (31 - p.bytes.length) (0 : UInt8)).drop p.bytes.length
      = List.replicate (31 - p.bytes.length) 0 := by simp
    have e4 : p.bytes ≠ [4] := by
      intro h; apply h3; cases p; simp only at h; rw [h]; rfl
    simp only [ensure, e1, if_true, Res.ok_bind, e2, e3, all_replicate_zero, Bool.not_true, Bool.false_eq_true, if_false]
    rw [if_neg e4, if_neg (by omega)]
    rfl

theorem ensureNotPending_ok (e : LogEntry) (b : BlockNumber) (src : EventSource) :
    ensureNotPending e = .ok (b, src) ↔ e.blockNumber = some b ∧ e.transactionHash = some src.transactionHash ∧
      e.logIndex = some src.logIndex ∧ e.blockHash ≠ none ∧ e.transactionIndex ≠ none := by
  obtain ⟨h, i⟩ := src
  unfold ensureNotPending
  cases e.blockHash <;> cases e.blockNumber <;> cases e.transactionHash <;> cases e.transactionIndex <;>
    cases e.logIndex <;> simp

theorem subaccountOfBytes_eq (w : Word32) :
    subaccountOfBytes w.1 = if beNat w.1 = 0 then none else some (beNat w.1) := by
  unfold subaccountOfBytes
  have : w.1 = List.replicate 32 0 ↔ beNat w.1 = 0 := by
    constructor
    · intro h; rw [h, beNat_replicate_zero]
    · intro h
      exact beNat_inj (by rw [w.2]; simp) (by rw [h, beNat_replicate_zero])
  by_cases h : beNat w.1 = 0
  · rw [if_pos h, if_pos (this.2 h)]
  · rw [if_neg h, if_neg (fun h' => h (this.1 h'))]

theorem parseTwoWords_ok (d : Bytes) (a b : Word32) : parseTwoWords d = .ok (a, b) ↔ d = a.1 ++ b.1 := by
  unfold parseTwoWords
  constructor
  · intro h
    split at h
    · simp only [Except.ok.injEq, Prod.mk.injEq] at h
      obtain ⟨rfl, rfl⟩ := h
      simp
    · cases h
  · rintro rfl
    have : (a.1 ++ b.1).length = 64 := by simp [a.2, b.2]
    rw [dif_pos this]
    simp only [Except.ok.injEq, Prod.mk.injEq]
    exact ⟨Subtype.ext (by simp [List.take_append, a.2]), Subtype.ext (by simp [List.drop_append, a.2])⟩

/-- The topic of the helper event, as written in the code, is the Keccak-256 hash of the event's signature. -/
theorem C11_topic : beNat (Keccak256.hash (Keccak256.ascii "DepositLog(address,address,uint256,bytes32,bytes32)")) =
    beNat depositTopic.1 := by decide +kernel

/-- **C11.** Decoding never panics, whatever the log contains. -/
theorem C11_total (e : LogEntry) : ∃ r, parseLog e = .ok r := by
  unfold parseLog
  split
  · exact ⟨_, rfl⟩
  split
  · exact ⟨_, rfl⟩
  split
  · exact ⟨_, rfl⟩
  rename_i ht
  have ht : e.topics.length = 4 := by
    simp only [Bool.not_eq_true', Bool.not_eq_false, Bool.and_eq_true, beq_iff_eq] at ht; exact ht.1
  have g : ∀ i, i < 4 → ∃ w, e.topics[i]? = some w := fun i hi => ⟨_, List.getElem?_eq_getElem (by omega)⟩
  obtain ⟨t1, h1⟩ := g 1 (by omega)
  obtain ⟨t2, h2⟩ := g 2 (by omega)
  obtain ⟨t3, h3⟩ := g 3 (by omega)
  obtain ⟨r, hr⟩ := parsePrincipal_total t3.1
  split
  · exact ⟨_, rfl⟩
  split
  · exact ⟨_, rfl⟩
  simp only [h1, h2, h3, expect, Res.ok_bind, hr]
  split
  · exact ⟨_, rfl⟩
  · split
    · exact ⟨_, rfl⟩
    · split <;> exact ⟨_, rfl⟩

/-- **C11.** A log decodes to a deposit exactly if it is a mined, non-removed log whose content is a `DepositLog` with
the encoding of a creditable principal, and then the deposit credits exactly what was emitted. -/
theorem C11_exact (e : LogEntry) (d : Deposit) :
    parseLog e = .ok (.ok d) ↔
      ∃ x b src p, MinedLog e b src x ∧ x.Typed ∧ Creditable p ∧ x.principal.1 = principalWord p ∧
        d = x.deposit b src p := by
  constructor
  · intro h
    unfold parseLog at h
    split at h
    · simp at h
    rename_i b src hp
    split at h
    · simp at h
    rename_i hrem
    split at h
    · simp at h
    rename_i ht
    simp only [Bool.not_eq_true', Bool.not_eq_false, Bool.and_eq_true, beq_iff_eq] at ht
    split at h
    · simp at h
    rename_i fw sw hd
    split at h
    · simp at h
    rename_i fa hfa
    simp only [Res.bind_ok, Res.expect_ok] at h
    obtain ⟨t1, h1, h⟩ := h
    split at h
    · simp [pure, Except.pure] at h
    rename_i token htok
    simp only [Res.bind_ok, Res.expect_ok] at h
    obtain ⟨t3, h3, r, hr, h⟩ := h
    split at h
    · simp [pure, Except.pure] at h
    rename_i p
    simp only [Res.bind_ok, Res.expect_ok] at h
    obtain ⟨t2, h2, h⟩ := h
    obtain ⟨hl, h0⟩ := ht
    have hts : e.topics = [depositTopic, t1, t2, t3] := by
      match htop : e.topics with
      | [a, b, c, d] =>
        rw [htop] at h0 h1 h2 h3
        simp only [List.head?_cons, Option.some.injEq] at h0
        simp only [List.getElem?_cons_succ, List.getElem?_cons_zero, Option.some.injEq] at h1 h2 h3
        rw [h0, h1, h2, h3]
      | [] => rw [htop] at hl; simp at hl
      | [_] => rw [htop] at hl; simp at hl
      | [_, _] => rw [htop] at hl; simp at hl
      | [_, _, _] => rw [htop] at hl; simp at hl
      | _ :: _ :: _ :: _ :: _ :: _ => rw [htop] at hl; simp at hl
    obtain ⟨hfa1, hfa2⟩ := (addressOfWord_ok _ _).1 hfa
    obtain ⟨htok1, htok2⟩ := (addressOfWord_ok _ _).1 htok
    obtain ⟨hcred, hpw⟩ := (parsePrincipal_ok _ _).1 hr
    obtain ⟨p1, p2, p3, p4, p5⟩ := (ensureNotPending_ok _ _ _).1 hp
    have hd' := (parseTwoWords_ok _ _ _).1 hd
    refine ⟨⟨fa, token, beNat t2.1, t3, beNat sw.1⟩, b, src, p,
      ⟨p1, p2, p3, p4, p5, by simpa using hrem, ?_, ?_⟩, ⟨hfa1, htok1, beNat_word32_lt _, beNat_word32_lt _⟩, hcred, hpw, ?_⟩
    · rw [hts]
      simp only [DepositLog.topics, word_beNat, ← htok2]
      rfl
    · simp only [DepositLog.data, word_beNat, ← hfa2]; exact hd'
    · simp only [DepositLog.deposit, ← subaccountOfBytes_eq]
      split at h
      · rename_i h0
        rw [if_pos h0]
        simp only [Res.pure_ok, Except.ok.injEq] at h; exact h.symm
      · rename_i h0
        rw [if_neg h0]
        simp only [Res.pure_ok, Except.ok.injEq] at h; exact h.symm
  · rintro ⟨x, b, src, p, hm, ⟨t1, t2, t3, t4⟩, hc, hp, rfl⟩
    unfold parseLog
    rw [(ensureNotPending_ok e b src).2 ⟨hm.block, hm.txHash, hm.index, hm.blockHash, hm.txIndex⟩]
    have e0 : (e.topics.length == 4 && e.topics.head? == some depositTopic) = true := by
      rw [hm.topics]; simp [DepositLog.topics, depositTopic, word]
    have e1 : parseTwoWords e.data = .ok (word x.fromAddress, word x.subaccount) := by
      rw [parseTwoWords_ok, hm.data]; rfl
    have e2 := (addressOfWord_ok (word x.fromAddress) _).2 ⟨t1, rfl⟩
    have e3 := (addressOfWord_ok (word x.token) _).2 ⟨t2, rfl⟩
    have e4 := (parsePrincipal_ok x.principal p).2 ⟨hc, hp⟩
    simp only [hm.kept, e0, e1, e2, e4, Bool.false_eq_true, Bool.not_true, if_false]
    simp only [hm.topics, DepositLog.topics, List.getElem?_cons_succ, List.getElem?_cons_zero, expect, Res.ok_bind, e3, e4,
      DepositLog.deposit, subaccountOfBytes_eq, beNat_word t3, beNat_word t4]
    split <;> rfl

/-- **C11.** In particular every log of a deposit for a creditable principal, made through the helper contract, is
decoded to what was emitted. -/
theorem C11_faithful (e : LogEntry) (x : DepositLog) (b : BlockNumber) (src : EventSource) (p : Principal)
    (h : MinedLog e b src x) (hx : x.Emittable) (hp : x.principal.1 = principalWord p) (hc : Creditable p) :
    parseLog e = .ok (.ok (x.deposit b src p)) :=
  (C11_exact e _).2 ⟨x, b, src, p, h, hx.1, hc, hp, rfl⟩

/-- **C11.** The anonymous and the management principal are never credited; the credited amount is a 256-bit number, and
the event identifies the log. -/
theorem C11_safe (e : LogEntry) (d : Deposit) (h : parseLog e = .ok (.ok d)) :
    d.principal ≠ Principal.anonymous ∧ d.principal ≠ Principal.management ∧ d.value < 2 ^ 256 ∧
      e.transactionHash = some d.source.transactionHash ∧ e.logIndex = some d.source.logIndex ∧ e.removed = false := by
  obtain ⟨x, b, src, p, hm, ht, hc, -, rfl⟩ := (C11_exact e d).1 h
  have hp : (x.deposit b src p).principal = p := by unfold DepositLog.deposit; split <;> rfl
  have hv : (x.deposit b src p).value = x.amount := by unfold DepositLog.deposit; split <;> rfl
  have hs : (x.deposit b src p).source = src := by unfold DepositLog.deposit; split <;> rfl
  rw [hp, hv, hs]
  refine ⟨hc.2.2, ?_, ht.2.2.1, hm.txHash, hm.index, hm.kept⟩
  rintro rfl
  exact absurd hc.1 (by decide)

/-- **C11.** A rejected log is either pending or identified by its own source: what is recorded as invalid is the log
that was rejected. -/
theorem C11_rejected (e : LogEntry) (x : LogError) (h : parseLog e = .ok (.error x)) :
    (x = .pending ∧ (e.blockHash = none ∨ e.blockNumber = none ∨ e.transactionHash = none ∨ e.transactionIndex = none ∨
      e.logIndex = none)) ∨
    ∃ src m, x = .invalid src m ∧ e.transactionHash = some src.transactionHash ∧ e.logIndex = some src.logIndex := by
  unfold parseLog at h
  split at h
  · rename_i y hy
    simp only [Except.ok.injEq, Except.error.injEq] at h
    subst h
    left
    unfold ensureNotPending at hy
    split at hy
    · rename_i h1; simp only [Except.error.injEq] at hy; exact ⟨hy.symm, .inl h1⟩
    split at hy
    · rename_i h1; simp only [Except.error.injEq] at hy; exact ⟨hy.symm, .inr (.inl h1)⟩
    split at hy
    · rename_i h1; simp only [Except.error.injEq] at hy; exact ⟨hy.symm, .inr (.inr (.inl h1))⟩
    split at hy
    · rename_i h1; simp only [Except.error.injEq] at hy; exact ⟨hy.symm, .inr (.inr (.inr (.inl h1)))⟩
    split at hy
    · rename_i h1; simp only [Except.error.injEq] at hy; exact ⟨hy.symm, .inr (.inr (.inr (.inr h1)))⟩
    · cases hy
  · rename_i b src hp
    obtain ⟨-, p2, p3, -, -⟩ := (ensureNotPending_ok _ _ _).1 hp
    right
    suffices ∃ m, x = .invalid src m by
      obtain ⟨m, rfl⟩ := this
      exact ⟨src, m, rfl, p2, p3⟩
    split at h
    · simp only [Except.ok.injEq, Except.error.injEq] at h; exact ⟨_, h.symm⟩
    split at h
    · simp only [Except.ok.injEq, Except.error.injEq] at h; exact ⟨_, h.symm⟩
    split at h
    · simp only [Except.ok.injEq, Except.error.injEq] at h; exact ⟨_, h.symm⟩
    split at h
    · simp only [Except.ok.injEq, Except.error.injEq] at h; exact ⟨_, h.symm⟩
    simp only [Res.bind_ok, Res.expect_ok] at h
    obtain ⟨t1, h1, h⟩ := h
    split at h
    · simp only [Res.pure_ok, Except.error.injEq] at h; exact ⟨_, h.symm⟩
    simp only [Res.bind_ok, Res.expect_ok] at h
    obtain ⟨t3, h3, r, hr, h⟩ := h
    split at h
    · simp only [Res.pure_ok, Except.error.injEq] at h; exact ⟨_, h.symm⟩
    simp only [Res.bind_ok, Res.expect_ok] at h
    obtain ⟨t2, h2, h⟩ := h
    split at h <;> simp [pure, Except.pure] at h

/-- The encoding of a principal is injective, so no two principals share a word. -/
theorem C11_principal_injective (p q : Principal) (hp : p.bytes.length ≤ 31) (hq : q.bytes.length ≤ 31)
    (h : principalWord p = principalWord q) : p = q := by
  unfold principalWord at h
  simp only [List.cons_append, List.cons.injEq] at h
  obtain ⟨h1, h2⟩ := h
  have h1 := congrArg UInt8.toNat h1
  rw [UInt8.toNat_ofNat', UInt8.toNat_ofNat', Nat.mod_eq_of_lt (by omega), Nat.mod_eq_of_lt (by omega)] at h1
  obtain ⟨h3, -⟩ := List.append_inj h2 h1
  cases p; cases q; simp only at h3; rw [h3]

/-- `parse_all_logs`: every log is decoded, accepted and rejected ones in order. -/
theorem parseAllLogs_eq (l : List LogEntry) :
    ∃ f : LogEntry → Except LogError Deposit, (∀ e, parseLog e = .ok (f e)) ∧
      parseAllLogs l = .ok (l.filterMap fun e => (f e).toOption, l.filterMap fun e => match f e with
        | .ok _ => none
        | .error x => some x) := by
  have hf : ∀ e, parseLog e = .ok (match parseLog e with | .ok r => r | .error _ => .error .pending) := by
    intro e; obtain ⟨r, hr⟩ := C11_total e; rw [hr]
  refine ⟨fun e => match parseLog e with | .ok r => r | .error _ => .error .pending, hf, ?_⟩
  induction l with
  | nil => rfl
  | cons e t ih =>
    obtain ⟨r, hr⟩ := C11_total e
    simp only [parseAllLogs, hr, ih, Res.ok_bind, List.filterMap_cons]
    cases r <;> rfl

/-- The log of a native deposit of 5 wei by account 7 for a three-byte principal, and for the anonymous principal. -/
def exampleDepositLog (p : Bytes) (h : (principalWord ⟨p⟩).length = 32) : LogEntry :=
  { address := 1, topics := (⟨7, 0, 5, ⟨principalWord ⟨p⟩, h⟩, 9⟩ : DepositLog).topics
    data := (⟨7, 0, 5, ⟨principalWord ⟨p⟩, h⟩, 9⟩ : DepositLog).data
    blockNumber := some 100, transactionHash := some 11, transactionIndex := some 0, blockHash := some 12
    logIndex := some 3, removed := false }

example : parseLog (exampleDepositLog [1, 2, 3] (by decide)) =
    .ok (.ok (.native ⟨11, 100, 3, 7, 5, ⟨[1, 2, 3]⟩, some 9⟩)) := by decide +kernel

example : parseLog (exampleDepositLog [4] (by decide)) =
    .ok (.error (.invalid ⟨11, 3⟩ (.invalidPrincipal ⟨principalWord ⟨[4]⟩, by decide⟩))) := by decide +kernel

end EvmMinter
