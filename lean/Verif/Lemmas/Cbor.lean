import Verif.Model.Cbor
/-!
# Decoders read back what encoders wrote
-/

namespace EvmMinter
namespace Cbor

/-- `d` reads `a` from `b`, and leaves what follows `b`. -/
def Reads (d : Dec α) (b : Bytes) (a : α) : Prop := ∀ rest, d (b ++ rest) = .ok (a, rest)

@[simp] theorem pure_run (a : α) (l : Bytes) : (pure a : Dec α) l = .ok (a, l) := rfl

theorem bind_run (d : Dec α) (f : α → Dec β) (l : Bytes) :
    (d >>= f) l = match d l with | .ok (a, t) => f a t | .error e => .error e := rfl

theorem bind_run_ok {d : Dec α} {f : α → Dec β} {l t : Bytes} {a : α} (h : d l = .ok (a, t)) : (d >>= f) l = f a t := by
  rw [bind_run, h]

theorem bind_run_error {d : Dec α} {f : α → Dec β} {l : Bytes} {e : Err} (h : d l = .error e) : (d >>= f) l = .error e := by
  rw [bind_run, h]

theorem Reads.pure (a : α) : Reads (pure a) [] a := fun _ => rfl

theorem Reads.bind {d : Dec α} {f : α → Dec β} {b b' : Bytes} {a : α} {c : β} (h : Reads d b a) (h' : Reads (f a) b' c) :
    Reads (d >>= f) (b ++ b') c := by
  intro rest
  rw [List.append_assoc, bind_run_ok (h _), h']

theorem Reads.bind' {d : Dec α} {f : α → Dec β} {b : Bytes} {a : α} {c : β} (h : Reads d b a) (h' : Reads (f a) [] c) :
    Reads (d >>= f) b c := by
  simpa using h.bind h'

theorem Reads.inj {d : Dec α} {b : Bytes} {a a' : α} (h : Reads d b a) (h' : Reads d b a') : a = a' := by
  have := h []
  rw [h' []] at this
  cases this; rfl

/-- No encoding is a proper prefix of another. -/
theorem Reads.prefix {d : Dec α} {b b' r r' : Bytes} {a a' : α} (h : Reads d b a) (h' : Reads d b' a') (e : b ++ r = b' ++ r') :
    a = a' ∧ r = r' := by
  have := h r
  rw [e, h' r'] at this
  cases this; exact ⟨rfl, rfl⟩

/-! ## Heads -/

theorem readByte_cons (b : UInt8) (t : Bytes) : readByte (b :: t) = .ok (b, t) := rfl

theorem readSlice_append (l rest : Bytes) : readSlice l.length (l ++ rest) = .ok (l, rest) := by
  simp [readSlice]

theorem Reads.slice (l : Bytes) {n : Nat} (h : l.length = n) : Reads (readSlice n) l l := by
  subst h
  exact readSlice_append l

theorem Reads.be {w n : Nat} (h : n < 256 ^ w) : Reads (readBE w) (toBE w n) n := by
  have := (Reads.slice (toBE w n) (length_toBE w n)).bind' (f := fun b => Pure.pure (beNat b)) (Reads.pure _)
  rw [beNat_toBE_of_lt h] at this
  exact this

theorem initial {m k : Nat} (hm : m < 8) (hk : k < 32) :
    (UInt8.ofNat (m * 32 + k)).toNat / 32 = m ∧ (UInt8.ofNat (m * 32 + k)).toNat % 32 = k := by
  have : (UInt8.ofNat (m * 32 + k)).toNat = m * 32 + k := by simp; omega
  rw [this]
  omega

/-- The initial byte has the given bits. -/
theorem Reads.initial {m k : Nat} (hm : m < 8) (hk : k < 32) {b : Bytes} {n : Nat} (h : Reads (argument k) b n) :
    Reads (readHead m) (UInt8.ofNat (m * 32 + k) :: b) n := by
  have : Reads readByte [UInt8.ofNat (m * 32 + k)] (UInt8.ofNat (m * 32 + k)) := fun _ => rfl
  refine Reads.bind (b' := b) this ?_
  obtain ⟨h1, h2⟩ := Cbor.initial hm hk
  rw [h1, h2]
  simpa using h

theorem Reads.head {m n : Nat} (hm : m < 8) (hn : n < 2 ^ 64) : Reads (readHead m) (head m n) n := by
  unfold Cbor.head
  split
  · rename_i h
    refine .initial hm (by omega) ?_
    simp only [argument, h, if_true]
    exact .pure n
  split
  · exact .initial hm (by omega) (.be (by omega))
  split
  · exact .initial hm (by omega) (.be (by omega))
  split
  · exact .initial hm (by omega) (.be (by omega))
  · exact .initial hm (by omega) (.be (by omega))

/-- The first byte is not the one of `null`. -/
def NotNull (b : Bytes) : Prop := ∃ x t, b = x :: t ∧ x ≠ 0xf6

theorem NotNull.append {b : Bytes} (h : NotNull b) (b' : Bytes) : NotNull (b ++ b') := by
  obtain ⟨x, t, rfl, hx⟩ := h
  exact ⟨x, t ++ b', rfl, hx⟩

theorem initial_ne_null {m k : Nat} (hm : m < 7) (hk : k < 32) : UInt8.ofNat (m * 32 + k) ≠ 0xf6 := by
  intro h
  have := congrArg UInt8.toNat h
  simp at this
  omega

theorem notNull_head {m : Nat} (hm : m < 7) (n : Nat) : NotNull (head m n) := by
  unfold head
  split
  · exact ⟨_, _, rfl, initial_ne_null hm (by omega)⟩
  split
  · exact ⟨_, _, rfl, initial_ne_null hm (by omega)⟩
  split
  · exact ⟨_, _, rfl, initial_ne_null hm (by omega)⟩
  split
  · exact ⟨_, _, rfl, initial_ne_null hm (by omega)⟩
  · exact ⟨_, _, rfl, initial_ne_null hm (by omega)⟩

theorem length_head (m n : Nat) : (head m n).length =
    if n < 24 then 1 else if n < 2 ^ 8 then 2 else if n < 2 ^ 16 then 3 else if n < 2 ^ 32 then 5 else 9 := by
  unfold head
  repeat' split
  all_goals simp

theorem length_head_le (m n : Nat) : (head m n).length ≤ 9 := by
  rw [length_head]
  repeat' split
  all_goals omega

/-! ## Library types -/

theorem Reads.u64 {n : Nat} (h : n < 2 ^ 64) : Reads readU64 (u64 n) n := .head (by omega) h

theorem Reads.u32 {n : Nat} (h : n < 2 ^ 32) : Reads readU32 (Cbor.u64 n) n := by
  refine Reads.bind' (.head (by omega) (by omega)) ?_
  rw [if_pos h]
  exact .pure n

theorem Reads.bytes {l : Bytes} (h : l.length < 2 ^ 64) : Reads readBytes (bytes l) l :=
  .bind (.head (by omega) h) (.slice l rfl)

theorem fromUTF8_utf8 (s : String) : String.fromUTF8? ⟨(utf8 s).toArray⟩ = some s := by
  unfold utf8 String.fromUTF8?
  have : (⟨s.toUTF8.data.toList.toArray⟩ : ByteArray) = s.toUTF8 := by simp
  rw [this]
  have hv : s.toUTF8.IsValidUTF8 := s.isValidUTF8
  rw [dif_pos hv]
  rfl

theorem utf8_inj {s t : String} (h : utf8 s = utf8 t) : s = t := by
  have := fromUTF8_utf8 s
  rw [h, fromUTF8_utf8] at this
  exact (Option.some.inj this).symm

theorem Reads.text {s : String} (h : (utf8 s).length < 2 ^ 64) : Reads readText (text s) s := by
  refine .bind (.head (by omega) h) (.bind' (.slice _ rfl) ?_)
  rw [fromUTF8_utf8]
  exact .pure s

theorem Reads.bool (b : Bool) : Reads readBool (bool b) b := by
  intro rest
  cases b <;> rfl

theorem Reads.array {n : Nat} (h : n < 2 ^ 64) : Reads readArray (array n) n := .head (by omega) h

theorem Reads.tag {n : Nat} (h : n < 2 ^ 64) : Reads readTag (tag n) n := .head (by omega) h

theorem Reads.none (d : Dec α) : Reads (readOption d) null none := fun _ => rfl

theorem Reads.some {d : Dec α} {b : Bytes} {a : α} (h : Reads d b a) (hb : NotNull b) : Reads (readOption d) b (some a) := by
  obtain ⟨x, t, rfl, hx⟩ := hb
  intro rest
  simp only [readOption, List.cons_append, if_neg hx]
  exact (h.bind' (f := fun a => Pure.pure (Option.some a)) (.pure _)) rest

theorem Reads.option {d : Dec α} {e : α → Bytes} {o : Option α} (h : ∀ a, o = Option.some a → Reads d (e a) a ∧ NotNull (e a)) :
    Reads (readOption d) (option e o) o := by
  cases o with
  | none => exact .none d
  | some a => exact .some (h a rfl).1 (h a rfl).2

theorem Reads.many {d : Dec α} {e : α → Bytes} {l : List α} (h : ∀ a ∈ l, Reads d (e a) a) :
    Reads (readMany d l.length) (l.flatMap e) l := by
  induction l with
  | nil => exact .pure []
  | cons a l ih =>
    rw [List.flatMap_cons]
    refine .bind (h a (by simp)) (.bind' (ih fun a ha => h a (by simp [ha])) (.pure _))

theorem Reads.vec {d : Dec α} {e : α → Bytes} {l : List α} (hl : l.length < 2 ^ 64) (h : ∀ a ∈ l, Reads d (e a) a) :
    Reads (readVec d) (vec e l) l :=
  .bind (.array hl) (.many h)

theorem Reads.fixed {w n : Nat} (hw : w < 2 ^ 64) (h : n < 256 ^ w) : Reads (readFixed w) (fixed w n) n := by
  refine .bind' (.bytes (by simpa using hw)) ?_
  rw [length_toBE, if_pos rfl, beNat_toBE_of_lt h]
  exact .pure n

/-! ## Structs -/

/-- `d` reads `a` from the fields `fs`, of which `m` are present and the others nil, and leaves the fields after them. -/
def FReads (d : FieldDec α) (fs : List Field) (a : α) : Prop :=
  ∀ m rest, (∀ x ∈ fs.drop m, x.1 = true) → d m ((fs.take m).flatMap (·.2) ++ rest) = .ok ((a, m - fs.length), rest)

theorem FReads.pure (a : α) : FReads (pure a) [] a := by
  intro m rest _
  show Except.ok _ = _
  simp

theorem FReads.bind {d : FieldDec α} {f : α → FieldDec β} {fs gs : List Field} {a : α} {c : β} (h : FReads d fs a)
    (h' : FReads (f a) gs c) : FReads (d >>= f) (fs ++ gs) c := by
  intro m rest hm
  rw [List.drop_append] at hm
  have h1 := h m ((gs.take (m - fs.length)).flatMap (·.2) ++ rest) (fun x hx => hm x (by simp [hx]))
  have h2 := h' (m - fs.length) rest (fun x hx => hm x (by simp [hx]))
  rw [List.take_append, List.flatMap_append, List.append_assoc]
  show (d m >>= fun r => f r.1 r.2) _ = _
  rw [bind_run_ok h1]
  simp only
  rw [h2, List.length_append, Nat.sub_sub]

theorem FReads.cons {d : FieldDec α} {f : α → FieldDec β} {x : Field} {gs : List Field} {a : α} {c : β} (h : FReads d [x] a)
    (h' : FReads (f a) gs c) : FReads (d >>= f) (x :: gs) c := h.bind h'

theorem FReads.req {d : Dec α} {b : Bytes} {a : α} (h : Reads d b a) : FReads (readReq d) [req b] a := by
  intro m rest hm
  cases m with
  | zero => simp [Cbor.req] at hm
  | succ m =>
    have := (h.bind' (f := fun a => Pure.pure (a, m)) (.pure _)) rest
    simpa [readReq, Cbor.req] using this

theorem FReads.optField {d : Dec α} {b : Bytes} {nil : Bool} {o : Option α} (h : Reads (readOption d) b o)
    (hn : nil = true → o = Option.none) : FReads (readOpt d) [(nil, b)] o := by
  intro m rest hm
  cases m with
  | zero =>
    have : nil = true := by simpa using hm
    rw [hn this]
    rfl
  | succ m =>
    have := (h.bind' (f := fun a => Pure.pure (a, m)) (.pure _)) rest
    simpa [readOpt] using this

theorem FReads.opt {d : Dec α} {e : α → Bytes} {o : Option α} (h : ∀ a, o = Option.some a → Reads d (e a) a ∧ NotNull (e a)) :
    FReads (readOpt d) [opt e o] o :=
  .optField (.option h) (by simp)

theorem FReads.optWith {nil : Bool} {d : Dec α} {e : α → Bytes} {o : Option α}
    (h : ∀ a, o = Option.some a → Reads d (e a) a ∧ NotNull (e a)) : FReads (readOpt d) [optWith nil e o] o :=
  .optField (.option h) (by simp)

/-- The fields left out are nil. -/
theorem struct_nil (fs : List Field) : ∀ x ∈ fs.drop (fs.reverse.dropWhile (·.1)).length, x.1 = true := by
  have key : ∀ l : List Field, ∀ x ∈ (l.takeWhile (·.1)), x.1 = true := fun l x hx => by
    induction l with
    | nil => simp at hx
    | cons a l ih =>
      rw [List.takeWhile_cons] at hx
      split at hx
      · rcases List.mem_cons.1 hx with rfl | hx
        · assumption
        · exact ih hx
      · simp at hx
  intro x hx
  have h : fs = (fs.reverse.dropWhile (·.1)).reverse ++ (fs.reverse.takeWhile (·.1)).reverse := by
    rw [← List.reverse_append, List.takeWhile_append_dropWhile, List.reverse_reverse]
  have h2 : fs.drop (fs.reverse.dropWhile (·.1)).length = (fs.reverse.takeWhile (·.1)).reverse := by
    conv => lhs; arg 2; rw [h]
    rw [List.drop_append]
    simp
  rw [h2] at hx
  exact key _ x (by simpa using hx)

theorem length_dropWhile_le (p : α → Bool) (l : List α) : (l.dropWhile p).length ≤ l.length := by
  induction l with
  | nil => simp
  | cons a l ih =>
    rw [List.dropWhile_cons]
    split
    · simp; omega
    · simp

theorem Reads.struct {d : FieldDec α} {fs : List Field} {a : α} (h : FReads d fs a) (hl : fs.length < 2 ^ 64) :
    Reads (readStruct d) (struct fs) a := by
  have hn : (fs.reverse.dropWhile (·.1)).length ≤ fs.length := by
    simpa using length_dropWhile_le (·.1) fs.reverse
  unfold Cbor.struct readStruct
  refine Reads.bind (Reads.array (by omega)) ?_
  intro rest
  rw [bind_run_ok (h _ rest (struct_nil fs))]
  have : (fs.reverse.dropWhile (·.1)).length - fs.length = 0 := by omega
  simp only [this, if_true]
  rfl

theorem Reads.variant {d : FieldDec α} {f : Nat → Dec β} {i : Nat} {fs : List Field} {c : α} {g : α → β} (hi : i < 2 ^ 32)
    (h : FReads d fs c) (hl : fs.length < 2 ^ 64) (hf : f i = (do return g (← readStruct d))) :
    Reads (readVariant >>= f) (variant i fs) (g c) := by
  unfold Cbor.variant
  refine Reads.bind (a := i) ?_ ?_
  · refine Reads.bind (Reads.array (by omega)) ?_
    rw [if_pos rfl]
    exact .u32 hi
  · rw [hf]
    exact (Reads.struct h hl).bind' (.pure _)

theorem notNull_struct (fs : List Field) : NotNull (struct fs) := (notNull_head (by omega) _).append _

theorem notNull_variant (i : Nat) (fs : List Field) : NotNull (variant i fs) :=
  ((notNull_head (by omega) _).append _).append _

/-! ## minter/src/cbor -/

theorem readU64_tag (rest : Bytes) : readU64 (tag 2 ++ rest) = .error .typeMismatch := by
  simp [readU64, readHead, tag, head, bind_run, readByte]
  rfl

theorem length_minBE_le' (w n : Nat) : (minBE w n).length ≤ w := by
  simpa using length_minBE_le w n

theorem Reads.u256 {n : Nat} (h : n < 2 ^ 256) : Reads readU256 (u256 n) n := by
  intro rest
  unfold Cbor.u256
  have small : n < 2 ^ 64 → readU256 (Cbor.u64 n ++ rest) = .ok (n, rest) := by
    intro h
    simp only [readU256, Reads.u64 h rest]
  split
  · exact small (by omega)
  split
  · exact small (by assumption)
  · have hw := length_minBE_le 32 n
    have r : Reads (do
        let t ← readTag
        if t ≠ 2 then fail .other
        else
          let b ← readBytes
          if 32 < b.length then fail .other
          else Pure.pure (beNat (List.replicate (32 - b.length) 0 ++ b)) : Dec Nat) (Cbor.tag 2 ++ Cbor.bytes (minBE 32 n)) n := by
      refine .bind (.tag (by omega)) ?_
      simp only [ne_eq, not_true_eq_false, if_false]
      refine .bind' (.bytes (by omega)) ?_
      rw [if_neg (by omega)]
      have hz : ∀ k, beNat (List.replicate k 0) = 0 := fun k => by
        induction k with
        | zero => rfl
        | succ k ih => simp [List.replicate_succ, beNat, ih]
      rw [beNat_append, hz, beNat_minBE (by omega)]
      simpa using Reads.pure n
    have := r rest
    rw [List.append_assoc] at this ⊢
    simp only [readU256, readU64_tag]
    exact this

theorem notNull_u256 (n : Nat) : NotNull (u256 n) := by
  unfold u256
  split
  · exact notNull_head (by omega) _
  split
  · exact notNull_head (by omega) _
  · exact (notNull_head (by omega) _).append _

theorem lt_natBE_width {n : Nat} : n < 256 ^ (n.log2 / 8 + 1) := by
  have h1 : n < 2 ^ (n.log2 + 1) := Nat.lt_log2_self
  have h2 : (256 : Nat) ^ (n.log2 / 8 + 1) = 2 ^ (8 * (n.log2 / 8 + 1)) := by rw [Nat.pow_mul]
  rw [h2]
  exact Nat.lt_of_lt_of_le h1 (Nat.pow_le_pow_right (by omega) (by omega))

theorem beNat_natBE (n : Nat) : beNat (natBE n) = n := by
  unfold natBE
  split
  · subst n; rfl
  · exact beNat_minBE lt_natBE_width

theorem Reads.nat {n : Nat} (h : (natBE n).length < 2 ^ 64) : Reads readNat (nat n) n := by
  intro rest
  unfold Cbor.nat
  have small : n < 2 ^ 64 → readNat (Cbor.u64 n ++ rest) = .ok (n, rest) := by
    intro h
    simp only [readNat, Reads.u64 h rest]
  split
  · exact small (by omega)
  split
  · exact small (by assumption)
  · have r : Reads (do
        let t ← readTag
        if t ≠ 2 then fail .other
        else return beNat (← readBytes) : Dec Nat) (Cbor.tag 2 ++ Cbor.bytes (natBE n)) n := by
      refine .bind (.tag (by omega)) ?_
      simp only [ne_eq, not_true_eq_false, if_false]
      refine .bind' (.bytes h) ?_
      rw [beNat_natBE]
      exact .pure n
    have := r rest
    rw [List.append_assoc] at this ⊢
    simp only [readNat, readU64_tag]
    exact this

theorem notNull_nat (n : Nat) : NotNull (nat n) := by
  unfold nat
  split
  · exact notNull_head (by omega) _
  split
  · exact notNull_head (by omega) _
  · exact (notNull_head (by omega) _).append _

theorem Reads.principal {p : Principal} (h : p.bytes.length ≤ 29) : Reads readPrincipal (principal p) p := by
  refine .bind' (.bytes (by omega)) ?_
  rw [if_pos h]
  exact .pure p

theorem notNull_bytes (l : Bytes) : NotNull (bytes l) := (notNull_head (by omega) _).append _
theorem notNull_text (s : String) : NotNull (text s) := (notNull_head (by omega) _).append _
theorem notNull_fixed (w n : Nat) : NotNull (fixed w n) := notNull_bytes _
theorem notNull_principal (p : Principal) : NotNull (principal p) := notNull_bytes _

theorem Reads.id {n : Nat} (h : n < 2 ^ 64) : Reads readId (id n) n := .u64 h

end Cbor
end EvmMinter
