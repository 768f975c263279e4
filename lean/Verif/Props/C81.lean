import Verif.Model.Logs
import Verif.Spec.Json
/-!
# C81: exported logs fit, lose nothing that fits, and can be read

The code is not reached from an endpoint of the minter at this commit; it is part of its library.
-/

namespace EvmMinter
open Logs

/-! ## Sizes -/

namespace Logs

theorem size_append (a b : List Char) : size (a ++ b) = size a + size b := by simp [size]

theorem moreJson_append (a b : List Entry) : moreJson (a ++ b) = moreJson a ++ moreJson b := by
  induction a with
  | nil => rfl
  | cons e t ih => simp [moreJson, ih, List.append_assoc]

theorem size_more_pos (e : Entry) (t : List Entry) : 0 < size (moreJson (e :: t)) := by
  show 0 < (List.map Char.utf8Size (',' :: _)).sum
  rw [List.map_cons, List.sum_cons]
  have : 0 < Char.utf8Size ',' := by decide
  omega

theorem size_json_pos (e : Entry) : 0 < size e.json := by
  unfold Entry.json
  rw [size_append]
  have : 0 < size "{\"timestamp\":".toList := by decide
  omega

/-- One entry more makes the text longer. -/
theorem size_grows (l : List Entry) (e : Entry) : size (toJson l) < size (toJson (l ++ [e])) := by
  unfold toJson
  simp only [size_append]
  have : size (entriesJson l) < size (entriesJson (l ++ [e])) := by
    cases l with
    | nil =>
      show 0 < size (e.json ++ [])
      rw [List.append_nil]; exact size_json_pos e
    | cons x t =>
      show size (x.json ++ moreJson t) < size (x.json ++ moreJson (t ++ [e]))
      rw [moreJson_append, size_append, size_append, size_append]
      have := size_more_pos e []
      omega
  omega

theorem size_lt {l : List Entry} {j k : Nat} (h : j < k) (hk : k ≤ l.length) :
    size (toJson (l.take j)) < size (toJson (l.take k)) := by
  induction k with
  | zero => omega
  | succ k ih =>
    have hs : l.take (k + 1) = l.take k ++ [l[k]'(by omega)] := by rw [List.take_append_getElem]
    rw [hs]
    rcases Nat.lt_or_ge j k with h' | h'
    · exact Nat.lt_trans (ih h' (by omega)) (size_grows _ _)
    · have : j = k := by omega
      subst this
      exact size_grows _ _

theorem size_empty : size (toJson []) = 14 := by decide

/-! ## The search -/

/-- What the search finds: `left - 1` entries fit and `right` entries do not, at any time. -/
theorem search_spec {log : List Entry} {max : Nat} {left right : Nat} {json : List Char} (hlr : left ≤ right)
    (hr : right ≤ log.length) (hbig : max < size (toJson (log.take right)))
    (hfit : ∀ k, left = k + 1 → json = toJson (log.take k) ∧ size json ≤ max) :
    (∃ k, k < log.length ∧ search log max left right json = toJson (log.take k) ∧ size (toJson (log.take k)) ≤ max ∧
      max < size (toJson (log.take (k + 1)))) ∨
    left = 0 ∧ search log max left right json = json ∧ max < size (toJson []) := by
  generalize hn : right - left = n
  induction n using Nat.strongRecOn generalizing left right json with
  | ind n ih =>
    unfold search
    by_cases h : left < right
    · rw [if_pos h]
      dsimp only
      by_cases hm : size (toJson (log.take (left + (right - left) / 2))) ≤ max
      · rw [if_pos hm]
        rcases ih (right - (left + (right - left) / 2 + 1)) (by omega) (by omega) hr hbig
          (fun k hk => by
            have : k = left + (right - left) / 2 := by omega
            subst this
            exact ⟨rfl, hm⟩) rfl with h' | ⟨h', _⟩
        · exact .inl h'
        · omega
      · rw [if_neg hm]
        exact ih (left + (right - left) / 2 - left) (by omega) (by omega) (by omega) (by omega) hfit rfl
    · rw [if_neg h]
      have e : left = right := by omega
      subst e
      cases left with
      | zero => exact .inr ⟨rfl, rfl, by simpa using hbig⟩
      | succ k =>
        obtain ⟨h1, h2⟩ := hfit k rfl
        exact .inl ⟨k, by omega, h1, by rw [← h1]; exact h2, hbig⟩

/-! ## Reading -/

theorem digit_hexChar {n : Nat} (h : n < 10) : (hexChar n).toNat = 48 + n := by
  have : ∀ n : Fin 10, (hexChar n.1).toNat = 48 + n.1 := by decide
  exact this ⟨n, h⟩

/-- The value of digits read from left to right. -/
def value (s : List Char) : Nat := s.foldl (fun v c => 10 * v + (c.toNat - 48)) 0

theorem value_digits {fuel n : Nat} (h : n < fuel) : value (digits fuel n) = n := by
  induction fuel generalizing n with
  | zero => omega
  | succ fuel ih =>
    unfold digits
    by_cases h' : n < 10
    · rw [if_pos h']
      show 10 * 0 + ((hexChar n).toNat - 48) = n
      rw [digit_hexChar h']; omega
    · rw [if_neg h']
      unfold value at ih ⊢
      rw [List.foldl_append, ih (n := n / 10) (by omega)]
      show 10 * (n / 10) + ((hexChar (n % 10)).toNat - 48) = n
      rw [digit_hexChar (by omega)]; omega

theorem value_decimal (n : Nat) : value (decimal n) = n := value_digits (Nat.lt_succ_self n)

/-- A decimal digit. -/
def IsDigit (c : Char) : Prop := 48 ≤ c.toNat ∧ c.toNat ≤ 57

theorem digits_digits (fuel n : Nat) : ∀ c ∈ digits fuel n, IsDigit c := by
  induction fuel generalizing n with
  | zero => intro c hc; cases hc
  | succ fuel ih =>
    unfold digits
    by_cases h : n < 10
    · rw [if_pos h]
      intro c hc
      rw [List.mem_singleton] at hc
      subst hc
      unfold IsDigit
      rw [digit_hexChar h]; omega
    · rw [if_neg h]
      intro c hc
      rcases List.mem_append.1 hc with hc | hc
      · exact ih (n / 10) c hc
      · rw [List.mem_singleton] at hc
        subst hc
        unfold IsDigit
        rw [digit_hexChar (by omega)]; omega

theorem decimal_digits (n : Nat) : ∀ c ∈ decimal n, IsDigit c := digits_digits _ _

/-- Two texts of digits, each followed by something else, are the same if the whole texts are. -/
theorem digits_split {a b r r' : List Char} {x y : Char} (ha : ∀ c ∈ a, IsDigit c) (hb : ∀ c ∈ b, IsDigit c)
    (hx : ¬ IsDigit x) (hy : ¬ IsDigit y) (h : a ++ x :: r = b ++ y :: r') : a = b ∧ x :: r = y :: r' := by
  induction a generalizing b with
  | nil =>
    cases b with
    | nil => exact ⟨rfl, h⟩
    | cons c t =>
      rw [List.nil_append, List.cons_append, List.cons.injEq] at h
      exact absurd (h.1 ▸ hb c (by simp)) hx
  | cons c t ih =>
    cases b with
    | nil =>
      rw [List.nil_append, List.cons_append, List.cons.injEq] at h
      exact absurd (h.1 ▸ ha c (by simp)) hy
    | cons d u =>
      rw [List.cons_append, List.cons_append, List.cons.injEq] at h
      obtain ⟨rfl, h⟩ := h
      obtain ⟨h1, h2⟩ := ih (fun c hc => ha c (by simp [hc])) (fun c hc => hb c (by simp [hc])) h
      exact ⟨by rw [h1], h2⟩

theorem decimal_split {m n : Nat} {r r' : List Char} {x y : Char} (hx : ¬ IsDigit x) (hy : ¬ IsDigit y)
    (h : decimal m ++ x :: r = decimal n ++ y :: r') : m = n ∧ x :: r = y :: r' := by
  obtain ⟨h1, h2⟩ := digits_split (decimal_digits m) (decimal_digits n) hx hy h
  exact ⟨by rw [← value_decimal m, ← value_decimal n, h1], h2⟩

/-- Value of a lower-case hexadecimal digit. -/
def hexDigit (c : Char) : Nat := if c.toNat < 58 then c.toNat - 48 else c.toNat - 87

/-- Reading one character of a JSON string. -/
def unescape : List Char → Option (Char × List Char)
  | '\\' :: 'u' :: _ :: _ :: a :: b :: r => some (Char.ofNat (16 * hexDigit a + hexDigit b), r)
  | '\\' :: 'b' :: r => some ('\x08', r)
  | '\\' :: 'f' :: r => some ('\x0c', r)
  | '\\' :: 'n' :: r => some ('\n', r)
  | '\\' :: 'r' :: r => some ('\r', r)
  | '\\' :: 't' :: r => some ('\t', r)
  | '\\' :: c :: r => some (c, r)
  | '"' :: _ => none
  | c :: r => some (c, r)
  | [] => none

theorem char_lt_32 {c : Char} (h : c.toNat < 32) : ∃ n : Fin 32, c = Char.ofNat n.1 :=
  ⟨⟨c.toNat, h⟩, by rw [Char.ofNat_toNat]⟩

theorem unescape_escape (c : Char) (r : List Char) : unescape (escape c ++ r) = some (c, r) := by
  unfold escape
  split
  · next h => subst h; rfl
  split
  · next h => subst h; rfl
  split
  · next h => subst h; rfl
  split
  · next h => subst h; rfl
  split
  · next h => subst h; rfl
  split
  · next h => subst h; rfl
  split
  · next h => subst h; rfl
  split
  · next h =>
    show some (Char.ofNat (16 * hexDigit (hexChar (c.toNat / 16)) + hexDigit (hexChar (c.toNat % 16))), r) = some (c, r)
    obtain ⟨n, rfl⟩ := char_lt_32 h
    have : ∀ n : Fin 32, Char.ofNat (16 * hexDigit (hexChar ((Char.ofNat n.1).toNat / 16)) +
        hexDigit (hexChar ((Char.ofNat n.1).toNat % 16))) = Char.ofNat n.1 := by decide
    rw [this n]
  · next h1 h2 _ _ _ _ _ _ =>
    rw [List.singleton_append]
    unfold unescape
    split
    all_goals simp_all

/-- Reading a JSON string up to its closing quote. -/
def unquote : Nat → List Char → List Char × List Char
  | 0, s => ([], s)
  | n + 1, s =>
    match unescape s with
    | none => ([], s)
    | some (c, r) => (c :: (unquote n r).1, (unquote n r).2)

theorem unquote_flatMap (s r : List Char) {n : Nat} (h : s.length ≤ n) :
    unquote n (s.flatMap escape ++ '"' :: r) = (s, '"' :: r) := by
  induction s generalizing n with
  | nil =>
    cases n with
    | zero => rfl
    | succ n => rfl
  | cons c t ih =>
    cases n with
    | zero => simp at h
    | succ n =>
      have h' : t.length ≤ n := by simpa using h
      unfold unquote
      rw [List.flatMap_cons, List.append_assoc, unescape_escape]
      simp only [ih h']

theorem quoted_split {s s' r r' : List Char} (h : quoted s ++ r = quoted s' ++ r') : s = s' ∧ r = r' := by
  unfold quoted at h
  rw [List.cons_append, List.cons_append, List.cons.injEq, List.append_assoc, List.append_assoc] at h
  have h1 := unquote_flatMap s r (n := s.length + s'.length) (by omega)
  have h2 := unquote_flatMap s' r' (n := s.length + s'.length) (by omega)
  have h3 : s.flatMap escape ++ '"' :: r = s'.flatMap escape ++ '"' :: r' := h.2
  rw [h3, h2, Prod.mk.injEq, List.cons.injEq] at h1
  exact ⟨h1.1.symm, h1.2.2.symm⟩

theorem name_inj {p q : Priority} (h : p.name = q.name) : p = q := by
  cases p <;> cases q <;> first | rfl | exact absurd h (by decide)

theorem json_split {e e' : Entry} {r r' : List Char} (h : e.json ++ r = e'.json ++ r') : e = e' ∧ r = r' := by
  unfold Entry.json at h
  simp only [List.append_assoc] at h
  have h := List.append_cancel_left h
  obtain ⟨h1, h⟩ := decimal_split (by unfold IsDigit; decide) (by unfold IsDigit; decide) h
  have h := List.append_cancel_left (as := ",\"priority\":".toList) h
  obtain ⟨h2, h⟩ := quoted_split h
  have h := List.append_cancel_left h
  obtain ⟨h3, h⟩ := quoted_split h
  have h := List.append_cancel_left h
  obtain ⟨h4, h⟩ := decimal_split (by unfold IsDigit; decide) (by unfold IsDigit; decide) h
  have h := List.append_cancel_left (as := ",\"message\":".toList) h
  obtain ⟨h5, h⟩ := quoted_split h
  have h := List.append_cancel_left h
  obtain ⟨h6, h⟩ := decimal_split (by unfold IsDigit; decide) (by unfold IsDigit; decide) h
  have h7 : r = r' := (List.cons.injEq .. ▸ h : _ ∧ _).2
  cases e; cases e'
  simp only at h1 h2 h3 h4 h5 h6
  rw [h1, name_inj h2, h3, h4, h5, h6]
  exact ⟨rfl, h7⟩

/-- The text of an entry begins with a brace. -/
theorem json_head (e : Entry) (r : List Char) : (e.json ++ r).head? = some '{' := by
  unfold Entry.json
  rw [List.append_assoc, List.head?_append]
  have : "{\"timestamp\":".toList.head? = some '{' := by decide
  rw [this]; rfl

theorem more_split {l l' : List Entry} (h : moreJson l ++ ']' :: ['}'] = moreJson l' ++ ']' :: ['}']) : l = l' := by
  induction l generalizing l' with
  | nil =>
    cases l' with
    | nil => rfl
    | cons e t => simp [moreJson] at h
  | cons e t ih =>
    cases l' with
    | nil => simp [moreJson] at h
    | cons e' t' =>
      simp only [moreJson, List.cons_append, List.append_assoc, List.cons.injEq, true_and] at h
      obtain ⟨h1, h2⟩ := json_split h
      rw [h1, ih h2]

end Logs

/-! ## JSON -/

open Spec Spec.Json

namespace Logs

theorem digit_text {n : Nat} (h : n < 10) : Digit (hexChar n) n := by
  match n, h with
  | 0, _ => exact .zero
  | 1, _ => exact .one
  | 2, _ => exact .two
  | 3, _ => exact .three
  | 4, _ => exact .four
  | 5, _ => exact .five
  | 6, _ => exact .six
  | 7, _ => exact .seven
  | 8, _ => exact .eight
  | 9, _ => exact .nine
  | n + 10, h => omega

theorem hexDigit_text {n : Nat} (h : n < 16) : HexDigit (hexChar n) n := by
  match n, h with
  | 10, _ => exact .a
  | 11, _ => exact .b
  | 12, _ => exact .c
  | 13, _ => exact .d
  | 14, _ => exact .e
  | 15, _ => exact .f
  | 0, _ | 1, _ | 2, _ | 3, _ | 4, _ | 5, _ | 6, _ | 7, _ | 8, _ | 9, _ => exact .digit (digit_text (by omega))
  | n + 16, h => omega

theorem digits_text (fuel : Nat) : ∀ n, n < fuel → Number (digits fuel n) n := by
  induction fuel with
  | zero => intro n h; omega
  | succ fuel ih =>
    intro n h
    unfold digits
    split
    · exact .digit (digit_text ‹_›)
    · have := Number.more (ih (n / 10) (by omega)) (by omega) (digit_text (n := n % 10) (by omega))
      rwa [show 10 * (n / 10) + n % 10 = n by omega] at this

theorem decimal_text (n : Nat) : Text (decimal n) (.num n) := .num (digits_text _ n (by omega))

theorem escape_text (c : Char) : Character (escape c) c := by
  unfold escape
  split
  · subst c; exact .quote
  split
  · subst c; exact .backslash
  split
  · subst c; exact .backspace
  split
  · subst c; exact .formFeed
  split
  · subst c; exact .lineFeed
  split
  · subst c; exact .carriageReturn
  split
  · subst c; exact .tab
  split
  · exact .unicode (.digit .zero) (.digit .zero) (hexDigit_text (by omega)) (hexDigit_text (by omega)) (by omega)
  · exact .plain ‹_› ‹_› (by omega)

theorem flatMap_text (s : List Char) : Characters (s.flatMap escape) s := by
  induction s with
  | nil => exact .nil
  | cons c t ih => exact .cons (escape_text c) ih

theorem quoted_text (s : List Char) : Text (quoted s) (.str s) := by
  have := Text.str (flatMap_text s)
  simpa [quoted] using this

end Logs

/-- What is exported about an entry. -/
def entryValue (e : Entry) : Json := .obj [("timestamp".toList, .num e.timestamp),
  ("priority".toList, .str (match e.priority with | .info => "Info" | .traceHttp => "TraceHttp" | .debug => "Debug").toList),
  ("file".toList, .str e.file), ("line".toList, .num e.line), ("message".toList, .str e.message), ("counter".toList, .num e.counter)]

/-- A name without special characters. -/
theorem name_text {s : List Char} (h : s.all (fun c => c ≠ '"' ∧ c ≠ '\\' ∧ 0x20 ≤ c.toNat) = true) : Characters s s := by
  induction s with
  | nil => exact .nil
  | cons c t ih =>
    simp only [List.all_cons, Bool.and_eq_true, decide_eq_true_eq] at h
    exact .cons (.plain h.1.1 h.1.2.1 h.1.2.2) (ih h.2)

theorem entry_text (e : Entry) : Text e.json (entryValue e) := by
  have hp : Text (quoted e.priority.name) (.str (match e.priority with | .info => "Info" | .traceHttp => "TraceHttp" | .debug => "Debug").toList) := by
    cases e.priority <;> exact quoted_text _
  have := Text.obj (.more (name_text (s := "timestamp".toList) (by decide)) (decimal_text e.timestamp) <|
    .more (name_text (s := "priority".toList) (by decide)) hp <|
    .more (name_text (s := "file".toList) (by decide)) (quoted_text e.file) <|
    .more (name_text (s := "line".toList) (by decide)) (decimal_text e.line) <|
    .more (name_text (s := "message".toList) (by decide)) (quoted_text e.message) <|
    .one (name_text (s := "counter".toList) (by decide)) (decimal_text e.counter))
  refine (congrArg (fun t => Text t (entryValue e)) ?_).mp this
  have e1 : "{\"timestamp\":".toList = ['{', '"'] ++ "timestamp".toList ++ ['"', ':'] := by decide
  have e2 : ",\"priority\":".toList = [',', '"'] ++ "priority".toList ++ ['"', ':'] := by decide
  have e3 : ",\"file\":".toList = [',', '"'] ++ "file".toList ++ ['"', ':'] := by decide
  have e4 : ",\"line\":".toList = [',', '"'] ++ "line".toList ++ ['"', ':'] := by decide
  have e5 : ",\"message\":".toList = [',', '"'] ++ "message".toList ++ ['"', ':'] := by decide
  have e6 : ",\"counter\":".toList = [',', '"'] ++ "counter".toList ++ ['"', ':'] := by decide
  unfold Entry.json
  rw [e1, e2, e3, e4, e5, e6]
  generalize "timestamp".toList = n1
  generalize "priority".toList = n2
  generalize "file".toList = n3
  generalize "line".toList = n4
  generalize "message".toList = n5
  generalize "counter".toList = n6
  simp only [List.append_assoc, List.cons_append, List.nil_append]

theorem more_text (e : Entry) (l : List Entry) : Elements (e.json ++ moreJson l) ((e :: l).map entryValue) := by
  induction l generalizing e with
  | nil => rw [moreJson, List.append_nil]; exact .one (entry_text e)
  | cons e' t ih =>
    have := Elements.more (entry_text e) (ih e')
    simpa [moreJson] using this

/-! ## The property -/

/-- **C81.** With room for at least the empty log (14 bytes), the text is that of a beginning of the log, fits, and is the longest one that
does. -/
theorem C81_fits (log : List Entry) {max : Nat} (h : 14 ≤ max) :
    ∃ k, k ≤ log.length ∧ serialize log max = toJson (log.take k) ∧ size (serialize log max) ≤ max ∧
      ∀ k', k < k' → k' ≤ log.length → max < size (toJson (log.take k')) := by
  unfold serialize
  by_cases hs : size (toJson log) > max
  · rw [if_pos hs]
    rcases search_spec (log := log) (max := max) (left := 0) (right := log.length) (json := toJson log) (Nat.zero_le _) (Nat.le_refl _)
      (by rw [List.take_length]; exact hs) (fun k hk => by omega) with ⟨k, h1, h2, h3, h4⟩ | ⟨_, _, h3⟩
    · refine ⟨k, Nat.le_of_lt h1, h2, by rw [h2]; exact h3, fun k' hk hk' => ?_⟩
      rcases Nat.lt_or_ge (k + 1) k' with h5 | h5
      · exact Nat.lt_trans h4 (size_lt h5 hk')
      · have : k' = k + 1 := by omega
        rw [this]; exact h4
    · rw [size_empty] at h3; omega
  · rw [if_neg hs]
    exact ⟨log.length, Nat.le_refl _, by rw [List.take_length], by omega, fun k' h1 h2 => by omega⟩

/-- **C81** (the limit of 14 bytes is needed): with less room the whole log is returned, however large it is. -/
theorem C81_too_little_room (log : List Entry) {max : Nat} (h : max < 14) : serialize log max = toJson log := by
  unfold serialize
  by_cases hs : size (toJson log) > max
  · rw [if_pos hs]
    rcases search_spec (log := log) (max := max) (left := 0) (right := log.length) (json := toJson log) (Nat.zero_le _) (Nat.le_refl _)
      (by rw [List.take_length]; exact hs) (fun k hk => by omega) with ⟨k, h1, _, h3, _⟩ | ⟨_, h2, _⟩
    · have h4 : size (toJson (log.take 0)) ≤ size (toJson (log.take k)) := by
        cases k with
        | zero => exact Nat.le_refl _
        | succ k => exact Nat.le_of_lt (size_lt (by omega) (by omega))
      have : size (toJson (log.take 0)) = 14 := size_empty
      omega
    · exact h2
  · rw [if_neg hs]

/-- **C81.** The text determines the entries, whatever characters they contain. -/
theorem C81_readable {l l' : List Entry} (h : toJson l = toJson l') : l = l' := by
  unfold toJson at h
  have h := List.append_cancel_left h
  cases l with
  | nil =>
    cases l' with
    | nil => rfl
    | cons e t =>
      have h := congrArg List.head? h
      simp only [entriesJson, List.append_assoc] at h
      rw [json_head] at h
      exact absurd h (by decide)
  | cons e t =>
    cases l' with
    | nil =>
      have h := congrArg List.head? h
      simp only [entriesJson, List.append_assoc] at h
      rw [json_head] at h
      exact absurd h (by decide)
    | cons e' t' =>
      simp only [entriesJson, List.append_assoc] at h
      obtain ⟨h1, h2⟩ := json_split h
      rw [h1, more_split h2]

/-- **C81.** Sorting keeps all entries, puts them into the order of their times, and keeps the order of entries of the same time. -/
theorem C81_sorted (log : List Entry) (s : Order) :
    (sortLogs log s).Perm log ∧
    (sortLogs log s).Pairwise (fun a b => match s with
      | .ascending => a.timestamp ≤ b.timestamp
      | .descending => b.timestamp ≤ a.timestamp) ∧
    ∀ a b, [a, b].Sublist log → a.timestamp = b.timestamp → [a, b].Sublist (sortLogs log s) := by
  cases s with
  | ascending =>
    refine ⟨List.mergeSort_perm _ _, ?_, fun a b h e => ?_⟩
    · refine (List.pairwise_mergeSort (le := fun a b : Entry => decide (a.timestamp ≤ b.timestamp)) ?_ ?_ log).imp (by simp)
      · intro a b c; simp only [decide_eq_true_eq]; omega
      · intro a b; simp only [Bool.or_eq_true, decide_eq_true_eq]; omega
    · refine List.pair_sublist_mergeSort ?_ ?_ ?_ h
      · intro a b c; simp only [decide_eq_true_eq]; omega
      · intro a b; simp only [Bool.or_eq_true, decide_eq_true_eq]; omega
      · simp [e]
  | descending =>
    refine ⟨List.mergeSort_perm _ _, ?_, fun a b h e => ?_⟩
    · refine (List.pairwise_mergeSort (le := fun a b : Entry => decide (b.timestamp ≤ a.timestamp)) ?_ ?_ log).imp (by simp)
      · intro a b c; simp only [decide_eq_true_eq]; omega
      · intro a b; simp only [Bool.or_eq_true, decide_eq_true_eq]; omega
    · refine List.pair_sublist_mergeSort ?_ ?_ ?_ h
      · intro a b c; simp only [decide_eq_true_eq]; omega
      · intro a b; simp only [Bool.or_eq_true, decide_eq_true_eq]; omega
      · simp [e]

/-- **C81.** All lines of the three buffers are exported, each with the priority of its buffer. -/
theorem C81_all (b : Buffers) (e : Entry) : e ∈ pushAll b [] ↔
    ∃ l : Line, l.timestamp = e.timestamp ∧ l.file = e.file ∧ l.line = e.line ∧ l.message = e.message ∧ l.counter = e.counter ∧
      (e.priority = .info ∧ l ∈ b.info ∨ e.priority = .traceHttp ∧ l ∈ b.traceHttp ∨ e.priority = .debug ∧ l ∈ b.debug) := by
  obtain ⟨ts, p, file, line, message, counter⟩ := e
  simp only [pushAll, pushLogs, List.nil_append, List.mem_append, List.mem_map, Line.entry, Entry.mk.injEq]
  constructor
  · rintro ((⟨l, hl, h⟩ | ⟨l, hl, h⟩) | ⟨l, hl, h⟩)
    · exact ⟨l, h.1, h.2.2.1, h.2.2.2.1, h.2.2.2.2.1, h.2.2.2.2.2, .inl ⟨h.2.1.symm, hl⟩⟩
    · exact ⟨l, h.1, h.2.2.1, h.2.2.2.1, h.2.2.2.2.1, h.2.2.2.2.2, .inr (.inl ⟨h.2.1.symm, hl⟩)⟩
    · exact ⟨l, h.1, h.2.2.1, h.2.2.2.1, h.2.2.2.2.1, h.2.2.2.2.2, .inr (.inr ⟨h.2.1.symm, hl⟩)⟩
  · rintro ⟨l, h1, h2, h3, h4, h5, ⟨hp, hl⟩ | ⟨hp, hl⟩ | ⟨hp, hl⟩⟩
    · exact .inl (.inl ⟨l, hl, h1, hp.symm, h2, h3, h4, h5⟩)
    · exact .inl (.inr ⟨l, hl, h1, hp.symm, h2, h3, h4, h5⟩)
    · exact .inr ⟨l, hl, h1, hp.symm, h2, h3, h4, h5⟩

/-- **C81.** The text is JSON as in RFC 8259, and stands for an object with the array of all entries, each with all its fields. -/
theorem C81_json (log : List Entry) : Text (toJson log) (.obj [("entries".toList, .arr (log.map entryValue))]) := by
  have h : Elements (entriesJson log) (log.map entryValue) := by
    cases log with
    | nil => exact .nil
    | cons e t => exact more_text e t
  have := Text.obj (.one (name_text (s := "entries".toList) (by decide)) (.arr h))
  refine (congrArg (fun t => Text t _) ?_).mp this
  have e1 : "{\"entries\":[".toList = ['{', '"'] ++ "entries".toList ++ ['"', ':', '['] := by decide
  have e2 : "]}".toList = [']', '}'] := by decide
  unfold toJson
  rw [e1, e2]
  generalize "entries".toList = n1
  simp only [List.append_assoc, List.cons_append, List.nil_append]

/-- **C81.** Names of priorities and orders are recognized in any letter case, and nothing else is. -/
theorem C81_words (s : List Char) :
    (∀ p, Priority.parse s = some p ↔ s.map Char.toLower = (match p with | .info => "info" | .traceHttp => "trace_http" | .debug => "debug").toList) ∧
    ∀ o, Order.parse s = some o ↔ s.map Char.toLower = (match o with | .ascending => "asc" | .descending => "desc").toList := by
  have h1 : "info".toList ≠ "trace_http".toList := by decide
  have h2 : "info".toList ≠ "debug".toList := by decide
  have h3 : "trace_http".toList ≠ "debug".toList := by decide
  have h4 : "asc".toList ≠ "desc".toList := by decide
  unfold Priority.parse Order.parse lower
  generalize s.map Char.toLower = t
  constructor
  · intro p
    split
    · rename_i h; subst h; cases p <;> simp [h1, h2]
    split
    · rename_i h; subst h; cases p <;> simp [h1.symm, h3]
    split
    · rename_i h; subst h; cases p <;> simp [h2.symm, h3.symm]
    · rename_i k1 k2 k3
      cases p
      · exact ⟨nofun, fun h => absurd h k1⟩
      · exact ⟨nofun, fun h => absurd h k2⟩
      · exact ⟨nofun, fun h => absurd h k3⟩
  · intro o
    split
    · rename_i h; subst h; cases o <;> simp [h4]
    split
    · rename_i h; subst h; cases o <;> simp [h4.symm]
    · rename_i k1 k2
      cases o
      · exact ⟨nofun, fun h => absurd h k1⟩
      · exact ⟨nofun, fun h => absurd h k2⟩

namespace Example

/-- Two lines, one with a quote and a line break. -/
def lines : List Entry := [⟨5, .info, "a.rs".toList, 7, "say \"hi\"\n".toList, 0⟩, ⟨3, .debug, "b.rs".toList, 123, "π".toList, 1⟩]

/-- Both lines take 194 bytes; with one byte less, the first remains. -/
theorem C81_example : size (toJson lines) = 194 ∧ serialize lines 194 = toJson lines ∧ serialize lines 193 = toJson (lines.take 1) ∧
    toJson (lines.take 1) = ("{\"entries\":[{\"timestamp\":5,\"priority\":\"Info\",\"file\":\"a.rs\",\"line\":7," ++
      "\"message\":\"say \\\"hi\\\"\\n\",\"counter\":0}]}").toList := by
  have h : size (toJson lines) = 194 := by decide +kernel
  have h1 : size (toJson (lines.take 1)) ≤ 193 := by decide +kernel
  refine ⟨h, ?_, ?_, by decide +kernel⟩
  · unfold serialize
    rw [if_neg (by omega)]
  · unfold serialize
    rw [if_pos (by omega)]
    show search lines 193 0 2 _ = _
    unfold search
    rw [if_pos (by decide)]
    dsimp only
    rw [if_pos h1]
    unfold search
    rw [if_neg (by decide)]

/-- The name of a priority in the text need not be recognized in a request. -/
theorem C81_example_words : Priority.parse "TRACE_HTTP".toList = some .traceHttp ∧ Priority.parse Priority.traceHttp.name = none ∧
    Priority.parse Priority.info.name = some .info ∧ Order.parse "Desc".toList = some .descending ∧ Order.parse "ascending".toList = none := by
  decide

end Example
end EvmMinter
