import Verif.Base.Ord
/-!
# Finite maps as sorted association lists

Models Rust's `BTreeMap` (and `BTreeSet`, as a map to `Unit`): lookups, insertion with overwrite,
removal and iteration in ascending key order.
-/

namespace EvmMinter

variable {K V W : Type} [DecidableEq K] [TOrd K]

/-- A finite map: a list of entries with strictly increasing keys. -/
structure FMap (K V : Type) [TOrd K] where
  entries : List (K × V)
  sorted : entries.Pairwise (fun a b => TOrd.lt a.1 b.1 = true)

namespace AL

/-- Lookup in an association list. -/
def get : List (K × V) → K → Option V
  | [], _ => none
  | (k', v) :: t, k => if k = k' then some v else get t k

/-- Insertion (overwriting) in a sorted association list. -/
def insert : List (K × V) → K → V → List (K × V)
  | [], k, v => [(k, v)]
  | (k', v') :: t, k, v =>
    if k = k' then (k, v) :: t
    else if TOrd.lt k k' then (k, v) :: (k', v') :: t
    else (k', v') :: insert t k v

/-- Removal from an association list. -/
def erase : List (K × V) → K → List (K × V)
  | [], _ => []
  | (k', v') :: t, k => if k = k' then t else (k', v') :: erase t k

omit [TOrd K] in
theorem mem_erase {l : List (K × V)} {k : K} {x : K × V} (h : x ∈ erase l k) : x ∈ l := by
  induction l with
  | nil => simp [erase] at h
  | cons a t ih =>
    obtain ⟨k', v'⟩ := a
    simp only [erase] at h
    split at h <;> grind

theorem mem_insert {l : List (K × V)} {k : K} {v : V} {x : K × V} (h : x ∈ insert l k v) :
    x = (k, v) ∨ x ∈ l := by
  induction l with
  | nil => simp [insert] at h; exact .inl h
  | cons a t ih =>
    obtain ⟨k', v'⟩ := a
    simp only [insert] at h
    split at h
    · grind
    · split at h <;> grind

abbrev Sorted (l : List (K × V)) : Prop := l.Pairwise (fun a b => TOrd.lt a.1 b.1 = true)

omit [DecidableEq K] in
theorem sorted_cons {a : K × V} {t : List (K × V)} :
    Sorted (a :: t) ↔ (∀ x ∈ t, TOrd.lt a.1 x.1 = true) ∧ Sorted t := List.pairwise_cons

theorem sorted_insert {l : List (K × V)} (h : Sorted l) (k : K) (v : V) : Sorted (insert l k v) := by
  induction l with
  | nil => simp [insert, Sorted]
  | cons a t ih =>
    obtain ⟨k', v'⟩ := a
    rw [sorted_cons] at h
    simp only [insert]
    split
    · rename_i e; subst e
      exact sorted_cons.2 h
    · rename_i hne
      split
      · rename_i hlt
        refine sorted_cons.2 ⟨?_, sorted_cons.2 h⟩
        intro x hx
        rcases List.mem_cons.1 hx with rfl | hx
        · exact hlt
        · exact TOrd.trans _ _ _ hlt (h.1 x hx)
      · rename_i hnlt
        refine sorted_cons.2 ⟨?_, ih h.2⟩
        intro x hx
        rcases mem_insert hx with rfl | hx
        · exact TOrd.lt_of_not (by simpa using hnlt) hne
        · exact h.1 x hx

theorem sorted_erase {l : List (K × V)} (h : Sorted l) (k : K) : Sorted (erase l k) := by
  induction l with
  | nil => simp [erase, Sorted]
  | cons a t ih =>
    obtain ⟨k', v'⟩ := a
    rw [sorted_cons] at h
    simp only [erase]
    split
    · exact h.2
    · refine sorted_cons.2 ⟨fun x hx => h.1 x (mem_erase hx), ih h.2⟩

omit [TOrd K] in
theorem get_none_of {l : List (K × V)} {k : K} (h : ∀ x ∈ l, x.1 ≠ k) : get l k = none := by
  induction l with
  | nil => rfl
  | cons a t ih =>
    obtain ⟨k', v'⟩ := a
    have := h (k', v') (by simp)
    simp only [get]
    rw [if_neg (fun e => this e.symm)]
    exact ih (fun x hx => h x (by simp [hx]))

omit [TOrd K] in
theorem mem_of_get {l : List (K × V)} {k : K} {v : V} (h : get l k = some v) : (k, v) ∈ l := by
  induction l with
  | nil => simp [get] at h
  | cons a t ih =>
    obtain ⟨k', v'⟩ := a
    simp only [get] at h
    split at h <;> grind

theorem get_of_mem {l : List (K × V)} (hs : Sorted l) {k : K} {v : V} (h : (k, v) ∈ l) :
    get l k = some v := by
  induction l with
  | nil => simp at h
  | cons a t ih =>
    obtain ⟨k', v'⟩ := a
    rw [sorted_cons] at hs
    rcases List.mem_cons.1 h with h | h
    · cases h; simp [get]
    · have := TOrd.ne_of_lt (hs.1 _ h)
      simp only [get]
      rw [if_neg (fun e => this e.symm)]
      exact ih hs.2 h

theorem get_insert (l : List (K × V)) (k k' : K) (v : V) :
    get (insert l k v) k' = if k' = k then some v else get l k' := by
  induction l with
  | nil => simp [insert, get]
  | cons a t ih =>
    obtain ⟨k₀, v₀⟩ := a
    simp only [insert]
    split
    · simp only [get]; grind
    · split
      · simp only [get]
      · simp only [get, ih]; grind

theorem get_erase {l : List (K × V)} (hs : Sorted l) (k k' : K) :
    get (erase l k) k' = if k' = k then none else get l k' := by
  induction l with
  | nil => simp [erase, get]
  | cons a t ih =>
    obtain ⟨k₀, v₀⟩ := a
    rw [sorted_cons] at hs
    simp only [erase]
    split
    · rename_i e; subst e
      split
      · rename_i e; subst e
        exact get_none_of (fun x hx => (TOrd.ne_of_lt (hs.1 x hx)).symm)
      · rename_i hne
        simp only [get]
        rw [if_neg hne]
    · rename_i hne
      simp only [get, ih hs.2]
      grind

theorem ext {l m : List (K × V)} (hl : Sorted l) (hm : Sorted m)
    (h : ∀ k, get l k = get m k) : l = m := by
  induction l generalizing m with
  | nil =>
    cases m with
    | nil => rfl
    | cons b m => have := h b.1; simp [get] at this
  | cons a l ih =>
    cases m with
    | nil => have := h a.1; simp [get] at this
    | cons b m =>
      obtain ⟨ka, va⟩ := a
      obtain ⟨kb, vb⟩ := b
      rw [sorted_cons] at hl hm
      have e : ka = kb := by
        cases h1 : TOrd.lt ka kb
        · cases h2 : TOrd.lt kb ka
          · exact TOrd.tri _ _ h1 h2
          · exfalso
            have hh := h kb
            simp only [get] at hh
            rw [if_pos trivial, if_neg (TOrd.ne_of_lt h2)] at hh
            have := hl.1 _ (mem_of_get hh)
            have := TOrd.asymm h2
            simp_all
        · exfalso
          have hh := h ka
          simp only [get] at hh
          rw [if_pos trivial, if_neg (TOrd.ne_of_lt h1)] at hh
          have := hm.1 _ (mem_of_get hh.symm)
          have := TOrd.asymm h1
          simp_all
      subst e
      have ev : va = vb := by
        have := h ka
        simpa [get] using this
      subst ev
      congr 1
      apply ih hl.2 hm.2
      intro k
      by_cases hk : k = ka
      · subst hk
        rw [get_none_of (fun x hx => (TOrd.ne_of_lt (hl.1 x hx)).symm),
          get_none_of (fun x hx => (TOrd.ne_of_lt (hm.1 x hx)).symm)]
      · have := h k
        simpa [get, hk] using this

/-- Sum of a function over the entries. -/
def sum (f : K → V → Nat) : List (K × V) → Nat
  | [] => 0
  | (k, v) :: t => f k v + sum f t

theorem sum_insert_new (f : K → V → Nat) {l : List (K × V)} {k : K} {v : V}
    (h : get l k = none) : sum f (insert l k v) = f k v + sum f l := by
  induction l with
  | nil => simp [insert, sum]
  | cons a t ih =>
    obtain ⟨k', v'⟩ := a
    simp only [get] at h
    split at h
    · simp at h
    · rename_i hne
      simp only [insert, if_neg hne]
      split
      · simp [sum]
      · simp only [sum, ih h]; omega

omit [TOrd K] in
theorem sum_erase (f : K → V → Nat) {l : List (K × V)} {k : K} {v : V}
    (h : get l k = some v) : sum f l = f k v + sum f (erase l k) := by
  induction l with
  | nil => simp [get] at h
  | cons a t ih =>
    obtain ⟨k', v'⟩ := a
    simp only [get] at h
    split at h
    · rename_i e; subst e
      cases h
      simp [erase, sum]
    · rename_i hne
      simp only [erase, if_neg hne, sum, ih h]; omega

end AL

namespace FMap

instance : EmptyCollection (FMap K V) := ⟨⟨[], List.Pairwise.nil⟩⟩
instance : Inhabited (FMap K V) := ⟨∅⟩

instance [DecidableEq V] : DecidableEq (FMap K V) := fun a b =>
  decidable_of_iff (a.entries = b.entries) ⟨fun h => by cases a; cases b; cases h; rfl, fun h => by rw [h]⟩

/-- `BTreeMap::get`. -/
def get (m : FMap K V) (k : K) : Option V := AL.get m.entries k

/-- `BTreeMap::contains_key`. -/
def contains (m : FMap K V) (k : K) : Bool := (m.get k).isSome

/-- `BTreeMap::insert` (the returned previous value is `m.get k`). -/
def insert (m : FMap K V) (k : K) (v : V) : FMap K V :=
  ⟨AL.insert m.entries k v, AL.sorted_insert m.sorted k v⟩

/-- `BTreeMap::remove` (the returned value is `m.get k`). -/
def erase (m : FMap K V) (k : K) : FMap K V := ⟨AL.erase m.entries k, AL.sorted_erase m.sorted k⟩

/-- `BTreeMap::iter`, ascending. -/
def toList (m : FMap K V) : List (K × V) := m.entries

/-- `BTreeMap::keys`, ascending. -/
def keys (m : FMap K V) : List K := m.entries.map (·.1)

/-- `BTreeMap::values`, ascending by key. -/
def values (m : FMap K V) : List V := m.entries.map (·.2)

/-- `BTreeMap::len`. -/
def size (m : FMap K V) : Nat := m.entries.length

/-- `BTreeMap::is_empty`. -/
def isEmpty (m : FMap K V) : Bool := m.entries.isEmpty

/-- Sum over the entries (specification helper). -/
def sum (m : FMap K V) (f : K → V → Nat) : Nat := AL.sum f m.entries

@[simp] theorem get_empty (k : K) : (∅ : FMap K V).get k = none := rfl

@[simp, grind =] theorem get_insert (m : FMap K V) (k k' : K) (v : V) :
    (m.insert k v).get k' = if k' = k then some v else m.get k' := AL.get_insert _ _ _ _

@[simp, grind =] theorem get_erase (m : FMap K V) (k k' : K) :
    (m.erase k).get k' = if k' = k then none else m.get k' := AL.get_erase m.sorted _ _

theorem get_insert_self (m : FMap K V) (k : K) (v : V) : (m.insert k v).get k = some v := by simp

theorem contains_eq_true {m : FMap K V} {k : K} : m.contains k = true ↔ ∃ v, m.get k = some v := by
  unfold contains; rw [Option.isSome_iff_exists]

theorem contains_eq_false {m : FMap K V} {k : K} : m.contains k = false ↔ m.get k = none := by
  unfold contains; simp

@[simp] theorem contains_empty (k : K) : (∅ : FMap K V).contains k = false := rfl

theorem ext_get {m n : FMap K V} (h : ∀ k, m.get k = n.get k) : m = n := by
  cases m with
  | mk l hl =>
    cases n with
    | mk l' hl' =>
      have := AL.ext hl hl' h
      cases this
      rfl

theorem mem_toList {m : FMap K V} {k : K} {v : V} : (k, v) ∈ m.toList ↔ m.get k = some v :=
  ⟨AL.get_of_mem m.sorted, AL.mem_of_get⟩

theorem mem_keys {m : FMap K V} {k : K} : k ∈ m.keys ↔ ∃ v, m.get k = some v := by
  unfold keys
  constructor
  · intro h
    obtain ⟨⟨k', v⟩, hx, rfl⟩ := List.mem_map.1 h
    exact ⟨v, mem_toList.1 hx⟩
  · rintro ⟨v, h⟩
    exact List.mem_map.2 ⟨(k, v), mem_toList.2 h, rfl⟩

theorem mem_values {m : FMap K V} {v : V} : v ∈ m.values ↔ ∃ k, m.get k = some v := by
  unfold values
  constructor
  · intro h
    obtain ⟨⟨k', v'⟩, hx, rfl⟩ := List.mem_map.1 h
    exact ⟨k', mem_toList.1 hx⟩
  · rintro ⟨k, h⟩
    exact List.mem_map.2 ⟨(k, v), mem_toList.2 h, rfl⟩

omit [DecidableEq K] in
theorem keys_sorted (m : FMap K V) : m.keys.Pairwise (fun a b => TOrd.lt a b = true) := by
  unfold keys
  rw [List.pairwise_map]
  exact m.sorted

omit [DecidableEq K] in
theorem keys_nodup (m : FMap K V) : m.keys.Nodup :=
  (keys_sorted m).imp (fun h => TOrd.ne_of_lt h)

theorem isEmpty_iff {m : FMap K V} : m.isEmpty = true ↔ ∀ k, m.get k = none := by
  unfold isEmpty
  rw [List.isEmpty_iff]
  constructor
  · intro h k; unfold get; rw [h]; rfl
  · intro h
    cases hl : m.entries with
    | nil => rfl
    | cons a t =>
      have := h a.1
      unfold get at this
      rw [hl] at this
      obtain ⟨k, v⟩ := a
      simp [AL.get] at this

theorem sum_insert_new (m : FMap K V) (f : K → V → Nat) {k : K} {v : V} (h : m.get k = none) :
    (m.insert k v).sum f = f k v + m.sum f := AL.sum_insert_new f h

theorem sum_erase (m : FMap K V) (f : K → V → Nat) {k : K} {v : V} (h : m.get k = some v) :
    m.sum f = f k v + (m.erase k).sum f := AL.sum_erase f h

omit [DecidableEq K] in
@[simp] theorem sum_empty (f : K → V → Nat) : (∅ : FMap K V).sum f = 0 := rfl

theorem erase_of_none {m : FMap K V} {k : K} (h : m.get k = none) : m.erase k = m := by
  apply ext_get
  intro k'
  rw [get_erase]
  split
  · rename_i e; rw [e, h]
  · rfl

end FMap

/-- Models `BTreeSet`. -/
abbrev FSet (K : Type) [TOrd K] := FMap K Unit

end EvmMinter
