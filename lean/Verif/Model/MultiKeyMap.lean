import Verif.Base.FMap
import Verif.Base.Res
/-!
# `MultiKeyMap` and `DedupMultiKeyMap` (minter/src/map.rs)
-/

namespace EvmMinter

variable {K A V : Type} [DecidableEq K] [TOrd K] [DecidableEq A] [TOrd A]

/-- `MultiKeyMap` (map.rs:25-32). -/
structure MKM (K A V : Type) [TOrd K] [TOrd A] where
  byAlt : FMap A V
  byKey : FMap K A

/-- `OccupiedKey` (map.rs:43-48). -/
inductive Occupied (K A : Type) where
  | key (k : K)
  | alt (a : A)
deriving DecidableEq

namespace MKM

instance : EmptyCollection (MKM K A V) := ⟨⟨∅, ∅⟩⟩
instance : Inhabited (MKM K A V) := ⟨∅⟩

instance [DecidableEq V] : DecidableEq (MKM K A V) := fun a b =>
  decidable_of_iff (a.byAlt = b.byAlt ∧ a.byKey = b.byKey)
    ⟨fun h => by cases a; cases b; simp_all, fun h => by rw [h]; exact ⟨rfl, rfl⟩⟩

/-- `is_empty` (map.rs:58-60). -/
def isEmpty (m : MKM K A V) : Bool := m.byKey.isEmpty

/-- `try_insert` (map.rs:62-86). The two trailing `assert!`s restate the two preceding tests. -/
def tryInsert (m : MKM K A V) (k : K) (a : A) (v : V) : Except (Occupied K A) (MKM K A V) :=
  if m.byAlt.contains a then .error (.alt a)
  else if m.byKey.contains k then .error (.key k)
  else .ok ⟨m.byAlt.insert a v, m.byKey.insert k a⟩

/-- `get` (map.rs:88-96). -/
def get (m : MKM K A V) (k : K) : Option V := (m.byKey.get k).bind m.byAlt.get

/-- `get_entry` (map.rs:98-106). -/
def getEntry (m : MKM K A V) (k : K) : Option (A × V) :=
  (m.byKey.get k).bind fun a => (m.byAlt.get a).map fun v => (a, v)

/-- `get_mut` followed by an update `f` of the value (map.rs:108-116); `none` if the key is absent. -/
def modify (m : MKM K A V) (k : K) (f : V → V) : Option (MKM K A V) :=
  (m.byKey.get k).bind fun a => (m.byAlt.get a).map fun v => { m with byAlt := m.byAlt.insert a (f v) }

/-- `get_alt` (map.rs:118-124). -/
def getAlt (m : MKM K A V) (a : A) : Option V := m.byAlt.get a

/-- `contains` (map.rs:126-132). -/
def contains (m : MKM K A V) (k : K) : Bool := m.byKey.contains k

/-- `contains_alt` (map.rs:134-140). -/
def containsAlt (m : MKM K A V) (a : A) : Bool := m.byAlt.contains a

/-- Look up the value of each `(key, alt)` pair; indexing `by_alt_key[alt]` panics when it is missing. -/
def resolve (byAlt : FMap A V) : List (K × A) → Res (List (K × A × V))
  | [] => .ok []
  | (k, a) :: t => do
    let v ← expect (byAlt.get a) "no entry found for key"
    let r ← resolve byAlt t
    return (k, a, v) :: r

/-- `iter` (map.rs:144-148), ascending by primary key, forced completely. -/
def iter (m : MKM K A V) : Res (List (K × A × V)) := resolve m.byAlt m.byKey.toList

/-- `keys` (map.rs:150-152). -/
def keys (m : MKM K A V) : List K := m.byKey.keys

/-- `alt_keys` (map.rs:154-156). -/
def altKeys (m : MKM K A V) : List A := m.byAlt.keys

/-- `remove_entry` (map.rs:158-170): `none` if the key is absent, a panic if the alternative key dangles. -/
def removeEntry (m : MKM K A V) (k : K) : Res (Option (K × A × V) × MKM K A V) :=
  match m.byKey.get k with
  | none => .ok (none, m)
  | some a => do
    let v ← expect (m.byAlt.get a) "BUG: missing foreign key"
    return (some (k, a, v), ⟨m.byAlt.erase a, m.byKey.erase k⟩)

/-- The removal loop of `drain` (map.rs:184-195). -/
def drainKeys : List K → MKM K A V → Res (List (K × A × V) × MKM K A V)
  | [], m => .ok ([], m)
  | k :: t, m => do
    let a ← expect (m.byKey.get k) "BUG: missing primary key"
    let v ← expect (m.byAlt.get a) "BUG: missing foreign key"
    let (r, m') ← drainKeys t ⟨m.byAlt.erase a, m.byKey.erase k⟩
    return ((k, a, v) :: r, m')

/-- `drain` (map.rs:173-197). -/
def drain (m : MKM K A V) (p : K → Bool) : Res (List (K × A × V) × MKM K A V) :=
  drainKeys (m.byKey.keys.filter p) m

/-- `FromIterator` (map.rs:206-216): both maps are collected separately, later entries overwrite. -/
def fromIter (l : List (K × A × V)) : MKM K A V :=
  l.foldl (fun m x => ⟨m.byAlt.insert x.2.1 x.2.2, m.byKey.insert x.1 x.2.1⟩) ∅

end MKM

/-- `DedupMultiKeyMap` (map.rs:228-234). -/
structure DMKM (K A V : Type) [TOrd K] [TOrd A] where
  map : MKM K A (K × V)

namespace DMKM

instance : EmptyCollection (DMKM K A V) := ⟨⟨∅⟩⟩
instance : Inhabited (DMKM K A V) := ⟨∅⟩

instance [DecidableEq V] : DecidableEq (DMKM K A V) := fun a b =>
  decidable_of_iff (a.map = b.map) ⟨fun h => by cases a; cases b; simp_all, fun h => by rw [h]⟩

/-- `try_insert` (map.rs:243-259). -/
def tryInsert (m : DMKM K A V) (k : K) (a : A) (v : V) : Except (Occupied K A) (DMKM K A V) :=
  (m.map.tryInsert k a (k, v)).map fun m' => ⟨m'⟩

/-- `get` (map.rs:261-267). -/
def get (m : DMKM K A V) (k : K) : Option V := (m.map.get k).map (·.2)

/-- `get_alt` (map.rs:269-275). -/
def getAlt (m : DMKM K A V) (a : A) : Option V := (m.map.getAlt a).map (·.2)

/-- `get_entry` (map.rs:277-285). -/
def getEntry (m : DMKM K A V) (k : K) : Option (A × V) := (m.map.getEntry k).map fun x => (x.1, x.2.2)

/-- `get_entry_alt` (map.rs:287-293). -/
def getEntryAlt (m : DMKM K A V) (a : A) : Option (K × V) := m.map.getAlt a

/-- `contains_alt` (map.rs:295-301). -/
def containsAlt (m : DMKM K A V) (a : A) : Bool := m.map.containsAlt a

/-- `alt_keys` (map.rs:303-305). -/
def altKeys (m : DMKM K A V) : List A := m.map.altKeys

/-- `iter` (map.rs:307-311). -/
def iter (m : DMKM K A V) : Res (List (K × A × V)) := do
  let l ← m.map.iter
  return l.map fun x => (x.1, x.2.1, x.2.2.2)

end DMKM

end EvmMinter
