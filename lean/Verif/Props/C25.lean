import Verif.Lemmas.MKM
import Mathlib.Data.List.Forall2
/-!
# C25: the two-key maps behave as a set of triples

Reference: a plain list of triples in which no key and no alternative key occurs twice.
-/

namespace EvmMinter

variable {K A V : Type} [DecidableEq K] [TOrd K] [DecidableEq A] [TOrd A]

/-- Operations on a two-key map. -/
inductive MapOp (K A V : Type) where
  | insert (k : K) (a : A) (v : V)
  | remove (k : K)
  | modify (k : K) (f : V → V)
  | drain (p : K → Bool)

/-- What an operation returns. -/
inductive MapOut (K A V : Type) where
  | inserted
  | keyInUse (k : K)
  | altInUse (a : A)
  | removed (x : Option (K × A × V))
  | modified (found : Bool)
  | drained (l : List (K × A × V))

/-- Same answer, up to the order of drained elements. -/
def MapOut.Agrees : MapOut K A V → MapOut K A V → Prop
  | .drained l, .drained l' => l.Perm l'
  | a, b => a = b

theorem nodup_of_map {α β : Type} (f : α → β) {l : List α} (h : (l.map f).Nodup) : l.Nodup := by
  unfold List.Nodup at *
  rw [List.pairwise_map] at h
  exact h.imp (fun hn e => hn (by rw [e]))

namespace RefMap

/-- The reference semantics. -/
def step (l : List (K × A × V)) : MapOp K A V → MapOut K A V × List (K × A × V)
  | .insert k a v =>
    if l.any (fun x => x.2.1 == a) then (.altInUse a, l)
    else if l.any (fun x => x.1 == k) then (.keyInUse k, l)
    else (.inserted, (k, a, v) :: l)
  | .remove k => (.removed (l.find? (fun x => x.1 == k)), l.filter (fun x => !(x.1 == k)))
  | .modify k f =>
    (.modified (l.any (fun x => x.1 == k)), l.map (fun x => if x.1 = k then (x.1, x.2.1, f x.2.2) else x))
  | .drain p => (.drained (l.filter (fun x => p x.1)), l.filter (fun x => !p x.1))

/-- Each key and each alternative key occurs at most once. -/
def Distinct (l : List (K × A × V)) : Prop := (l.map (·.1)).Nodup ∧ (l.map (·.2.1)).Nodup

end RefMap

namespace MKM

/-- The operation on the code's map. -/
def step (m : MKM K A V) : MapOp K A V → Res (MapOut K A V × MKM K A V)
  | .insert k a v =>
    match m.tryInsert k a v with
    | .ok m' => .ok (.inserted, m')
    | .error (.key k) => .ok (.keyInUse k, m)
    | .error (.alt a) => .ok (.altInUse a, m)
  | .remove k => do
    let (x, m') ← m.removeEntry k
    return (.removed x, m')
  | .modify k f =>
    match m.modify k f with
    | some m' => .ok (.modified true, m')
    | none => .ok (.modified false, m)
  | .drain p => do
    let (l, m') ← m.drain p
    return (.drained l, m')

/-- The map contains exactly the triples of the list. -/
structure Ref (m : MKM K A V) (l : List (K × A × V)) : Prop where
  wf : m.WF
  has : ∀ k a v, m.Has k a v ↔ (k, a, v) ∈ l
  distinct : RefMap.Distinct l

theorem Ref.any_alt {m : MKM K A V} {l : List (K × A × V)} (h : Ref m l) (a : A) :
    l.any (fun x => x.2.1 == a) = m.byAlt.contains a := by
  rw [Bool.eq_iff_iff, show m.byAlt.contains a = m.containsAlt a from rfl, containsAlt_eq h.wf, List.any_eq_true]
  constructor
  · rintro ⟨⟨k, a', v⟩, hx, he⟩
    have : a' = a := by simpa using he
    subst this
    exact ⟨k, v, (h.has _ _ _).2 hx⟩
  · rintro ⟨k, v, hh⟩; exact ⟨(k, a, v), (h.has _ _ _).1 hh, by simp⟩

theorem Ref.any_key {m : MKM K A V} {l : List (K × A × V)} (h : Ref m l) (k : K) :
    l.any (fun x => x.1 == k) = m.byKey.contains k := by
  rw [Bool.eq_iff_iff, show m.byKey.contains k = m.contains k from rfl, contains_eq h.wf, List.any_eq_true]
  constructor
  · rintro ⟨⟨k', a, v⟩, hx, he⟩
    have : k' = k := by simpa using he
    subst this
    exact ⟨a, v, (h.has _ _ _).2 hx⟩
  · rintro ⟨a, v, hh⟩; exact ⟨(k, a, v), (h.has _ _ _).1 hh, by simp⟩

theorem drainKeys_total {m : MKM K A V} (w : m.WF) {ks : List K} (hn : ks.Nodup)
    (hk : ∀ k ∈ ks, ∃ a v, m.Has k a v) :
    ∃ r m', drainKeys ks m = .ok (r, m') ∧ m'.WF ∧ (∀ k a v, m'.Has k a v ↔ k ∉ ks ∧ m.Has k a v) ∧
      (∀ k a v, (k, a, v) ∈ r ↔ k ∈ ks ∧ m.Has k a v) ∧ r.map (·.1) = ks := by
  induction ks generalizing m with
  | nil => exact ⟨[], m, rfl, w, by simp, by simp, rfl⟩
  | cons k t ih =>
    obtain ⟨a, v, hh⟩ := hk k (by simp)
    rw [List.nodup_cons] at hn
    have w' := erase_wf w hh
    have hs := @erase_has _ _ _ _ _ _ _ m w k a v hh
    obtain ⟨r, m', h1, h2, h3, h4, h5⟩ := ih w' hn.2 (fun k' hk' => by
      obtain ⟨a', v', h'⟩ := hk k' (by simp [hk'])
      exact ⟨a', v', hs.2 ⟨fun e => hn.1 (e ▸ hk'), h'⟩⟩)
    refine ⟨(k, a, v) :: r, m', ?_, h2, ?_, ?_, by simp [h5]⟩
    · simp only [drainKeys, hh.1, hh.2, expect, bind, Except.bind, h1, pure, Except.pure]
    · intro k' a' v'
      rw [h3, hs]
      simp only [List.mem_cons, not_or]
      constructor
      · rintro ⟨x, y, z⟩; exact ⟨⟨y, x⟩, z⟩
      · rintro ⟨⟨y, x⟩, z⟩; exact ⟨x, y, z⟩
    · intro k' a' v'
      rw [List.mem_cons, h4, hs, List.mem_cons]
      constructor
      · rintro (e | ⟨x, y, z⟩)
        · simp only [Prod.mk.injEq] at e
          obtain ⟨rfl, rfl, rfl⟩ := e
          exact ⟨.inl rfl, hh⟩
        · exact ⟨.inr x, z⟩
      · rintro ⟨x | x, z⟩
        · subst x
          obtain ⟨rfl, rfl⟩ := Has.unique_key z hh
          exact .inl rfl
        · by_cases e : k' = k
          · subst e; exact absurd x hn.1
          · exact .inr ⟨x, e, z⟩

theorem distinct_filter {l : List (K × A × V)} (h : RefMap.Distinct l) (p : K × A × V → Bool) :
    RefMap.Distinct (l.filter p) :=
  ⟨h.1.sublist (List.filter_sublist.map _), h.2.sublist (List.filter_sublist.map _)⟩

theorem nodup_of_distinct {l : List (K × A × V)} (h : RefMap.Distinct l) : l.Nodup := nodup_of_map _ h.1

/-- One operation: the code never panics, answers as the reference, and stays in agreement. -/
theorem Ref.step {m : MKM K A V} {l : List (K × A × V)} (h : Ref m l) (op : MapOp K A V) :
    ∃ out m', m.step op = .ok (out, m') ∧ out.Agrees (RefMap.step l op).1 ∧ Ref m' (RefMap.step l op).2 := by
  cases op with
  | insert k a v =>
    unfold MKM.step RefMap.step
    dsimp only
    rw [h.any_alt, h.any_key]
    cases ht : m.tryInsert k a v with
    | ok m' =>
      obtain ⟨ha, hk, hm⟩ := tryInsert_ok.1 ht
      have h1 := FMap.contains_eq_false.2 ha
      have h2 := FMap.contains_eq_false.2 hk
      rw [h1, h2]
      refine ⟨_, _, rfl, rfl, tryInsert_wf h.wf ht, ?_, ?_⟩
      · intro k' a' v'
        rw [tryInsert_has h.wf ht, h.has]
        simp
      · have f := tryInsert_fresh ht
        simp only [Bool.false_eq_true, if_false]
        refine ⟨?_, ?_⟩
        · rw [List.map_cons, List.nodup_cons]
          refine ⟨?_, h.distinct.1⟩
          intro hm
          obtain ⟨⟨k', a', v'⟩, hx, rfl⟩ := List.mem_map.1 hm
          exact f.1 a' v' ((h.has _ _ _).2 hx)
        · rw [List.map_cons, List.nodup_cons]
          refine ⟨?_, h.distinct.2⟩
          intro hm
          obtain ⟨⟨k', a', v'⟩, hx, rfl⟩ := List.mem_map.1 hm
          exact f.2 k' v' ((h.has _ _ _).2 hx)
    | error e =>
      unfold tryInsert at ht
      split at ht
      · rename_i hc
        cases ht
        rw [if_pos hc]
        exact ⟨_, _, rfl, rfl, h⟩
      · rename_i hc
        rw [if_neg hc]
        split at ht
        · rename_i hk
          cases ht
          rw [if_pos hk]
          exact ⟨_, _, rfl, rfl, h⟩
        · cases ht
  | remove k =>
    obtain ⟨o, m', hr⟩ := removeEntry_total h.wf k
    refine ⟨.removed o, m', by simp [MKM.step, hr, bind, Except.bind, pure, Except.pure], ?_,
      removeEntry_wf h.wf hr, ?_, distinct_filter h.distinct _⟩
    · show MapOut.removed o = MapOut.removed _
      congr 1
      rcases removeEntry_ok hr with ⟨rfl, _, hn⟩ | ⟨a, v, rfl, hh, _⟩
      · symm
        rw [List.find?_eq_none]
        rintro ⟨k', a, v⟩ hx e
        have : k' = k := by simpa using e
        subst this
        exact hn a v ((h.has _ _ _).2 hx)
      · have hs : (l.find? (fun x => x.1 == k)).isSome := by
          rw [List.find?_isSome]; exact ⟨(k, a, v), (h.has _ _ _).1 hh, by simp⟩
        obtain ⟨⟨k', a', v'⟩, hf⟩ := Option.isSome_iff_exists.1 hs
        have e : k' = k := by simpa using List.find?_some hf
        subst e
        obtain ⟨rfl, rfl⟩ := Has.unique_key hh ((h.has _ _ _).2 (List.mem_of_find?_eq_some hf))
        exact hf.symm
    · intro k' a' v'
      rw [removeEntry_has h.wf hr, h.has]
      simp only [RefMap.step, List.mem_filter, Bool.not_eq_true', beq_eq_false_iff_ne, ne_eq]
      exact and_comm
  | modify k f =>
    unfold MKM.step RefMap.step
    dsimp only
    rw [h.any_key]
    have hd : RefMap.Distinct (l.map (fun x => if x.1 = k then (x.1, x.2.1, f x.2.2) else x)) := by
      have e1 : (l.map (fun x => if x.1 = k then (x.1, x.2.1, f x.2.2) else x)).map (·.1) = l.map (·.1) := by
        rw [List.map_map]; apply List.map_congr_left; intro x _; simp only [Function.comp_apply]; split <;> rfl
      have e2 : (l.map (fun x => if x.1 = k then (x.1, x.2.1, f x.2.2) else x)).map (·.2.1) = l.map (·.2.1) := by
        rw [List.map_map]; apply List.map_congr_left; intro x _; simp only [Function.comp_apply]; split <;> rfl
      exact ⟨e1 ▸ h.distinct.1, e2 ▸ h.distinct.2⟩
    have hmem : ∀ k' a' v', (k', a', v') ∈ l.map (fun x => if x.1 = k then (x.1, x.2.1, f x.2.2) else x) ↔
        (k' = k ∧ ∃ v, m.Has k a' v ∧ v' = f v) ∨ (k' ≠ k ∧ m.Has k' a' v') := by
      intro k' a' v'
      rw [List.mem_map]
      constructor
      · rintro ⟨⟨k1, a1, v1⟩, hx, he⟩
        split at he
        · rename_i hk
          simp only at hk
          simp only [Prod.mk.injEq] at he
          obtain ⟨rfl, rfl, rfl⟩ := he
          subst hk
          exact .inl ⟨rfl, v1, (h.has _ _ _).2 hx, rfl⟩
        · rename_i hk
          cases he
          exact .inr ⟨hk, (h.has _ _ _).2 hx⟩
      · rintro (⟨rfl, v, hh, rfl⟩ | ⟨hk, hh⟩)
        · exact ⟨(k', a', v), (h.has _ _ _).1 hh, by simp⟩
        · exact ⟨(k', a', v'), (h.has _ _ _).1 hh, by simp [hk]⟩
    cases ht : m.modify k f with
    | some m' =>
      obtain ⟨a, v, hh, rfl⟩ := modify_some ht
      have hc : m.byKey.contains k = true := FMap.contains_eq_true.2 ⟨a, hh.1⟩
      refine ⟨_, _, rfl, ?_, modify_wf h.wf ht, ?_, hd⟩
      · show MapOut.modified true = MapOut.modified _
        rw [hc]
      · intro k' a' v'
        rw [update_has h.wf hh]
        refine Iff.trans ?_ (hmem k' a' v').symm
        constructor
        · rintro (⟨rfl, rfl, rfl⟩ | h')
          · exact .inl ⟨rfl, v, hh, rfl⟩
          · exact .inr h'
        · rintro (⟨rfl, v1, h1, rfl⟩ | h')
          · obtain ⟨rfl, rfl⟩ := Has.unique_key h1 hh; exact .inl ⟨rfl, rfl, rfl⟩
          · exact .inr h'
    | none =>
      have hno := modify_none ht
      have hc : m.byKey.contains k = false := by
        cases hb : m.byKey.contains k with
        | false => rfl
        | true =>
          obtain ⟨a, v, hh⟩ := (contains_eq h.wf).1 hb
          exact absurd hh (hno a v)
      refine ⟨_, _, rfl, ?_, h.wf, ?_, hd⟩
      · show MapOut.modified false = MapOut.modified _
        rw [hc]
      · intro k' a' v'
        refine Iff.trans ?_ (hmem k' a' v').symm
        constructor
        · intro hh
          refine .inr ⟨?_, hh⟩
          rintro rfl
          exact hno _ _ hh
        · rintro (⟨rfl, v1, h1, rfl⟩ | h')
          · exact absurd h1 (hno _ _)
          · exact h'.2
  | drain p =>
    have hks : ∀ k, k ∈ m.byKey.keys.filter p ↔ p k = true ∧ ∃ a v, m.Has k a v := by
      intro k
      rw [List.mem_filter, FMap.mem_keys]
      constructor
      · rintro ⟨⟨a, ha⟩, hp⟩
        obtain ⟨v, hv⟩ := h.wf.alt_of_key ha
        exact ⟨hp, a, v, ha, hv⟩
      · rintro ⟨hp, a, v, hh⟩; exact ⟨⟨a, hh.1⟩, hp⟩
    obtain ⟨r, m', h1, h2, h3, h4, h5⟩ := drainKeys_total h.wf ((FMap.keys_nodup m.byKey).filter p)
      (fun k hk => ((hks k).1 hk).2)
    refine ⟨.drained r, m', by simp [MKM.step, MKM.drain, h1, bind, Except.bind, pure, Except.pure], ?_, h2, ?_,
      distinct_filter h.distinct _⟩
    · show List.Perm r _
      apply (List.perm_ext_iff_of_nodup (nodup_of_map (·.1) (by rw [h5]; exact (FMap.keys_nodup m.byKey).filter p))
        ((nodup_of_distinct h.distinct).filter _)).2
      rintro ⟨k, a, v⟩
      rw [h4, hks, List.mem_filter, ← h.has]
      constructor
      · rintro ⟨⟨hp, _⟩, hh⟩; exact ⟨hh, hp⟩
      · rintro ⟨hh, hp⟩; exact ⟨⟨hp, a, v, hh⟩, hh⟩
    · intro k a v
      rw [h3, hks]
      simp only [RefMap.step, List.mem_filter, ← h.has, Bool.not_eq_true']
      constructor
      · rintro ⟨hn, hh⟩
        refine ⟨hh, ?_⟩
        cases hp : p k with
        | false => rfl
        | true => exact absurd ⟨hp, a, v, hh⟩ hn
      · rintro ⟨hh, hp⟩
        refine ⟨?_, hh⟩
        rintro ⟨hp', _⟩
        rw [hp] at hp'; cases hp'

/-- Execute a sequence of operations. -/
def exec (m : MKM K A V) : List (MapOp K A V) → Res (List (MapOut K A V) × MKM K A V)
  | [] => .ok ([], m)
  | op :: t => do
    let (o, m') ← m.step op
    let (os, m'') ← exec m' t
    return (o :: os, m'')

end MKM

/-- The same on the reference. -/
def RefMap.exec (l : List (K × A × V)) : List (MapOp K A V) → List (MapOut K A V) × List (K × A × V)
  | [] => ([], l)
  | op :: t => ((RefMap.step l op).1 :: (RefMap.exec (RefMap.step l op).2 t).1, (RefMap.exec (RefMap.step l op).2 t).2)

theorem MKM.Ref.exec {m : MKM K A V} {l : List (K × A × V)} (h : MKM.Ref m l) (ops : List (MapOp K A V)) :
    ∃ outs m', m.exec ops = .ok (outs, m') ∧ List.Forall₂ MapOut.Agrees outs (RefMap.exec l ops).1 ∧
      MKM.Ref m' (RefMap.exec l ops).2 := by
  induction ops generalizing m l with
  | nil => exact ⟨[], m, rfl, .nil, h⟩
  | cons op t ih =>
    obtain ⟨o, m1, h1, h2, h3⟩ := h.step op
    obtain ⟨os, m2, h4, h5, h6⟩ := ih h3
    refine ⟨o :: os, m2, ?_, .cons h2 h5, h6⟩
    simp only [MKM.exec, h1, h4, bind, Except.bind, pure, Except.pure]

/-- **C25.** Every sequence of insertions, removals, updates and drains, from the empty map: the map never panics,
answers exactly as the list of triples (in particular it rejects an insertion exactly when the key or the alternative
key is in use), no key or alternative key occurs twice, and afterwards each lookup by either key and the iteration
return exactly the triples of the list. -/
theorem C25_two_key_map (ops : List (MapOp K A V)) :
    ∃ outs m, (∅ : MKM K A V).exec ops = .ok (outs, m) ∧
      List.Forall₂ MapOut.Agrees outs (RefMap.exec [] ops).1 ∧
      RefMap.Distinct (RefMap.exec [] ops).2 ∧
      (∀ k a v, m.getEntry k = some (a, v) ↔ (k, a, v) ∈ (RefMap.exec [] ops).2) ∧
      (∀ k v, m.get k = some v ↔ ∃ a, (k, a, v) ∈ (RefMap.exec [] ops).2) ∧
      (∀ a v, m.getAlt a = some v ↔ ∃ k, (k, a, v) ∈ (RefMap.exec [] ops).2) ∧
      (∀ k, m.contains k = true ↔ ∃ a v, (k, a, v) ∈ (RefMap.exec [] ops).2) ∧
      (∀ a, m.containsAlt a = true ↔ ∃ k v, (k, a, v) ∈ (RefMap.exec [] ops).2) ∧
      (m.isEmpty = true ↔ (RefMap.exec [] ops).2 = []) ∧
      ∃ r, m.iter = .ok r ∧ r.Perm (RefMap.exec [] ops).2 ∧ r.Pairwise (fun x y => TOrd.lt x.1 y.1 = true) := by
  have h0 : MKM.Ref (∅ : MKM K A V) [] :=
    ⟨MKM.wf_empty, fun _ _ _ => ⟨fun h => absurd h MKM.not_has_empty, fun h => by cases h⟩, List.nodup_nil, List.nodup_nil⟩
  obtain ⟨outs, m, h1, h2, h3⟩ := h0.exec ops
  refine ⟨outs, m, h1, h2, h3.distinct, ?_, ?_, ?_, ?_, ?_, ?_, ?_⟩
  · intro k a v; rw [MKM.getEntry_eq, h3.has]
  · intro k v; rw [MKM.get_eq]; simp only [h3.has]
  · intro a v; rw [MKM.getAlt_eq h3.wf]; simp only [h3.has]
  · intro k; rw [MKM.contains_eq h3.wf]; simp only [h3.has]
  · intro a; rw [MKM.containsAlt_eq h3.wf]; simp only [h3.has]
  · unfold MKM.isEmpty FMap.isEmpty
    rw [List.isEmpty_iff, List.eq_nil_iff_forall_not_mem, List.eq_nil_iff_forall_not_mem]
    constructor
    · rintro hn ⟨k, a, v⟩ hx
      exact hn (k, a) (FMap.mem_toList.2 ((h3.has k a v).2 hx).1)
    · rintro hn ⟨k, a⟩ hx
      have hk := FMap.mem_toList.1 hx
      obtain ⟨v, hv⟩ := h3.wf.alt_of_key hk
      exact hn (k, a, v) ((h3.has k a v).1 ⟨hk, hv⟩)
  · obtain ⟨r, e1, e2, e3⟩ := MKM.iter_total h3.wf
    refine ⟨r, e1, ?_, e3⟩
    have hn : r.Nodup := by
      unfold List.Nodup
      exact e3.imp (fun {x y} (h : TOrd.lt x.1 y.1 = true) (e : x = y) => TOrd.ne_of_lt h (by rw [e]))
    rw [List.perm_ext_iff_of_nodup hn (MKM.nodup_of_distinct h3.distinct)]
    rintro ⟨k, a, v⟩
    rw [e2, h3.has]

/-- Collecting is inserting one after the other, as long as no key and no alternative key occurs twice. -/
theorem MKM.collect_ref {m : MKM K A V} {l l' : List (K × A × V)} (h : MKM.Ref m l) (hd : RefMap.Distinct (l' ++ l)) :
    ∃ l'', l''.Perm (l' ++ l) ∧
      MKM.Ref (l'.foldl (fun m x => (⟨m.byAlt.insert x.2.1 x.2.2, m.byKey.insert x.1 x.2.1⟩ : MKM K A V)) m) l'' := by
  induction l' generalizing m l with
  | nil => exact ⟨l, .refl _, h⟩
  | cons x t ih =>
    obtain ⟨k, a, v⟩ := x
    have h1 := hd.1
    have h2 := hd.2
    simp only [List.cons_append, List.map_cons, List.map_append, List.nodup_cons, List.mem_append, not_or] at h1 h2
    have e1 : m.byAlt.get a = none := FMap.contains_eq_false.1 (by
      rw [← h.any_alt, List.any_eq_false]
      intro y hy e
      exact h2.1.2 (List.mem_map.2 ⟨y, hy, by simpa using e⟩))
    have e2 : m.byKey.get k = none := FMap.contains_eq_false.1 (by
      rw [← h.any_key, List.any_eq_false]
      intro y hy e
      exact h1.1.2 (List.mem_map.2 ⟨y, hy, by simpa using e⟩))
    have ht := (MKM.tryInsert_ok (v := v)).2 ⟨e1, e2, rfl⟩
    have hp : (t ++ (k, a, v) :: l).Perm ((k, a, v) :: (t ++ l)) := List.perm_middle
    have hd' : RefMap.Distinct (t ++ (k, a, v) :: l) := ⟨(hp.map _).nodup_iff.2 hd.1, (hp.map _).nodup_iff.2 hd.2⟩
    have hd1 : RefMap.Distinct ((k, a, v) :: l) :=
      ⟨hd'.1.sublist ((List.sublist_append_right t _).map _), hd'.2.sublist ((List.sublist_append_right t _).map _)⟩
    obtain ⟨l'', hp'', hr⟩ := ih (l := (k, a, v) :: l)
      ⟨MKM.tryInsert_wf h.wf ht, fun k' a' v' => by rw [MKM.tryInsert_has h.wf ht, h.has]; simp, hd1⟩ hd'
    exact ⟨l'', hp''.trans hp, hr⟩

/-- **C25.** A map collected from triples in which no key and no alternative key occurs twice contains exactly these. -/
theorem C25_collected {l : List (K × A × V)} (hd : RefMap.Distinct l) :
    (∀ k a v, (MKM.fromIter l).getEntry k = some (a, v) ↔ (k, a, v) ∈ l) ∧
    (∀ a v, (MKM.fromIter l).getAlt a = some v ↔ ∃ k, (k, a, v) ∈ l) ∧
    ∃ r, (MKM.fromIter l).iter = .ok r ∧ ∀ x, x ∈ r ↔ x ∈ l := by
  have h0 : MKM.Ref (∅ : MKM K A V) [] :=
    ⟨MKM.wf_empty, fun _ _ _ => ⟨fun h => absurd h MKM.not_has_empty, fun h => by cases h⟩, List.nodup_nil, List.nodup_nil⟩
  obtain ⟨l', hp, hr⟩ := MKM.collect_ref h0 (l' := l) (by rw [List.append_nil]; exact hd)
  rw [List.append_nil] at hp
  have hh : ∀ k a v, (MKM.fromIter l).Has k a v ↔ (k, a, v) ∈ l := fun k a v => (hr.has k a v).trans hp.mem_iff
  refine ⟨fun k a v => by rw [MKM.getEntry_eq, hh], fun a v => ?_, ?_⟩
  · refine (MKM.getAlt_eq hr.wf).trans ?_; exact exists_congr fun k => hh k a v
  · obtain ⟨r, e1, e2, _⟩ := MKM.iter_total hr.wf
    exact ⟨r, e1, fun ⟨k, a, v⟩ => (e2 k a v).trans (hh k a v)⟩

/-! ## The registry of tokens (`DedupMultiKeyMap`), which only grows -/

/-- Insert a list of triples, ignoring rejected ones. -/
def DMKM.insertAll (m : DMKM K A V) : List (K × A × V) → DMKM K A V
  | [] => m
  | (k, a, v) :: t => match m.tryInsert k a v with
    | .ok m' => DMKM.insertAll m' t
    | .error _ => DMKM.insertAll m t

/-- The reference: keep the triples whose keys are both new. -/
def RefMap.insertAll (l : List (K × A × V)) : List (K × A × V) → List (K × A × V)
  | [] => l
  | (k, a, v) :: t =>
    if l.any (fun x => x.1 == k || x.2.1 == a) then RefMap.insertAll l t else RefMap.insertAll ((k, a, v) :: l) t

theorem dmkm_insertAll {m : DMKM K A V} {l : List (K × A × V)} (w : m.WF)
    (h : ∀ k a v, m.Has k a v ↔ (k, a, v) ∈ l) (d : RefMap.Distinct l) (xs : List (K × A × V)) :
    (m.insertAll xs).WF ∧ (∀ k a v, (m.insertAll xs).Has k a v ↔ (k, a, v) ∈ RefMap.insertAll l xs) ∧
      RefMap.Distinct (RefMap.insertAll l xs) := by
  induction xs generalizing m l with
  | nil => exact ⟨w, h, d⟩
  | cons x t ih =>
    obtain ⟨k, a, v⟩ := x
    unfold DMKM.insertAll RefMap.insertAll
    cases ht : m.tryInsert k a v with
    | ok m' =>
      have hf := MKM.tryInsert_fresh (DMKM.tryInsert_map.1 ht)
      have hk : ∀ a' v', (k, a', v') ∉ l := fun a' v' hm => hf.1 a' (k, v') ((h _ _ _).2 hm)
      have ha : ∀ k' v', (k', a, v') ∉ l := fun k' v' hm => hf.2 k' (k', v') ((h _ _ _).2 hm)
      have hany : ¬ (l.any (fun x => x.1 == k || x.2.1 == a)) = true := by
        rw [List.any_eq_true]
        rintro ⟨⟨k', a', v'⟩, hx, he⟩
        simp only [Bool.or_eq_true, beq_iff_eq] at he
        rcases he with rfl | rfl
        · exact hk _ _ hx
        · exact ha _ _ hx
      rw [if_neg hany]
      refine ih (DMKM.tryInsert_wf w ht) ?_ ⟨?_, ?_⟩
      · intro k' a' v'
        rw [DMKM.tryInsert_has w ht, h]; simp
      · rw [List.map_cons, List.nodup_cons]
        refine ⟨?_, d.1⟩
        intro hm
        obtain ⟨⟨k', a', v'⟩, hx, rfl⟩ := List.mem_map.1 hm
        exact hk _ _ hx
      · rw [List.map_cons, List.nodup_cons]
        refine ⟨?_, d.2⟩
        intro hm
        obtain ⟨⟨k', a', v'⟩, hx, rfl⟩ := List.mem_map.1 hm
        exact ha _ _ hx
    | error e =>
      have hany : (l.any (fun x => x.1 == k || x.2.1 == a)) = true := by
        rw [List.any_eq_true]
        unfold DMKM.tryInsert MKM.tryInsert at ht
        split at ht
        · rename_i hc
          obtain ⟨k', v', hh⟩ := (DMKM.containsAlt_eq w).1 hc
          exact ⟨(k', a, v'), (h _ _ _).1 hh, by simp⟩
        · split at ht
          · rename_i hc
            obtain ⟨a', ha'⟩ := FMap.contains_eq_true.1 hc
            obtain ⟨⟨k', v'⟩, hv⟩ := w.map.alt_of_key ha'
            have := w.dedup ⟨ha', hv⟩
            simp only at this
            subst this
            exact ⟨(k', a', v'), (h _ _ _).1 ⟨ha', hv⟩, by simp⟩
          · cases ht
      rw [if_pos hany]
      exact ih w h d

/-- **C25** for the token registry: after any sequence of attempted insertions it holds exactly the triples whose keys
were both new when they were inserted; lookups by either key agree with them and iteration never panics. -/
theorem C25_registry (xs : List (K × A × V)) :
    let m := (∅ : DMKM K A V).insertAll xs
    let l := RefMap.insertAll [] xs
    RefMap.Distinct l ∧
      (∀ k a v, m.getEntry k = some (a, v) ↔ (k, a, v) ∈ l) ∧
      (∀ k a v, m.getEntryAlt a = some (k, v) ↔ (k, a, v) ∈ l) ∧
      (∀ k v, m.get k = some v ↔ ∃ a, (k, a, v) ∈ l) ∧ (∀ a v, m.getAlt a = some v ↔ ∃ k, (k, a, v) ∈ l) ∧
      (∀ a, m.containsAlt a = true ↔ ∃ k v, (k, a, v) ∈ l) ∧
      ∃ r, m.iter = .ok r ∧ r.Perm l := by
  obtain ⟨h1, h2, h3⟩ := dmkm_insertAll (m := (∅ : DMKM K A V)) (l := []) DMKM.wf_empty
    (fun _ _ _ => ⟨fun h => absurd h DMKM.not_has_empty, fun h => by cases h⟩) ⟨List.nodup_nil, List.nodup_nil⟩ xs
  refine ⟨h3, ?_, ?_, ?_, ?_, ?_, ?_⟩
  · intro k a v; rw [DMKM.getEntry_eq h1, h2]
  · intro k a v; rw [DMKM.getEntryAlt_eq h1, h2]
  · intro k v; rw [DMKM.get_eq h1]; simp only [h2]
  · intro a v; rw [DMKM.getAlt_eq h1]; simp only [h2]
  · intro a; rw [DMKM.containsAlt_eq h1]; simp only [h2]
  · obtain ⟨r, e1, e2, e3⟩ := DMKM.iter_total h1
    refine ⟨r, e1, ?_⟩
    have hn : r.Nodup := by
      unfold List.Nodup
      exact e3.imp (fun {x y} (h : TOrd.lt x.1 y.1 = true) (e : x = y) => TOrd.ne_of_lt h (by rw [e]))
    rw [List.perm_ext_iff_of_nodup hn (MKM.nodup_of_distinct h3)]
    rintro ⟨k, a, v⟩
    rw [e2, h2]

/-- Collecting two triples. -/
example : (MKM.fromIter [(1, 10, 5), (2, 20, 5)]).getEntry 2 = some (20, 5) ∧ (MKM.fromIter [(1, 10, 5), (2, 20, 5)]).getAlt 10 = some 5 :=
  have h := C25_collected (l := [(1, 10, 5), (2, 20, 5)]) ⟨by decide, by decide⟩
  ⟨(h.1 2 20 5).2 (by decide), (h.2.1 10 5).2 ⟨1, by decide⟩⟩

/-- C25 on a concrete sequence: a conflict on each key, a removal and a drain. -/
example : (RefMap.exec ([] : List (Nat × Nat × Nat))
    [.insert 1 10 100, .insert 1 11 0, .insert 2 10 0, .insert 2 20 200, .remove 1, .insert 1 10 7, .drain (· == 2)]).2
    = [(1, 10, 7)] := by decide

end EvmMinter
