import Verif.Model.MultiKeyMap
/-!
# Lemmas on the two-key map
-/

namespace EvmMinter

variable {K A V : Type} [DecidableEq K] [TOrd K] [DecidableEq A] [TOrd A]

namespace MKM

/-- The two underlying maps are consistent. -/
structure WF (m : MKM K A V) : Prop where
  alt_of_key : ∀ {k a}, m.byKey.get k = some a → ∃ v, m.byAlt.get a = some v
  inj : ∀ {k k' a}, m.byKey.get k = some a → m.byKey.get k' = some a → k = k'
  key_of_alt : ∀ {a v}, m.byAlt.get a = some v → ∃ k, m.byKey.get k = some a

/-- The triple is stored. -/
def Has (m : MKM K A V) (k : K) (a : A) (v : V) : Prop :=
  m.byKey.get k = some a ∧ m.byAlt.get a = some v

theorem wf_empty : WF (∅ : MKM K A V) :=
  ⟨fun h => (nomatch h), fun h => (nomatch h), fun h => (nomatch h)⟩

theorem not_has_empty {k : K} {a : A} {v : V} : ¬ (∅ : MKM K A V).Has k a v := fun h => by cases h.1

theorem getEntry_eq {m : MKM K A V} {k : K} {a : A} {v : V} :
    m.getEntry k = some (a, v) ↔ m.Has k a v := by
  unfold getEntry Has
  cases h : m.byKey.get k with
  | none => simp
  | some a' =>
    cases h' : m.byAlt.get a' with
    | none => simp [h']; rintro rfl; simp [h']
    | some v' =>
      simp only [Option.bind_some, h', Option.map_some, Option.some.injEq, Prod.mk.injEq]
      constructor
      · rintro ⟨rfl, rfl⟩; exact ⟨rfl, h'⟩
      · rintro ⟨rfl, h2⟩; rw [h'] at h2; exact ⟨rfl, by simpa using h2⟩

theorem get_eq {m : MKM K A V} {k : K} {v : V} : m.get k = some v ↔ ∃ a, m.Has k a v := by
  unfold get Has
  cases h : m.byKey.get k with
  | none => simp
  | some a => simp

theorem getAlt_eq {m : MKM K A V} (w : m.WF) {a : A} {v : V} :
    m.getAlt a = some v ↔ ∃ k, m.Has k a v := by
  unfold getAlt Has
  constructor
  · intro h; obtain ⟨k, hk⟩ := w.key_of_alt h; exact ⟨k, hk, h⟩
  · rintro ⟨k, _, h⟩; exact h

theorem containsAlt_eq {m : MKM K A V} (w : m.WF) {a : A} :
    m.containsAlt a = true ↔ ∃ k v, m.Has k a v := by
  unfold containsAlt
  rw [FMap.contains_eq_true]
  constructor
  · rintro ⟨v, h⟩; obtain ⟨k, hk⟩ := w.key_of_alt h; exact ⟨k, v, hk, h⟩
  · rintro ⟨k, v, _, h⟩; exact ⟨v, h⟩

theorem contains_eq {m : MKM K A V} (w : m.WF) {k : K} :
    m.contains k = true ↔ ∃ a v, m.Has k a v := by
  unfold contains
  rw [FMap.contains_eq_true]
  constructor
  · rintro ⟨a, h⟩; obtain ⟨v, hv⟩ := w.alt_of_key h; exact ⟨a, v, h, hv⟩
  · rintro ⟨a, v, h, _⟩; exact ⟨a, h⟩

theorem Has.unique_key {m : MKM K A V} {k : K} {a a' : A} {v v' : V}
    (h : m.Has k a v) (h' : m.Has k a' v') : a = a' ∧ v = v' := by
  have e : a = a' := by have := h.1.symm.trans h'.1; simpa using this
  subst e
  have := h.2.symm.trans h'.2
  exact ⟨rfl, by simpa using this⟩

theorem Has.unique_alt {m : MKM K A V} (w : m.WF) {k k' : K} {a : A} {v v' : V}
    (h : m.Has k a v) (h' : m.Has k' a v') : k = k' ∧ v = v' := by
  refine ⟨w.inj h.1 h'.1, ?_⟩
  have := h.2.symm.trans h'.2
  simpa using this

theorem tryInsert_ok {m m' : MKM K A V} {k : K} {a : A} {v : V} :
    m.tryInsert k a v = .ok m' ↔
      m.byAlt.get a = none ∧ m.byKey.get k = none ∧ m' = ⟨m.byAlt.insert a v, m.byKey.insert k a⟩ := by
  unfold tryInsert
  cases h : m.byAlt.get a with
  | some x => simp [FMap.contains, h]
  | none =>
    cases h' : m.byKey.get k with
    | some x => simp [FMap.contains, h, h']
    | none => simp [FMap.contains, h, h', eq_comm]

theorem tryInsert_wf {m m' : MKM K A V} (w : m.WF) {k : K} {a : A} {v : V}
    (h : m.tryInsert k a v = .ok m') : m'.WF := by
  obtain ⟨ha, hk, rfl⟩ := tryInsert_ok.1 h
  constructor
  · intro k' a' h'
    simp only [FMap.get_insert] at h' ⊢
    by_cases e : a' = a
    · exact ⟨v, by simp [e]⟩
    · rw [if_neg e]
      split at h'
      · simp at h'; exact absurd h'.symm e
      · exact w.alt_of_key h'
  · intro k1 k2 a' h1 h2
    simp only [FMap.get_insert] at h1 h2
    split at h1 <;> split at h2
    · simp_all
    · obtain ⟨x, hx⟩ := w.alt_of_key h2; simp at h1; subst h1; simp [ha] at hx
    · obtain ⟨x, hx⟩ := w.alt_of_key h1; simp at h2; subst h2; simp [ha] at hx
    · exact w.inj h1 h2
  · intro a' v' h'
    simp only [FMap.get_insert] at h' ⊢
    split at h'
    · rename_i e; exact ⟨k, by simp [e]⟩
    · obtain ⟨k', hk'⟩ := w.key_of_alt h'
      refine ⟨k', ?_⟩
      rw [if_neg]
      · exact hk'
      · rintro rfl; simp [hk] at hk'

theorem tryInsert_has {m m' : MKM K A V} (w : m.WF) {k : K} {a : A} {v : V}
    (h : m.tryInsert k a v = .ok m') {k' : K} {a' : A} {v' : V} :
    m'.Has k' a' v' ↔ (k' = k ∧ a' = a ∧ v' = v) ∨ m.Has k' a' v' := by
  obtain ⟨ha, hk, rfl⟩ := tryInsert_ok.1 h
  unfold Has
  simp only [FMap.get_insert]
  constructor
  · rintro ⟨h1, h2⟩
    split at h1
    · simp at h1; subst h1; simp at h2; simp_all
    · obtain ⟨x, hx⟩ := w.alt_of_key h1
      have : a' ≠ a := by rintro rfl; simp [ha] at hx
      rw [if_neg this] at h2
      exact .inr ⟨h1, h2⟩
  · rintro (⟨rfl, rfl, rfl⟩ | ⟨h1, h2⟩)
    · simp
    · have e1 : k' ≠ k := by rintro rfl; simp [hk] at h1
      have e2 : a' ≠ a := by rintro rfl; simp [ha] at h2
      simp [e1, e2, h1, h2]

theorem tryInsert_fresh {m m' : MKM K A V} {k : K} {a : A} {v : V}
    (h : m.tryInsert k a v = .ok m') :
    (∀ a' v', ¬ m.Has k a' v') ∧ (∀ k' v', ¬ m.Has k' a v') := by
  obtain ⟨ha, hk, rfl⟩ := tryInsert_ok.1 h
  constructor
  · intro a' v' hh; exact absurd hh.1 (by simp [hk])
  · intro k' v' hh; exact absurd hh.2 (by simp [ha])

theorem removeEntry_ok {m m' : MKM K A V} {k : K} {o : Option (K × A × V)}
    (h : m.removeEntry k = .ok (o, m')) :
    (o = none ∧ m' = m ∧ ∀ a v, ¬ m.Has k a v) ∨
    (∃ a v, o = some (k, a, v) ∧ m.Has k a v ∧ m' = ⟨m.byAlt.erase a, m.byKey.erase k⟩) := by
  unfold removeEntry at h
  cases hk : m.byKey.get k with
  | none =>
    rw [hk] at h
    simp only [Except.ok.injEq, Prod.mk.injEq] at h
    exact .inl ⟨h.1.symm, h.2.symm, fun a v hh => by have := hh.1; simp [hk] at this⟩
  | some a =>
    rw [hk] at h
    simp only [Res.bind_ok, Res.expect_ok, Res.pure_ok, Prod.mk.injEq] at h
    obtain ⟨v, hv, h1, h2⟩ := h
    exact .inr ⟨a, v, h1.symm, ⟨hk, hv⟩, h2.symm⟩

theorem removeEntry_total {m : MKM K A V} (w : m.WF) (k : K) : ∃ o m', m.removeEntry k = .ok (o, m') := by
  unfold removeEntry
  cases hk : m.byKey.get k with
  | none => exact ⟨_, _, rfl⟩
  | some a =>
    obtain ⟨v, hv⟩ := w.alt_of_key hk
    exact ⟨some (k, a, v), _, by simp [hv, expect, bind, Except.bind, pure, Except.pure]; rfl⟩

theorem erase_wf {m : MKM K A V} (w : m.WF) {k : K} {a : A} {v : V} (h : m.Has k a v) :
    (⟨m.byAlt.erase a, m.byKey.erase k⟩ : MKM K A V).WF := by
  constructor
  · intro k' a' h'
    simp only [FMap.get_erase] at h' ⊢
    split at h'
    · cases h'
    · rename_i ne
      have : a' ≠ a := by rintro rfl; exact ne (w.inj h' h.1)
      rw [if_neg this]; exact w.alt_of_key h'
  · intro k1 k2 a' h1 h2
    simp only [FMap.get_erase] at h1 h2
    split at h1
    · cases h1
    · split at h2
      · cases h2
      · exact w.inj h1 h2
  · intro a' v' h'
    simp only [FMap.get_erase] at h' ⊢
    split at h'
    · cases h'
    · rename_i ne
      obtain ⟨k', hk'⟩ := w.key_of_alt h'
      refine ⟨k', ?_⟩
      rw [if_neg]; · exact hk'
      · rintro rfl; have := hk'.symm.trans h.1; simp at this; exact ne this

theorem erase_has {m : MKM K A V} (w : m.WF) {k : K} {a : A} {v : V} (h : m.Has k a v)
    {k' : K} {a' : A} {v' : V} :
    (⟨m.byAlt.erase a, m.byKey.erase k⟩ : MKM K A V).Has k' a' v' ↔ k' ≠ k ∧ m.Has k' a' v' := by
  unfold Has
  simp only [FMap.get_erase]
  constructor
  · rintro ⟨h1, h2⟩
    split at h1
    · cases h1
    · rename_i ne
      split at h2
      · cases h2
      · exact ⟨ne, h1, h2⟩
  · rintro ⟨ne, h1, h2⟩
    rw [if_neg ne, if_neg]
    · exact ⟨h1, h2⟩
    · rintro rfl; exact ne (w.inj h1 h.1)

theorem removeEntry_wf {m m' : MKM K A V} (w : m.WF) {k : K} {o : Option (K × A × V)}
    (h : m.removeEntry k = .ok (o, m')) : m'.WF := by
  rcases removeEntry_ok h with ⟨_, rfl, _⟩ | ⟨a, v, _, hh, rfl⟩
  · exact w
  · exact erase_wf w hh

theorem removeEntry_has {m m' : MKM K A V} (w : m.WF) {k : K} {o : Option (K × A × V)}
    (h : m.removeEntry k = .ok (o, m')) {k' : K} {a' : A} {v' : V} :
    m'.Has k' a' v' ↔ k' ≠ k ∧ m.Has k' a' v' := by
  rcases removeEntry_ok h with ⟨_, rfl, hn⟩ | ⟨a, v, _, hh, rfl⟩
  · constructor
    · intro h'; exact ⟨fun e => hn _ _ (e ▸ h'), h'⟩
    · exact fun h' => h'.2
  · exact erase_has w hh

theorem modify_some {m m' : MKM K A V} {k : K} {f : V → V} (h : m.modify k f = some m') :
    ∃ a v, m.Has k a v ∧ m' = { m with byAlt := m.byAlt.insert a (f v) } := by
  unfold modify at h
  simp only [Option.bind_eq_some_iff, Option.map_eq_some_iff] at h
  obtain ⟨a, ha, v, hv, rfl⟩ := h
  exact ⟨a, v, ⟨ha, hv⟩, rfl⟩

theorem modify_none {m : MKM K A V} {k : K} {f : V → V} (h : m.modify k f = none) :
    ∀ a v, ¬ m.Has k a v := by
  intro a v hh
  unfold modify at h
  simp [hh.1, hh.2] at h

theorem update_wf {m : MKM K A V} (w : m.WF) {k : K} {a : A} {v v' : V} (h : m.Has k a v) :
    ({ m with byAlt := m.byAlt.insert a v' } : MKM K A V).WF := by
  constructor
  · intro k' a' h'
    simp only [FMap.get_insert] at h' ⊢
    split
    · exact ⟨_, rfl⟩
    · exact w.alt_of_key h'
  · exact w.inj
  · intro a' v'' h'
    simp only [FMap.get_insert] at h' ⊢
    split at h'
    · rename_i e; exact ⟨k, e ▸ h.1⟩
    · exact w.key_of_alt h'

theorem update_has {m : MKM K A V} (w : m.WF) {k : K} {a : A} {v v' : V} (h : m.Has k a v)
    {k1 : K} {a1 : A} {v1 : V} :
    ({ m with byAlt := m.byAlt.insert a v' } : MKM K A V).Has k1 a1 v1 ↔
      (k1 = k ∧ a1 = a ∧ v1 = v') ∨ (k1 ≠ k ∧ m.Has k1 a1 v1) := by
  unfold Has
  simp only [FMap.get_insert]
  constructor
  · rintro ⟨h1, h2⟩
    split at h2
    · rename_i e; subst e
      exact .inl ⟨w.inj h1 h.1, rfl, by simpa using h2.symm⟩
    · rename_i ne
      exact .inr ⟨fun e => ne (by subst e; have := h1.symm.trans h.1; simpa using this), h1, h2⟩
  · rintro (⟨rfl, rfl, rfl⟩ | ⟨ne, h1, h2⟩)
    · exact ⟨h.1, by simp⟩
    · refine ⟨h1, ?_⟩
      rw [if_neg]; · exact h2
      · rintro rfl; exact ne (w.inj h1 h.1)

theorem modify_wf {m m' : MKM K A V} (w : m.WF) {k : K} {f : V → V} (h : m.modify k f = some m') :
    m'.WF := by
  obtain ⟨a, v, hh, rfl⟩ := modify_some h
  exact update_wf w hh

omit [DecidableEq K] [TOrd K] in
theorem resolve_total {byAlt : FMap A V} {l : List (K × A)} (h : ∀ x ∈ l, ∃ v, byAlt.get x.2 = some v) :
    ∃ r, resolve byAlt l = .ok r ∧ r.map (fun x => (x.1, x.2.1)) = l ∧
      ∀ x ∈ r, byAlt.get x.2.1 = some x.2.2 := by
  induction l with
  | nil => exact ⟨[], rfl, rfl, by simp⟩
  | cons y t ih =>
    obtain ⟨k, a⟩ := y
    obtain ⟨v, hv⟩ := h (k, a) (by simp)
    obtain ⟨r, h1, h2, h3⟩ := ih (fun x hx => h x (by simp [hx]))
    refine ⟨(k, a, v) :: r, ?_, by simp [h2], ?_⟩
    · simp only at hv; simp [resolve, hv, expect, h1, bind, Except.bind, pure, Except.pure]
    · intro x hx
      rcases List.mem_cons.1 hx with rfl | hx
      · exact hv
      · exact h3 x hx

/-- Iteration does not panic and enumerates exactly the stored triples, ascending by key. -/
theorem iter_total {m : MKM K A V} (w : m.WF) :
    ∃ r, m.iter = .ok r ∧ (∀ k a v, (k, a, v) ∈ r ↔ m.Has k a v) ∧
      r.Pairwise (fun x y => TOrd.lt x.1 y.1 = true) := by
  obtain ⟨r, h1, h2, h3⟩ := resolve_total (byAlt := m.byAlt) (l := m.byKey.toList)
    (fun x hx => w.alt_of_key (FMap.mem_toList.1 (by simpa using hx)))
  refine ⟨r, h1, ?_, ?_⟩
  · intro k a v
    constructor
    · intro hx
      refine ⟨?_, h3 _ hx⟩
      have : (k, a) ∈ r.map (fun x => (x.1, x.2.1)) := List.mem_map.2 ⟨_, hx, rfl⟩
      rw [h2] at this
      exact FMap.mem_toList.1 this
    · rintro ⟨hk, hv⟩
      have : (k, a) ∈ r.map (fun x => (x.1, x.2.1)) := by rw [h2]; exact FMap.mem_toList.2 hk
      obtain ⟨⟨k', a', v'⟩, hx, e⟩ := List.mem_map.1 this
      simp only [Prod.mk.injEq] at e
      obtain ⟨rfl, rfl⟩ := e
      have := h3 _ hx
      simp only at this
      rw [hv] at this
      simp only [Option.some.injEq] at this
      exact this ▸ hx
  · have := m.byKey.keys_sorted
    unfold FMap.keys at this
    have e : m.byKey.entries = r.map (fun x => (x.1, x.2.1)) := h2.symm
    rw [e, List.map_map, List.pairwise_map] at this
    exact this

end MKM

namespace DMKM

/-- Consistency of the wrapper: the stored copy of the key is the key. -/
structure WF (m : DMKM K A V) : Prop where
  map : m.map.WF
  dedup : ∀ {k a x}, m.map.Has k a x → x.1 = k

/-- The triple is stored. -/
def Has (m : DMKM K A V) (k : K) (a : A) (v : V) : Prop := m.map.Has k a (k, v)

theorem wf_empty : WF (∅ : DMKM K A V) := ⟨MKM.wf_empty, fun h => absurd h MKM.not_has_empty⟩

theorem not_has_empty {k : K} {a : A} {v : V} : ¬ (∅ : DMKM K A V).Has k a v := MKM.not_has_empty

theorem tryInsert_map {m m' : DMKM K A V} {k : K} {a : A} {v : V} :
    m.tryInsert k a v = .ok m' ↔ m.map.tryInsert k a (k, v) = .ok m'.map := by
  unfold tryInsert
  cases m' with
  | mk m'' =>
    cases m.map.tryInsert k a (k, v) with
    | error e => simp [Except.map]
    | ok x => simp [Except.map]

theorem tryInsert_wf {m m' : DMKM K A V} (w : m.WF) {k : K} {a : A} {v : V}
    (h : m.tryInsert k a v = .ok m') : m'.WF := by
  have h := tryInsert_map.1 h
  refine ⟨MKM.tryInsert_wf w.map h, ?_⟩
  intro k' a' x hh
  rcases (MKM.tryInsert_has w.map h).1 hh with ⟨rfl, rfl, rfl⟩ | hh
  · rfl
  · exact w.dedup hh

theorem tryInsert_has {m m' : DMKM K A V} (w : m.WF) {k : K} {a : A} {v : V}
    (h : m.tryInsert k a v = .ok m') {k' : K} {a' : A} {v' : V} :
    m'.Has k' a' v' ↔ (k' = k ∧ a' = a ∧ v' = v) ∨ m.Has k' a' v' := by
  have h := tryInsert_map.1 h
  unfold Has
  rw [MKM.tryInsert_has w.map h]
  simp only [Prod.mk.injEq]
  constructor
  · rintro (⟨rfl, rfl, _, rfl⟩ | h)
    · exact .inl ⟨rfl, rfl, rfl⟩
    · exact .inr h
  · rintro (⟨rfl, rfl, rfl⟩ | h)
    · exact .inl ⟨rfl, rfl, rfl, rfl⟩
    · exact .inr h

theorem containsAlt_eq {m : DMKM K A V} (w : m.WF) {a : A} :
    m.containsAlt a = true ↔ ∃ k v, m.Has k a v := by
  unfold containsAlt Has
  rw [MKM.containsAlt_eq w.map]
  constructor
  · rintro ⟨k, x, h⟩; have := w.dedup h; obtain ⟨k', v⟩ := x; simp only at this; subst this; exact ⟨k', v, h⟩
  · rintro ⟨k, v, h⟩; exact ⟨k, _, h⟩

theorem getEntryAlt_eq {m : DMKM K A V} (w : m.WF) {a : A} {k : K} {v : V} :
    m.getEntryAlt a = some (k, v) ↔ m.Has k a v := by
  unfold getEntryAlt Has
  rw [MKM.getAlt_eq w.map]
  constructor
  · rintro ⟨k', h⟩; have := w.dedup h; simp only at this; subst this; exact h
  · intro h; exact ⟨k, h⟩

theorem getEntry_eq {m : DMKM K A V} (w : m.WF) {a : A} {k : K} {v : V} :
    m.getEntry k = some (a, v) ↔ m.Has k a v := by
  unfold getEntry Has
  rw [Option.map_eq_some_iff]
  constructor
  · rintro ⟨⟨a', k', v'⟩, h, e⟩
    simp only [Prod.mk.injEq] at e
    obtain ⟨rfl, rfl⟩ := e
    have h := MKM.getEntry_eq.1 h
    have := w.dedup h; simp only at this; subst this; exact h
  · intro h; exact ⟨(a, k, v), MKM.getEntry_eq.2 h, rfl⟩

theorem get_eq {m : DMKM K A V} (w : m.WF) {k : K} {v : V} : m.get k = some v ↔ ∃ a, m.Has k a v := by
  unfold get Has
  rw [Option.map_eq_some_iff]
  constructor
  · rintro ⟨⟨k', v'⟩, h, rfl⟩
    obtain ⟨a, h⟩ := MKM.get_eq.1 h
    have := w.dedup h; simp only at this; subst this; exact ⟨a, h⟩
  · rintro ⟨a, h⟩; exact ⟨(k, v), MKM.get_eq.2 ⟨a, h⟩, rfl⟩

theorem getAlt_eq {m : DMKM K A V} (w : m.WF) {a : A} {v : V} :
    m.getAlt a = some v ↔ ∃ k, m.Has k a v := by
  unfold getAlt Has
  rw [Option.map_eq_some_iff]
  constructor
  · rintro ⟨⟨k', v'⟩, h, rfl⟩
    obtain ⟨k, h⟩ := (MKM.getAlt_eq w.map).1 h
    have := w.dedup h; simp only at this; subst this; exact ⟨k', h⟩
  · rintro ⟨k, h⟩; exact ⟨(k, v), (MKM.getAlt_eq w.map).2 ⟨k, h⟩, rfl⟩

theorem iter_total {m : DMKM K A V} (w : m.WF) :
    ∃ r, m.iter = .ok r ∧ (∀ k a v, (k, a, v) ∈ r ↔ m.Has k a v) ∧
      r.Pairwise (fun x y => TOrd.lt x.1 y.1 = true) := by
  obtain ⟨r, h1, h2, h3⟩ := MKM.iter_total w.map
  refine ⟨r.map fun x => (x.1, x.2.1, x.2.2.2), ?_, ?_, ?_⟩
  · unfold iter; rw [h1]; rfl
  · intro k a v
    rw [List.mem_map]
    constructor
    · rintro ⟨⟨k', a', k'', v'⟩, hx, e⟩
      simp only [Prod.mk.injEq] at e
      obtain ⟨rfl, rfl, rfl⟩ := e
      have h := (h2 _ _ _).1 hx
      have := w.dedup h; simp only at this; subst this; exact h
    · intro h; exact ⟨(k, a, k, v), (h2 _ _ _).2 h, rfl⟩
  · rw [List.pairwise_map]; exact h3

theorem Has.unique_key {m : DMKM K A V} {k : K} {a a' : A} {v v' : V}
    (h : m.Has k a v) (h' : m.Has k a' v') : a = a' ∧ v = v' := by
  have := MKM.Has.unique_key h h'
  simpa using this

theorem Has.unique_alt {m : DMKM K A V} (w : m.WF) {k k' : K} {a : A} {v v' : V}
    (h : m.Has k a v) (h' : m.Has k' a v') : k = k' ∧ v = v' := by
  have := MKM.Has.unique_alt w.map h h'
  simp at this; exact this

end DMKM

end EvmMinter
