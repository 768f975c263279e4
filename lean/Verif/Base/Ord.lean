/-!
# Strict total orders used as map keys

`BTreeMap`/`BTreeSet` in the code are keyed by types with a derived `Ord`. We only need a strict total
order; the class below is kept minimal so that it reduces in the kernel.
-/

namespace EvmMinter

/-- Strict total order (models Rust's `Ord` for key types). -/
class TOrd (α : Type) where
  lt : α → α → Bool
  irrefl : ∀ a, lt a a = false
  trans : ∀ a b c, lt a b = true → lt b c = true → lt a c = true
  tri : ∀ a b, lt a b = false → lt b a = false → a = b

namespace TOrd

variable {α β : Type}

theorem asymm [TOrd α] {a b : α} (h : lt a b = true) : lt b a = false := by
  cases h' : lt b a
  · rfl
  · have := trans a b a h h'
    rw [irrefl] at this
    exact absurd this (by decide)

theorem ne_of_lt [TOrd α] {a b : α} (h : lt a b = true) : a ≠ b := by
  intro e
  subst e
  rw [irrefl] at h
  exact absurd h (by decide)

theorem lt_of_not [TOrd α] {a b : α} (h : lt a b = false) (hne : a ≠ b) : lt b a = true := by
  cases h' : lt b a
  · exact absurd (tri a b h h') hne
  · rfl

instance : TOrd Nat where
  lt a b := decide (a < b)
  irrefl a := by simp
  trans a b c := by simp only [decide_eq_true_eq]; omega
  tri a b := by simp only [decide_eq_false_iff_not]; omega

instance : TOrd Unit where
  lt _ _ := false
  irrefl _ := rfl
  trans _ _ _ h := absurd h (by decide)
  tri _ _ _ _ := rfl

/-- Lexicographic order on pairs (Rust's derived `Ord` on structs with two fields). -/
instance [TOrd α] [TOrd β] : TOrd (α × β) where
  lt x y := lt x.1 y.1 || (!lt y.1 x.1 && lt x.2 y.2)
  irrefl x := by simp [irrefl]
  trans x y z := by
    intro h1 h2
    simp only [Bool.or_eq_true, Bool.and_eq_true, Bool.not_eq_true'] at *
    rcases h1 with h1 | ⟨h1, h1'⟩
    · rcases h2 with h2 | ⟨h2, h2'⟩
      · exact .inl (trans _ _ _ h1 h2)
      · left
        cases hyz : lt y.1 z.1
        · have := tri _ _ hyz h2
          rw [← this]; exact h1
        · exact trans _ _ _ h1 hyz
    · rcases h2 with h2 | ⟨h2, h2'⟩
      · left
        cases hxy : lt x.1 y.1
        · have := tri _ _ hxy h1
          rw [this]; exact h2
        · exact trans _ _ _ hxy h2
      · cases hxy : lt x.1 y.1
        · have e1 := tri _ _ hxy h1
          cases hyz : lt y.1 z.1
          · have e2 := tri _ _ hyz h2
            right
            rw [e1, e2]
            exact ⟨irrefl _, trans _ _ _ h1' h2'⟩
          · left; rw [e1]; exact hyz
        · left
          cases hyz : lt y.1 z.1
          · have e2 := tri _ _ hyz h2
            rw [← e2]; exact hxy
          · exact trans _ _ _ hxy hyz
  tri x y := by
    intro h1 h2
    simp only [Bool.or_eq_false_iff, Bool.and_eq_false_iff, Bool.not_eq_false'] at *
    have e := tri _ _ h1.1 h2.1
    rcases h1.2 with h | h
    · rw [h] at h2; exact absurd h2.1 (by decide)
    · rcases h2.2 with h' | h'
      · rw [h'] at h1; exact absurd h1.1 (by decide)
      · exact Prod.ext e (tri _ _ h h')

/-- Lexicographic order on lists. -/
def listLt [TOrd α] : List α → List α → Bool
  | [], [] => false
  | [], _ :: _ => true
  | _ :: _, [] => false
  | a :: l, b :: m => lt a b || (!lt b a && listLt l m)

instance [TOrd α] : TOrd (List α) where
  lt := listLt
  irrefl l := by
    induction l with
    | nil => rfl
    | cons a l ih => simp [listLt, irrefl, ih]
  trans l := by
    induction l with
    | nil =>
      intro m n h1 h2
      cases m with
      | nil => exact absurd h1 (by simp [listLt])
      | cons b m =>
        cases n with
        | nil => exact absurd h2 (by simp [listLt])
        | cons c n => rfl
    | cons a l ih =>
      intro m n h1 h2
      cases m with
      | nil => exact absurd h1 (by simp [listLt])
      | cons b m =>
        cases n with
        | nil => exact absurd h2 (by simp [listLt])
        | cons c n =>
          simp only [listLt, Bool.or_eq_true, Bool.and_eq_true, Bool.not_eq_true'] at *
          rcases h1 with h1 | ⟨h1, h1'⟩
          · rcases h2 with h2 | ⟨h2, h2'⟩
            · exact .inl (trans _ _ _ h1 h2)
            · left
              cases hyz : lt b c
              · have := tri _ _ hyz h2
                rw [← this]; exact h1
              · exact trans _ _ _ h1 hyz
          · rcases h2 with h2 | ⟨h2, h2'⟩
            · left
              cases hxy : lt a b
              · have := tri _ _ hxy h1
                rw [this]; exact h2
              · exact trans _ _ _ hxy h2
            · cases hxy : lt a b
              · have e1 := tri _ _ hxy h1
                cases hyz : lt b c
                · have e2 := tri _ _ hyz h2
                  right
                  rw [e1, e2]
                  exact ⟨irrefl _, ih _ _ h1' h2'⟩
                · left; rw [e1]; exact hyz
              · left
                cases hyz : lt b c
                · have e2 := tri _ _ hyz h2
                  rw [← e2]; exact hxy
                · exact trans _ _ _ hxy hyz
  tri l := by
    induction l with
    | nil =>
      intro m h1 h2
      cases m with
      | nil => rfl
      | cons b m => exact absurd h1 (by simp [listLt])
    | cons a l ih =>
      intro m h1 h2
      cases m with
      | nil => exact absurd h2 (by simp [listLt])
      | cons b m =>
        simp only [listLt, Bool.or_eq_false_iff, Bool.and_eq_false_iff, Bool.not_eq_false'] at *
        have e := tri _ _ h1.1 h2.1
        rcases h1.2 with h | h
        · rw [h] at h2; exact absurd h2.1 (by decide)
        · rcases h2.2 with h' | h'
          · rw [h'] at h1; exact absurd h1.1 (by decide)
          · rw [e, ih _ h h']

/-- Order induced by an injection. -/
@[reducible] def ofInj [TOrd β] (f : α → β) (hf : ∀ a b, f a = f b → a = b) : TOrd α where
  lt a b := lt (f a) (f b)
  irrefl _ := irrefl _
  trans _ _ _ := trans _ _ _
  tri _ _ h1 h2 := hf _ _ (tri _ _ h1 h2)

end TOrd

end EvmMinter
