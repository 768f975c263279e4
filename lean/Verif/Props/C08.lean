import Verif.Model.Ranges
import Verif.Lemmas.Sound
/-!
# C08: block ranges are split exactly

The blocks of a range are listed as plain numbers; a split is exact if listing the pieces one after the other gives the
blocks of the whole range, in order and without repetition.
-/

namespace EvmMinter
namespace Spec

/-- The block numbers from `a` up to and including `b`, in increasing order. -/
def blocks (r : BlockRange) : List Nat := List.range' r.start (r.stop + 1 - r.start)

/-- The blocks of an optional piece. -/
def blocks? : Option BlockRange → List Nat
  | none => []
  | some r => blocks r

/-- The pieces an iterator yields when it is called until it returns nothing. -/
inductive Yields : Chunks → List BlockRange → Prop
  | done (c c' : Chunks) (h : c.next = .ok (none, c')) : Yields c []
  | step (c c' : Chunks) (r : BlockRange) (l : List BlockRange) (h : c.next = .ok (some r, c')) (t : Yields c' l) :
      Yields c (r :: l)

end Spec
open Spec

theorem mem_blocks (r : BlockRange) (b : Nat) : b ∈ blocks r ↔ r.start ≤ b ∧ b ≤ r.stop := by
  have : r.start ≤ b ∧ b ≤ r.stop ↔ r.start ≤ b ∧ b < r.start + (r.stop + 1 - r.start) := by
    constructor <;> womega
  rw [this]; simp [blocks, List.mem_range'_1]

theorem blocks_sorted (r : BlockRange) : (blocks r).Pairwise (· < ·) := List.pairwise_lt_range'

theorem blocks_length (r : BlockRange) : (blocks r).length = r.stop + 1 - r.start := by simp [blocks]

theorem blocks_split (a b c : Nat) (h1 : a ≤ b) (h2 : b ≤ c + 1) (h : 0 < b) :
    blocks ⟨a, b - 1⟩ ++ blocks ⟨b, c⟩ = blocks ⟨a, c⟩ := by
  have e1 : b - 1 + 1 - a = b - a := by womega
  have e2 : c + 1 - a = (b - a) + (c + 1 - b) := by womega
  have e3 : b = a + (b - a) := by womega
  simp only [blocks]
  rw [e1, e2, ← List.range'_append_1, ← e3]

/-- Splitting at a point never panics; the left piece lists exactly the blocks below the point, the right one those from
the point on, and a piece is present only if it is not empty (for a non-empty range). -/
theorem C08_partition (r : BlockRange) (mid : Nat) :
    ∃ l q, r.partitionAt mid = .ok (l, q) ∧ blocks? l ++ blocks? q = blocks r ∧
      (∀ b, b ∈ blocks? l → b < mid) ∧ (∀ b, b ∈ blocks? q → mid ≤ b) ∧
      (r.start ≤ r.stop → (∀ p, l = some p → blocks p ≠ []) ∧ ∀ p, q = some p → blocks p ≠ []) := by
  have ne : ∀ p : BlockRange, p.start ≤ p.stop → blocks p ≠ [] := by
    intro p hp he
    have := blocks_length p
    rw [he] at this; simp only [List.length_nil] at this; womega
  unfold BlockRange.partitionAt
  by_cases h1 : mid ≤ r.start
  · refine ⟨none, some r, by rw [if_pos h1], by simp [blocks?], by simp [blocks?], ?_, ?_⟩
    · intro b hb; have := (mem_blocks r b).1 hb; womega
    · exact fun h => ⟨by simp, fun p hp => by cases hp; exact ne _ h⟩
  · by_cases h2 : mid > r.stop
    · refine ⟨some r, none, by rw [if_neg h1, if_pos h2], by simp [blocks?], ?_, by simp [blocks?], ?_⟩
      · intro b hb; have := (mem_blocks r b).1 hb; womega
      · exact fun h => ⟨fun p hp => by cases hp; exact ne _ h, by simp⟩
    · refine ⟨some ⟨r.start, mid - 1⟩, some ⟨mid, r.stop⟩, ?_, ?_, ?_, ?_, ?_⟩
      · rw [if_neg h1, if_neg h2]
        have : csub mid 1 = some (mid - 1) := by rw [csub_eq_some]; womega
        rw [this]; rfl
      · exact blocks_split _ _ _ (by womega) (by womega) (by womega)
      · intro b hb; have := (mem_blocks _ b).1 hb; simp only at this; womega
      · intro b hb; have := (mem_blocks _ b).1 hb; simp only at this; womega
      · intro _
        exact ⟨fun p hp => by cases hp; exact ne _ (by simp only; womega),
          fun p hp => by cases hp; exact ne _ (by simp only; womega)⟩

/-- Halving never panics for 256-bit ranges; the two halves list exactly the blocks of the range, every block of the left
half is below every block of the right one, the halves differ in length by at most one (the left one being the longer),
and a range of at least two blocks is properly split. -/
theorem C08_halves (r : BlockRange) (hr : r.stop < U256) :
    ∃ l q, r.halves = .ok (l, q) ∧ blocks? l ++ blocks? q = blocks r ∧
      (∀ b b', b ∈ blocks? l → b' ∈ blocks? q → b < b') ∧
      (r.start ≤ r.stop → (blocks? q).length ≤ (blocks? l).length ∧ (blocks? l).length ≤ (blocks? q).length + 1) ∧
      (r.start < r.stop → ∃ a b, l = some a ∧ q = some b ∧ blocks a ≠ [] ∧ blocks b ≠ []) := by
  unfold BlockRange.halves
  by_cases h : r.start ≥ r.stop
  · refine ⟨some r, none, by rw [if_pos h], by simp [blocks?], by simp [blocks?], ?_, fun h' => by womega⟩
    intro _
    have := blocks_length r
    simp only [blocks?, List.length_nil]; womega
  · rw [if_neg h]
    have e1 : csub r.stop r.start = some (r.stop - r.start) := by rw [csub_eq_some]; womega
    have e2 : cadd r.start ((r.stop - r.start) / 2) = some (r.start + (r.stop - r.start) / 2) := by
      rw [cadd_eq_some]; exact ⟨rfl, by womega⟩
    have e3 : cinc (r.start + (r.stop - r.start) / 2) = some (r.start + (r.stop - r.start) / 2 + 1) := by
      unfold cinc; rw [cadd_eq_some]; exact ⟨rfl, by womega⟩
    have e4 : csub (r.start + (r.stop - r.start) / 2 + 1) 1 = some (r.start + (r.stop - r.start) / 2) := by
      rw [csub_eq_some]
    have n1 : ¬ r.start + (r.stop - r.start) / 2 + 1 ≤ r.start := by womega
    have n2 : ¬ r.start + (r.stop - r.start) / 2 + 1 > r.stop := by womega
    refine ⟨some ⟨r.start, r.start + (r.stop - r.start) / 2⟩,
      some ⟨r.start + (r.stop - r.start) / 2 + 1, r.stop⟩, ?_, ?_, ?_, ?_, ?_⟩
    · rw [e1, show expect (some (r.stop - r.start)) "unreachable: end > start" = .ok (r.stop - r.start) from rfl]
      rw [Res.ok_bind, e2]
      rw [show expect (some (r.start + (r.stop - r.start) / 2)) "unreachable: mid < end"
        = .ok (r.start + (r.stop - r.start) / 2) from rfl, Res.ok_bind, e3]
      rw [show expect (some (r.start + (r.stop - r.start) / 2 + 1)) "unreachable: mid <= end"
        = .ok (r.start + (r.stop - r.start) / 2 + 1) from rfl, Res.ok_bind]
      unfold BlockRange.partitionAt
      rw [if_neg n1, if_neg n2, e4]; rfl
    · have := blocks_split r.start (r.start + (r.stop - r.start) / 2 + 1) r.stop (by womega) (by womega) (by womega)
      simpa [blocks?] using this
    · intro b b' hb hb'
      have h1 := (mem_blocks _ b).1 hb
      have h2 := (mem_blocks _ b').1 hb'
      simp only at h1 h2; womega
    · intro _
      simp only [blocks?, blocks_length]; womega
    · intro _
      refine ⟨_, _, rfl, rfl, ?_, ?_⟩
      · intro he
        have := blocks_length ⟨r.start, r.start + (r.stop - r.start) / 2⟩
        rw [he] at this; simp only [List.length_nil] at this; womega
      · intro he
        have := blocks_length ⟨r.start + (r.stop - r.start) / 2 + 1, r.stop⟩
        rw [he] at this; simp only [List.length_nil] at this; womega

/-- Joining two ranges that follow each other lists exactly the blocks of both; in general the result spans both. -/
theorem C08_join (r o : BlockRange) :
    (r.start ≤ r.stop → o.start ≤ o.stop → o.start = r.stop + 1 → blocks (r.joinWith o) = blocks r ++ blocks o) ∧
    ∀ b, b ∈ blocks r ∨ b ∈ blocks o → b ∈ blocks (r.joinWith o) := by
  constructor
  · intro h1 h2 h3
    have := blocks_split r.start o.start o.stop (by womega) (by womega) (by womega)
    have e : r.joinWith o = ⟨r.start, o.stop⟩ := by
      unfold BlockRange.joinWith
      rw [Nat.min_eq_left (by womega), Nat.max_eq_right (by womega)]
    rw [e, ← this]
    have e2 : (⟨r.start, o.start - 1⟩ : BlockRange) = r := by
      cases r; simp only [BlockRange.mk.injEq, true_and]; simp only at h3; womega
    rw [e2]
  · intro b hb
    rw [mem_blocks]
    simp only [mem_blocks] at hb
    simp only [BlockRange.joinWith]
    rcases hb with hb | hb <;> womega

theorem chunks_next (c : Chunks) (hs : c.size ≠ 0) (hr : c.range.stop < U256) :
    ∃ o c', c.next = .ok (o, c') ∧ c'.size = c.size ∧ c'.range.stop < U256 ∧
      (o = none ↔ c.exhausted = true ∨ c.range.stop < c.range.start) ∧
      ∀ r, o = some r → r.start = c.range.start ∧ r.start ≤ r.stop ∧ r.stop < r.start + c.size ∧
        blocks c.range = blocks r ++ (if c'.exhausted then [] else blocks c'.range) ∧
        (c'.exhausted = false → c'.range.start = r.stop + 1 ∧ c'.range.stop = c.range.stop ∧
          c'.range.start ≤ c'.range.stop) := by
  unfold Chunks.next
  by_cases h1 : c.exhausted = true
  · rw [if_pos h1]
    exact ⟨_, _, rfl, rfl, hr, by simp [h1], by simp⟩
  rw [if_neg h1]
  by_cases h2 : c.range.start > c.range.stop
  · rw [if_pos h2]
    exact ⟨_, _, rfl, rfl, hr, ⟨fun _ => .inr h2, fun _ => rfl⟩, by simp⟩
  rw [if_neg h2]
  have hU : U256 = u256Max + 1 := u256_eq
  by_cases h3 : c.range.start + c.size < U256
  · have e : (cadd c.range.start c.size).getD u256Max = c.range.start + c.size := by
      have : cadd c.range.start c.size = some (c.range.start + c.size) := by rw [cadd_eq_some]; exact ⟨rfl, h3⟩
      rw [this]; rfl
    simp only [e]
    have n1 : ¬ c.range.start + c.size ≤ c.range.start := by womega
    unfold BlockRange.partitionAt
    rw [if_neg n1]
    by_cases h4 : c.range.start + c.size > c.range.stop
    · rw [if_pos h4]
      refine ⟨some c.range, { c with exhausted := true }, rfl, rfl, hr, ?_, ?_⟩
      · simp only [reduceCtorEq, false_iff]
        rintro (h | h)
        · exact h1 h
        · exact h2 h
      · rintro r hr'
        cases hr'
        exact ⟨rfl, by womega, by womega, by simp, by simp⟩
    · rw [if_neg h4]
      have e4 : csub (c.range.start + c.size) 1 = some (c.range.start + c.size - 1) := by rw [csub_eq_some]; womega
      rw [e4]
      refine ⟨some ⟨c.range.start, c.range.start + c.size - 1⟩, { c with range := ⟨c.range.start + c.size, c.range.stop⟩ },
        rfl, rfl, hr, ?_, ?_⟩
      · simp only [reduceCtorEq, false_iff]
        rintro (h | h)
        · exact h1 h
        · exact h2 h
      · rintro r hr'
        cases hr'
        have := blocks_split c.range.start (c.range.start + c.size) c.range.stop (by womega) (by womega) (by womega)
        refine ⟨rfl, by simp only; womega, by simp only; womega, ?_, ?_⟩
        · simp only [h1, Bool.false_eq_true, if_false]
          exact this.symm
        · intro _
          simp only
          refine ⟨by womega, trivial, by womega⟩
  · have e : (cadd c.range.start c.size).getD u256Max = u256Max := by
      unfold cadd; rw [if_neg h3]; rfl
    simp only [e]
    unfold BlockRange.partitionAt
    by_cases h5 : u256Max ≤ c.range.start
    · rw [if_pos h5]
      refine ⟨some c.range, { c with exhausted := true }, rfl, rfl, hr, ?_, ?_⟩
      · simp only [reduceCtorEq, false_iff]
        rintro (h | h)
        · exact h1 h
        · exact h2 h
      · rintro r hr'
        cases hr'
        exact ⟨rfl, by womega, by womega, by simp, by simp⟩
    · rw [if_neg h5]
      by_cases h4 : u256Max > c.range.stop
      · rw [if_pos h4]
        refine ⟨some c.range, { c with exhausted := true }, rfl, rfl, hr, ?_, ?_⟩
        · simp only [reduceCtorEq, false_iff]
          rintro (h | h)
          · exact h1 h
          · exact h2 h
        · rintro r hr'
          cases hr'
          exact ⟨rfl, by womega, by womega, by simp, by simp⟩
      · rw [if_neg h4]
        have e4 : csub u256Max 1 = some (u256Max - 1) := by rw [csub_eq_some]; womega
        rw [e4]
        refine ⟨some ⟨c.range.start, u256Max - 1⟩, { c with range := ⟨u256Max, c.range.stop⟩ },
          rfl, rfl, hr, ?_, ?_⟩
        · simp only [reduceCtorEq, false_iff]
          rintro (h | h)
          · exact h1 h
          · exact h2 h
        · rintro r hr'
          cases hr'
          have := blocks_split c.range.start u256Max c.range.stop (by womega) (by womega) (by womega)
          refine ⟨rfl, by simp only; womega, by simp only; womega, ?_, ?_⟩
          · simp only [h1, Bool.false_eq_true, if_false]
            exact this.symm
          · intro _
            simp only
            refine ⟨by womega, trivial, by womega⟩

theorem chunks_yield (n : Nat) : ∀ c : Chunks, c.range.stop + 1 - c.range.start ≤ n → c.size ≠ 0 → c.range.stop < U256 →
    ∃ l, Yields c l ∧ l.flatMap blocks = (if c.exhausted then [] else blocks c.range) ∧
      ∀ p ∈ l, p.start ≤ p.stop ∧ p.stop < p.start + c.size := by
  induction n with
  | zero =>
    intro c hn hs hr
    obtain ⟨o, c', h, -, -, ho, -⟩ := chunks_next c hs hr
    have := ho.2 (.inr (by womega))
    subst this
    refine ⟨[], .done c c' h, ?_, by simp⟩
    split
    · rfl
    · have : blocks c.range = [] := List.length_eq_zero_iff.1 (by rw [blocks_length]; womega)
      simp [this]
  | succ n ih =>
    intro c hn hs hr
    obtain ⟨o, c', h, hs', hr', ho, hsome⟩ := chunks_next c hs hr
    cases o with
    | none =>
      refine ⟨[], .done c c' h, ?_, by simp⟩
      rcases ho.1 rfl with h | h
      · simp [h]
      · have : blocks c.range = [] := List.length_eq_zero_iff.1 (by rw [blocks_length]; womega)
        simp [this]
    | some r =>
      have hne : ¬ (c.exhausted = true ∨ c.range.stop < c.range.start) := fun hh => by simpa using ho.2 hh
      obtain ⟨g1, g2, g3, g4, g5⟩ := hsome r rfl
      have hex : c.exhausted = false := by
        cases hx : c.exhausted
        · rfl
        · exact absurd (.inl hx) hne
      by_cases hx : c'.exhausted = true
      · -- the last chunk: the next call returns nothing
        obtain ⟨o', c'', h', -, -, ho', -⟩ := chunks_next c' (by rw [hs']; exact hs) hr'
        have := ho'.2 (.inl hx)
        subst this
        refine ⟨[r], .step _ _ _ _ h (.done _ _ h'), ?_, ?_⟩
        · rw [hex, g4, hx]; simp
        · intro p hp
          rw [List.mem_singleton.1 hp]; exact ⟨g2, g3⟩
      · have hx : c'.exhausted = false := by simpa using hx
        obtain ⟨k1, k2, k3⟩ := g5 hx
        obtain ⟨l, hl, hb, hp⟩ := ih c' (by womega) (by rw [hs']; exact hs) hr'
        refine ⟨r :: l, .step _ _ _ _ h hl, ?_, ?_⟩
        · rw [List.flatMap_cons, hb, hex, g4, hx]; simp
        · intro p hp'
          rcases List.mem_cons.1 hp' with rfl | hp'
          · exact ⟨g2, g3⟩
          · have := hp p hp'; rw [hs'] at this; exact this

/-- Whatever pieces an iterator yields are determined by it. -/
theorem yields_unique (c : Chunks) (l l' : List BlockRange) (h : Yields c l) (h' : Yields c l') : l = l' := by
  induction h generalizing l' with
  | done c c' h =>
    cases h' with
    | done => rfl
    | step _ _ _ _ h2 => rw [h] at h2; simp at h2
  | step c c' r l h t ih =>
    cases h' with
    | done _ _ h2 => rw [h] at h2; simp at h2
    | step _ _ _ _ h2 t2 =>
      rw [h] at h2
      simp only [Except.ok.injEq, Prod.mk.injEq, Option.some.injEq] at h2
      obtain ⟨rfl, rfl⟩ := h2
      rw [ih _ t2]

/-- **C08.** For every 256-bit range and every chunk size other than zero the iterator never panics and ends; the chunks
it yields list exactly the blocks of the range, in increasing order and each once; every chunk is non-empty and has at
most the requested number of blocks. Chunk size zero is rejected. -/
theorem C08_chunks (r : BlockRange) (size : Nat) (hr : r.stop < U256) :
    (size = 0 → ∃ e, r.intoChunks size = .error e) ∧
    (size ≠ 0 → ∃ c l, r.intoChunks size = .ok c ∧ Yields c l ∧ (∀ l', Yields c l' → l' = l) ∧
      l.flatMap blocks = blocks r ∧ (blocks r).Pairwise (· < ·) ∧
      ∀ p ∈ l, blocks p ≠ [] ∧ (blocks p).length ≤ size) := by
  constructor
  · rintro rfl
    exact ⟨_, rfl⟩
  · intro hs
    obtain ⟨l, hl, hb, hp⟩ := chunks_yield _ ⟨r, size, false⟩ (Nat.le_refl _) hs hr
    refine ⟨⟨r, size, false⟩, l, ?_, hl, fun l' h' => yields_unique _ _ _ h' hl, by simpa using hb, blocks_sorted r, ?_⟩
    · have : (size != 0) = true := by simpa using hs
      simp only [BlockRange.intoChunks, ensure, this, if_true]; rfl
    · intro p hp'
      obtain ⟨h1, h2⟩ := hp p hp'
      refine ⟨?_, by rw [blocks_length]; simp only at h2; womega⟩
      intro he
      have := blocks_length p
      rw [he] at this; simp only [List.length_nil] at this; womega

/-- A range ending at the largest block number, in chunks of three: the last chunk is the single largest block. -/
example :
    (do
      let c ← (⟨u256Max - 3, u256Max⟩ : BlockRange).intoChunks 3
      let (a, c) ← c.next
      let (b, c) ← c.next
      let (d, _) ← c.next
      return (a, b, d)) = .ok (some ⟨u256Max - 3, u256Max - 1⟩, some ⟨u256Max, u256Max⟩, none) := by decide +kernel

/-- Five blocks are halved into three and two. -/
example : (⟨10, 14⟩ : BlockRange).halves = .ok (some ⟨10, 12⟩, some ⟨13, 14⟩) := by decide +kernel

end EvmMinter
