import Verif.Spec.Scrape
import Verif.Props.C08
import Verif.Props.C11
import Verif.Lemmas.Handlers
/-!
# The control flow of the scraper
-/

namespace EvmMinter
open Spec

/-- The ranges follow each other from block `a` to below block `b`. -/
def Adjacent : Nat → List BlockRange → Nat → Prop
  | a, [], b => a = b
  | a, r :: t, b => r.start = a ∧ r.start ≤ r.stop ∧ r.stop < U256 ∧ Adjacent (r.stop + 1) t b

/-- Number of blocks of the ranges. -/
def blockCount : List BlockRange → Nat
  | [] => 0
  | r :: t => (r.stop + 1 - r.start) + blockCount t

/-- Number of blocks of the chunks not yet taken. -/
def Chunks.left (c : Chunks) : Nat := if c.exhausted then 0 else c.range.stop + 1 - c.range.start

/-- The pieces of work of a task follow each other. -/
structure Query.WF (q : Query) : Prop where
  adj : ∃ b, Adjacent q.current.start (q.current :: q.rest) b ∧
    (q.chunks.exhausted = true ∨ q.chunks.range.start = b ∧ b ≤ q.chunks.range.stop)
  size : q.chunks.size ≠ 0
  bound : q.chunks.range.stop < U256

/-- Number of blocks left to query. -/
def Query.todo (q : Query) : Nat := blockCount (q.current :: q.rest) + q.chunks.left

/-- The answer settles the range that was asked for. -/
def Settles (r : BlockRange) : LogsAnswer → Prop
  | .logs _ => True
  | .tooLarge => r.start = r.stop
  | .failed => False

theorem nextChunk_ok (contract : Address) (topics : List Topic) (c : Chunks) (hs : c.size ≠ 0) (hb : c.range.stop < U256) :
    ∃ o, nextChunk contract topics c = .ok o ∧ ∀ q, o = some q →
      q.WF ∧ q.contractAddress = contract ∧ q.topics = topics ∧ q.current.start = c.range.start ∧ c.exhausted = false ∧
      q.rest = [] ∧ q.chunks.size = c.size ∧ q.current.stop + 1 - q.current.start ≤ c.size ∧ q.todo = c.left := by
  obtain ⟨o, c', h, h1, h2, h3, h4⟩ := chunks_next c hs hb
  unfold nextChunk
  rw [h, Res.ok_bind]
  cases o with
  | none => exact ⟨none, rfl, by simp⟩
  | some r =>
    obtain ⟨g1, g2, g3, g4, g5⟩ := h4 r rfl
    have hex : c.exhausted = false := by
      cases hx : c.exhausted
      · rfl
      · have := h3.2 (.inl hx); simp at this
    have hle : c.range.start ≤ c.range.stop := by
      rcases Nat.lt_or_ge c.range.stop c.range.start with hh | hh
      · have := h3.2 (.inr hh); simp at this
      · exact hh
    have hrs : r.stop ≤ c.range.stop := by
      have hm : r.stop ∈ blocks c.range := by
        rw [g4]; exact List.mem_append_left _ ((mem_blocks r _).2 ⟨g2, Nat.le_refl _⟩)
      exact ((mem_blocks _ _).1 hm).2
    refine ⟨some ⟨contract, topics, r, [], c'⟩, rfl, ?_⟩
    rintro q hq
    cases hq
    refine ⟨⟨⟨r.stop + 1, ⟨rfl, g2, by womega, rfl⟩, ?_⟩, by simpa [h1] using hs, h2⟩, rfl, rfl, g1, hex, rfl, h1, by simp only; womega, ?_⟩
    · cases hx : c'.exhausted
      · obtain ⟨k1, k2, k3⟩ := g5 hx
        exact .inr ⟨k1, by womega⟩
      · exact .inl rfl
    · simp only [Query.todo, blockCount, Chunks.left, hex, Bool.false_eq_true, if_false]
      have := congrArg List.length g4
      rw [List.length_append, blocks_length, blocks_length] at this
      cases hx : c'.exhausted
      · simp only [hx, Bool.false_eq_true, if_false, blocks_length] at this ⊢
        womega
      · simp only [hx, if_true, List.length_nil] at this ⊢
        womega

/-- After ranges that follow each other, the loop goes on where they begin. -/
theorem loop_ok (q : Query) (hs : q.chunks.size ≠ 0) (hb : q.chunks.range.stop < U256) (a : Nat) (l : List BlockRange)
    (b : Nat) (hl : Adjacent a l b)
    (hc : q.chunks.exhausted = true ∨ q.chunks.range.start = b ∧ b ≤ q.chunks.range.stop) :
    ∃ o, q.loop l = .ok o ∧ ∀ q', o = some q' →
      q'.WF ∧ q'.contractAddress = q.contractAddress ∧ q'.topics = q.topics ∧ q'.current.start = a ∧
      q'.chunks.size = q.chunks.size ∧ q'.todo = blockCount l + q.chunks.left ∧
      (l ≠ [] → q'.chunks = q.chunks ∧ q'.current :: q'.rest = l) ∧
      (l = [] → q'.rest = [] ∧ q'.current.stop + 1 - q'.current.start ≤ q.chunks.size) := by
  cases l with
  | nil =>
    obtain ⟨o, h1, h2⟩ := nextChunk_ok q.contractAddress q.topics q.chunks hs hb
    refine ⟨o, h1, ?_⟩
    intro q' hq
    obtain ⟨k1, k2, k3, k4, k5, k6, k7, k8, k9⟩ := h2 q' hq
    have hab : a = b := hl
    refine ⟨k1, k2, k3, ?_, k7, by rw [k9]; simp [blockCount], by simp, fun _ => ⟨k6, k8⟩⟩
    rcases hc with hc | hc
    · rw [k5] at hc; cases hc
    · rw [k4, hc.1, hab]
  | cons r t =>
    refine ⟨_, rfl, ?_⟩
    intro q' hq
    cases hq
    obtain ⟨g1, g2, g3, g4⟩ := hl
    exact ⟨⟨⟨b, ⟨rfl, g2, g3, g4⟩, hc⟩, hs, hb⟩, rfl, rfl, g1, rfl, rfl, fun _ => ⟨rfl, rfl⟩, by simp⟩

/-- What the next query is, after any answer. -/
theorem query_next (q : Query) (w : q.WF) (a : LogsAnswer) :
    ∃ o, q.next a = .ok o ∧ ∀ q', o = some q' →
      q'.WF ∧ q'.contractAddress = q.contractAddress ∧ q'.topics = q.topics ∧ q'.chunks.size = q.chunks.size ∧
      (Settles q.current a → q'.current.start = q.current.stop + 1 ∧
        q'.todo + (q.current.stop + 1 - q.current.start) = q.todo ∧
        (q.rest ≠ [] → q'.current :: q'.rest = q.rest) ∧
        (q.rest = [] → q'.rest = [] ∧ q'.current.stop + 1 - q'.current.start ≤ q.chunks.size)) ∧
      (¬ Settles q.current a → a = .tooLarge ∧ q'.current.start = q.current.start ∧ q'.todo = q.todo ∧
        q'.current.stop = q.current.start + (q.current.stop - q.current.start) / 2 ∧
        blockCount (q'.current :: q'.rest) = blockCount (q.current :: q.rest)) := by
  obtain ⟨⟨b, ⟨g1, g2, g3, g4⟩, hc⟩, hs, hb⟩ := w
  have settled : ∀ hset : Settles q.current a, ∃ o, q.loop q.rest = .ok o ∧ ∀ q', o = some q' →
      q'.WF ∧ q'.contractAddress = q.contractAddress ∧ q'.topics = q.topics ∧ q'.chunks.size = q.chunks.size ∧
      (Settles q.current a → q'.current.start = q.current.stop + 1 ∧
        q'.todo + (q.current.stop + 1 - q.current.start) = q.todo ∧
        (q.rest ≠ [] → q'.current :: q'.rest = q.rest) ∧
        (q.rest = [] → q'.rest = [] ∧ q'.current.stop + 1 - q'.current.start ≤ q.chunks.size)) ∧
      (¬ Settles q.current a → a = .tooLarge ∧ q'.current.start = q.current.start ∧ q'.todo = q.todo ∧
        q'.current.stop = q.current.start + (q.current.stop - q.current.start) / 2 ∧
        blockCount (q'.current :: q'.rest) = blockCount (q.current :: q.rest)) := by
    intro hset
    obtain ⟨o, h1, h2⟩ := loop_ok q hs hb _ _ _ g4 hc
    refine ⟨o, h1, fun q' hq => ?_⟩
    obtain ⟨k1, k2, k3, k4, k5, k6, k7, k8⟩ := h2 q' hq
    refine ⟨k1, k2, k3, k5, fun _ => ⟨k4, ?_, fun h => (k7 h).2, k8⟩, fun h => absurd hset h⟩
    rw [k6]; simp only [Query.todo, blockCount]; womega
  cases a with
  | logs l => exact settled trivial
  | failed => exact ⟨none, rfl, by simp⟩
  | tooLarge =>
    by_cases he : q.current.start = q.current.stop
    · obtain ⟨o, h1, h2⟩ := settled he
      refine ⟨o, ?_, h2⟩
      simp only [Query.next, if_pos he]; exact h1
    · have hlt : ¬ q.current.start ≥ q.current.stop := by womega
      have hh : q.current.halves = .ok (some ⟨q.current.start, q.current.start + (q.current.stop - q.current.start) / 2⟩,
          some ⟨q.current.start + (q.current.stop - q.current.start) / 2 + 1, q.current.stop⟩) := by
        unfold BlockRange.halves
        rw [if_neg hlt]
        have e1 : csub q.current.stop q.current.start = some (q.current.stop - q.current.start) := by
          rw [csub_eq_some]; womega
        have e2 : cadd q.current.start ((q.current.stop - q.current.start) / 2)
            = some (q.current.start + (q.current.stop - q.current.start) / 2) := by
          rw [cadd_eq_some]; exact ⟨rfl, by womega⟩
        have e3 : cinc (q.current.start + (q.current.stop - q.current.start) / 2)
            = some (q.current.start + (q.current.stop - q.current.start) / 2 + 1) := by
          unfold cinc; rw [cadd_eq_some]; exact ⟨rfl, by womega⟩
        have e4 : csub (q.current.start + (q.current.stop - q.current.start) / 2 + 1) 1
            = some (q.current.start + (q.current.stop - q.current.start) / 2) := by rw [csub_eq_some]
        simp only [e1, e2, e3, expect, Res.ok_bind]
        unfold BlockRange.partitionAt
        rw [if_neg (by womega), if_neg (by womega), e4]; rfl
      let left : BlockRange := ⟨q.current.start, q.current.start + (q.current.stop - q.current.start) / 2⟩
      let right : BlockRange := ⟨q.current.start + (q.current.stop - q.current.start) / 2 + 1, q.current.stop⟩
      have key : ∃ rest, q.next .tooLarge = q.loop (left :: rest) ∧
          Adjacent (left.stop + 1) rest b ∧
          blockCount (left :: rest) = blockCount (q.current :: q.rest) := by
        cases hr : q.rest with
        | nil =>
          refine ⟨[right], ?_, ?_, ?_⟩
          · simp only [Query.next, if_neg he, hh, Res.ok_bind, hr]; rfl
          · rw [hr] at g4
            have : q.current.stop + 1 = b := g4
            exact ⟨rfl, by simp only [right]; womega, by simp only [right]; womega, this⟩
          · simp only [blockCount, left, right]; womega
        | cons n t =>
          rw [hr] at g4
          obtain ⟨j1, j2, j3, j4⟩ := g4
          have hj : right.joinWith n = ⟨right.start, n.stop⟩ := by
            unfold BlockRange.joinWith
            rw [Nat.min_eq_left (by simp only [right]; womega), Nat.max_eq_right (by simp only [right]; womega)]
          refine ⟨right.joinWith n :: t, ?_, ?_, ?_⟩
          · simp only [Query.next, if_neg he, hh, Res.ok_bind, hr]; rfl
          · rw [hj]
            exact ⟨rfl, by simp only [right]; womega, j3, j4⟩
          · rw [hj]
            simp only [blockCount, left, right]; womega
      obtain ⟨rest, hn, hadj, hcount⟩ := key
      obtain ⟨o, h1, h2⟩ := loop_ok q hs hb q.current.start (left :: rest) b
        ⟨rfl, by simp only [left]; womega, by simp only [left]; womega, hadj⟩ hc
      refine ⟨o, by rw [hn, h1], fun q' hq => ?_⟩
      obtain ⟨k1, k2, k3, k4, k5, k6, k7, k8⟩ := h2 q' hq
      obtain ⟨m1, m2⟩ := k7 (by simp)
      refine ⟨k1, k2, k3, k5, fun h => absurd h he, fun _ => ⟨rfl, k4, ?_, ?_, ?_⟩⟩
      · rw [k6, hcount]; rfl
      · have := (List.cons.inj m2).1
        rw [this]
      · rw [m2, hcount]

theorem startQuery_ok (s : State) (lastBlock : BlockNumber) (hb : lastBlock < U256) (size : Nat) (o : Option Query)
    (h : s.startQuery lastBlock size = .ok o) (q : Query) (ho : o = some q) :
    q.WF ∧ q.current.start = min (s.lastScrapedBlockNumber + 1) u256Max ∧ q.rest = [] ∧ q.chunks.size = size ∧
      q.current.stop + 1 - q.current.start ≤ size ∧
      q.todo = lastBlock + 1 - min (s.lastScrapedBlockNumber + 1) u256Max ∧
      (∃ c, s.helperContractAddress = some c ∧ q.contractAddress = c) ∧
      q.topics = [.single depositTopic, .multiple (s.erc20Tokens.altKeys.map wordOfAddress)] := by
  unfold State.startQuery State.nextScrape at h
  simp only [Res.bind_ok, Res.expect_ok, Res.pure_ok] at h
  obtain ⟨sc, ⟨c, hc, rfl⟩, ch, h1, h2⟩ := h
  simp only at h1 h2
  unfold BlockRange.intoChunks at h1
  simp only [Res.bind_ok, Res.ensure_ok, Res.pure_ok] at h1
  obtain ⟨_, hs, rfl⟩ := h1
  have hs : size ≠ 0 := by simpa using hs
  have hstart : (cinc s.lastScrapedBlockNumber).getD u256Max = min (s.lastScrapedBlockNumber + 1) u256Max := by
    have hU : U256 = u256Max + 1 := u256_eq
    unfold cinc cadd
    by_cases hh : s.lastScrapedBlockNumber + 1 < U256
    · rw [if_pos hh]; simp only [Option.getD_some]; womega
    · rw [if_neg hh]; simp only [Option.getD_none]; womega
  rw [hstart] at h2
  obtain ⟨o', h3, h4⟩ := nextChunk_ok c [.single depositTopic, .multiple (s.erc20Tokens.altKeys.map wordOfAddress)]
    ⟨⟨min (s.lastScrapedBlockNumber + 1) u256Max, lastBlock⟩, size, false⟩ hs hb
  rw [h3] at h2
  simp only [Except.ok.injEq] at h2
  subst h2
  obtain ⟨k1, k2, k3, k4, k5, k6, k7, k8, k9⟩ := h4 q ho
  exact ⟨k1, k4, k6, k7, k8, by rw [k9]; rfl, ⟨c, hc, k2⟩, k3⟩

/-- Starting never panics if the helper contract is configured. -/
theorem startQuery_total (s : State) (lastBlock : BlockNumber) (hb : lastBlock < U256) (size : Nat) (hs : size ≠ 0)
    (hc : s.helperContractAddress ≠ none) : ∃ o, s.startQuery lastBlock size = .ok o := by
  cases hh : s.helperContractAddress with
  | none => exact absurd hh hc
  | some c =>
    unfold State.startQuery State.nextScrape
    have : (size != 0) = true := by simpa using hs
    simp only [hh, expect, Res.ok_bind, pure, Except.pure, BlockRange.intoChunks, ensure, this, if_true]
    obtain ⟨o', h3, h4⟩ := nextChunk_ok c [.single depositTopic, .multiple (s.erc20Tokens.altKeys.map wordOfAddress)]
      ⟨⟨(cinc s.lastScrapedBlockNumber).getD u256Max, lastBlock⟩, size, false⟩ hs hb
    exact ⟨o', h3⟩

end EvmMinter
