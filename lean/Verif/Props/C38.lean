import Verif.Model.GasFee
import Verif.Spec.Live
import Verif.Lemmas.Sound
/-!
# C38: gas fee estimation
-/

namespace EvmMinter

/-! ## Median -/

theorem sorted_le (l : List Nat) : (l.mergeSort fun a b => decide (a ≤ b)).Pairwise (· ≤ ·) := by
  have := List.pairwise_mergeSort (le := fun a b : Nat => decide (a ≤ b)) (by simp; omega) (by simp; omega) l
  simpa using this

/-- At position `k` of a sorted list: at most `k` smaller ones, at most the rest greater ones. -/
theorem sorted_counts {s : List Nat} (h : s.Pairwise (· ≤ ·)) {k : Nat} {m : Nat} (hm : s[k]? = some m) :
    s.countP (fun x => decide (x < m)) ≤ k ∧ s.countP (fun x => decide (m < x)) + k < s.length := by
  induction s generalizing k with
  | nil => simp at hm
  | cons x t ih =>
    rw [List.pairwise_cons] at h
    cases k with
    | zero =>
      simp only [List.getElem?_cons_zero, Option.some.injEq] at hm
      subst hm
      have h0 : t.countP (fun y => decide (y < x)) = 0 := by
        rw [List.countP_eq_zero]
        intro y hy
        have := h.1 y hy
        simp; omega
      have h1 := List.countP_le_length (p := fun y => decide (x < y)) (l := t)
      simp [h0]
      omega
    | succ k =>
      rw [List.getElem?_cons_succ] at hm
      have := ih h.2 hm
      have hx := h.1 m (List.mem_of_getElem? hm)
      rw [List.countP_cons, List.countP_cons, List.length_cons]
      have h2 : decide (m < x) = false := by simp; omega
      simp only [h2]
      constructor
      · split <;> omega
      · simp; omega

/-- The element at position `k` of the sorted list is determined by the counts. -/
theorem counts_unique {l : List Nat} {k m m' : Nat}
    (h1 : l.countP (fun x => decide (x < m)) ≤ k) (h2 : l.countP (fun x => decide (m < x)) + k < l.length)
    (h1' : l.countP (fun x => decide (x < m')) ≤ k) (h2' : l.countP (fun x => decide (m' < x)) + k < l.length) : m = m' := by
  have key : ∀ {m m' : Nat}, l.countP (fun x => decide (m < x)) + k < l.length → l.countP (fun x => decide (x < m')) ≤ k → ¬ m < m' := by
    intro m m' h2 h1' hlt
    have e := List.length_eq_countP_add_countP (fun x => decide (m < x)) (l := l)
    have : l.countP (fun x => !decide (m < x)) ≤ l.countP (fun x => decide (x < m')) := by
      apply List.countP_mono_left
      intro x _ hx
      simp at hx ⊢
      omega
    simp only [Bool.not_eq_true, decide_eq_false_iff_not, decide_not] at e this
    omega
  have := key h2 h1'
  have := key h2' h1
  omega

/-- **C38** The median is the value with at most half of the values below and less than half above. -/
theorem C38_median {l : List Nat} {m : Nat} : median l = some m ↔
    m ∈ l ∧ l.countP (fun x => decide (x < m)) ≤ l.length / 2 ∧ l.countP (fun x => decide (m < x)) + l.length / 2 < l.length := by
  have hp := List.mergeSort_perm l fun a b => decide (a ≤ b)
  have hs := sorted_le l
  have fwd : ∀ {m}, median l = some m →
      m ∈ l ∧ l.countP (fun x => decide (x < m)) ≤ l.length / 2 ∧ l.countP (fun x => decide (m < x)) + l.length / 2 < l.length := by
    intro m h
    unfold median at h
    have := sorted_counts hs h
    rw [hp.countP_eq, hp.countP_eq, hp.length_eq] at this
    exact ⟨hp.mem_iff.1 (List.mem_of_getElem? h), this⟩
  constructor
  · exact fwd
  · rintro ⟨hm, h1, h2⟩
    have hl : l.length / 2 < (l.mergeSort fun a b => decide (a ≤ b)).length := by
      have := List.length_pos_of_mem hm
      rw [hp.length_eq]
      omega
    have hx : median l = some ((l.mergeSort fun a b => decide (a ≤ b))[l.length / 2]) := List.getElem?_eq_getElem hl
    have := fwd hx
    rw [hx, counts_unique this.2.1 this.2.2 h1 h2]

/-- **C38** There is a median exactly if there is a value. -/
theorem C38_median_none {l : List Nat} : median l = none ↔ l = [] := by
  unfold median
  rw [List.getElem?_eq_none_iff, List.length_mergeSort]
  cases l with
  | nil => simp
  | cons x t => simp; omega

/-! ## The estimate -/

/-- **C38** The maximal fee is exactly twice the base fee plus the priority fee, or the largest amount if that does not fit. -/
theorem C38_max_fee (g : GasFeeEstimate) :
    g.maxFeePerGas = min (2 * g.baseFeePerGas + g.maxPriorityFeePerGas) (2 ^ 256 - 1) := by
  unfold GasFeeEstimate.maxFeePerGas GasFeeEstimate.checkedMaxFeePerGas cmul
  split
  · rename_i h
    rw [Option.bind_some]
    unfold cadd
    split
    · rename_i h'
      unfold U256 at h h'
      simp only [Option.getD_some]
      womega
    · rename_i h'
      unfold U256 at h h'
      simp only [Option.getD_none, u256Max]
      womega
  · rename_i h
    unfold U256 at h
    simp only [Option.bind_none, Option.getD_none, u256Max]
    womega

theorem checked_isNone (g : GasFeeEstimate) : g.checkedMaxFeePerGas.isNone = true ↔ 2 ^ 256 ≤ 2 * g.baseFeePerGas + g.maxPriorityFeePerGas := by
  unfold GasFeeEstimate.checkedMaxFeePerGas cmul
  split
  · rename_i h
    rw [Option.bind_some]
    unfold cadd
    split
    · rename_i h'
      unfold U256 at h h'
      simp
      womega
    · rename_i h'
      unfold U256 at h h'
      simp
      womega
  · rename_i h
    unfold U256 at h
    simp
    womega

/-- **C38** The estimate is made from the base fee of the next block and the median of the priority fees paid, raised to the
configured minimum; there is none exactly if the history has no base fee or no priority fee, or the maximal fee does not fit. -/
theorem C38_estimate {minimum : WeiPerGas} {h : FeeHistory} {g : GasFeeEstimate} :
    estimateTransactionFee minimum h = .ok g ↔
      (∃ older, h.baseFeePerGas = older ++ [g.baseFeePerGas]) ∧
      (∃ m, median h.reward.flatten = some m ∧ g.maxPriorityFeePerGas = max m minimum) ∧
      2 * g.baseFeePerGas + g.maxPriorityFeePerGas < 2 ^ 256 := by
  unfold estimateTransactionFee
  have hl : ∀ b, h.baseFeePerGas.getLast? = some b ↔ ∃ older, h.baseFeePerGas = older ++ [b] := fun b => List.getLast?_eq_some_iff
  rw [← hl]
  cases hb : h.baseFeePerGas.getLast? with
  | none => simp
  | some b =>
    dsimp only
    cases hm : median h.reward.flatten with
    | none => simp
    | some m =>
      dsimp only
      have hc := checked_isNone ⟨b, max m minimum⟩
      simp only at hc
      split
      · rename_i hn
        have := hc.1 hn
        constructor
        · intro h; cases h
        · rintro ⟨h1, ⟨m', h2, h3⟩, h4⟩
          exfalso
          cases h1
          cases h2
          rw [h3] at h4
          womega
      · rename_i hn
        have := mt hc.2 hn
        constructor
        · intro h
          cases h
          exact ⟨rfl, ⟨m, rfl, rfl⟩, by womega⟩
        · rintro ⟨h1, ⟨m', h2, h3⟩, h4⟩
          cases h1
          cases h2
          cases g
          simp only at h3
          subst h3
          rfl

/-- **C38** The priority fee is at least the configured minimum, so is the maximal fee, and the estimate is one of 256-bit
numbers (as assumed of estimates elsewhere). -/
theorem C38_minimum {minimum : WeiPerGas} {h : FeeHistory} {g : GasFeeEstimate} (he : estimateTransactionFee minimum h = .ok g) :
    minimum ≤ g.maxPriorityFeePerGas ∧ g.maxPriorityFeePerGas ≤ g.maxFeePerGas ∧ g.Bounded := by
  obtain ⟨_, ⟨m, _, hm⟩, hlt⟩ := C38_estimate.1 he
  have hmax := C38_max_fee g
  unfold GasFeeEstimate.Bounded U256
  rw [hmax]
  have : minimum ≤ g.maxPriorityFeePerGas := by rw [hm]; exact Nat.le_max_right _ _
  refine ⟨this, ?_, ?_, ?_⟩
  · refine Nat.le_min.2 ⟨by womega, by womega⟩
  · womega
  · womega

/-- **C38** The maximal fee covers the base fee of the next block plus the priority fee. -/
theorem C38_next_block {minimum : WeiPerGas} {h : FeeHistory} {g : GasFeeEstimate} (he : estimateTransactionFee minimum h = .ok g) :
    g.baseFeePerGas + g.maxPriorityFeePerGas ≤ g.maxFeePerGas := by
  obtain ⟨_, _, hlt⟩ := C38_estimate.1 he
  rw [C38_max_fee]
  refine Nat.le_min.2 ⟨by womega, by womega⟩

theorem base_growth {B : Nat} (h5 : 5 ≤ B) {fee : Nat → Nat} (h0 : fee 0 = B) (hstep : ∀ i, fee (i + 1) ≤ fee i + max (fee i / 8) 1)
    {i : Nat} (hi : i ≤ 5) : fee i ≤ 2 * B := by
  have s0 := hstep 0
  have s1 := hstep 1
  have s2 := hstep 2
  have s3 := hstep 3
  have s4 := hstep 4
  have : i = 0 ∨ i = 1 ∨ i = 2 ∨ i = 3 ∨ i = 4 ∨ i = 5 := by omega
  simp only [Nat.zero_add, Nat.reduceAdd, h0] at s0 s1 s2 s3 s4
  clear hstep
  rcases Nat.lt_or_ge B 8 with h8 | h8
  · rcases this with rfl | rfl | rfl | rfl | rfl | rfl <;> omega
  · have c : ∀ x y : Nat, y ≤ x + max (x / 8) 1 → 8 * max y B ≤ 9 * max x B := by intro x y h; omega
    have c0 := c _ _ s0
    have c1 := c _ _ s1
    have c2 := c _ _ s2
    have c3 := c _ _ s3
    have c4 := c _ _ s4
    clear c s0 s1 s2 s3 s4
    rcases this with rfl | rfl | rfl | rfl | rfl | rfl <;> omega

/-- **C38** It also covers the five blocks after that, if the base fee is at least 5 wei: the base fee grows by at most an eighth
(or one) per block (EIP-1559). -/
theorem C38_five_blocks {minimum : WeiPerGas} {h : FeeHistory} {g : GasFeeEstimate} (he : estimateTransactionFee minimum h = .ok g)
    (h5 : 5 ≤ g.baseFeePerGas) {fee : Nat → Nat} (h0 : fee 0 = g.baseFeePerGas) (hstep : ∀ i, fee (i + 1) ≤ fee i + max (fee i / 8) 1)
    {i : Nat} (hi : i ≤ 5) : fee i + g.maxPriorityFeePerGas ≤ g.maxFeePerGas := by
  obtain ⟨_, _, hlt⟩ := C38_estimate.1 he
  have hb : fee i ≤ 2 * g.baseFeePerGas := base_growth h5 h0 hstep hi
  rw [C38_max_fee]
  refine Nat.le_min.2 ⟨by womega, by womega⟩

/-- **C38** The price query fails only if the ledger is unknown or there is no estimate yet; its numbers are those of the last
estimate, the fee saturating at the largest amount. -/
theorem C38_price {s : State} {cache : CachedEstimate} {token : Option Principal} {r : PriceReply} :
    transactionPrice s cache token = .ok r ↔
      ∃ ts g, cache = some (ts, g) ∧ r.timestamp = some ts ∧ r.maxFeePerGas = g.maxFeePerGas ∧
        r.maxPriorityFeePerGas = g.maxPriorityFeePerGas ∧ r.maxTransactionFee = min (r.gasLimit * r.maxFeePerGas) (2 ^ 256 - 1) ∧
        (match token with
         | none => r.gasLimit = 21000
         | some l => (s.findErc20TokenByLedgerId l).isSome ∧ r.gasLimit = 65000 ∨
            (s.findErc20TokenByLedgerId l).isNone ∧ l = s.nativeLedgerId ∧ r.gasLimit = 21000) := by
  have cost : ∀ p : TxPrice, p.maxTransactionFee = min (p.gasLimit * p.maxFeePerGas) (2 ^ 256 - 1) := by
    intro p
    unfold TxPrice.maxTransactionFee transactionCost cmul
    rw [Nat.mul_comm]
    split
    · rename_i h
      unfold U256 at h
      simp only [Option.getD_some]
      womega
    · rename_i h
      unfold U256 at h
      simp only [Option.getD_none, u256Max]
      womega
  have fin : ∀ gl ts g, r = { PriceReply.ofPrice (GasFeeEstimate.toPrice g gl) with timestamp := some ts } ↔
      r.gasLimit = gl ∧ r.timestamp = some ts ∧ r.maxFeePerGas = g.maxFeePerGas ∧
        r.maxPriorityFeePerGas = g.maxPriorityFeePerGas ∧ r.maxTransactionFee = min (r.gasLimit * r.maxFeePerGas) (2 ^ 256 - 1) := by
    intro gl ts g
    have := cost (g.toPrice gl)
    cases r
    simp only [PriceReply.ofPrice, this, PriceReply.mk.injEq]
    simp only [GasFeeEstimate.toPrice]
    constructor
    · rintro ⟨rfl, rfl, rfl, rfl, rfl⟩; simp
    · rintro ⟨rfl, rfl, rfl, rfl, rfl⟩; simp
  unfold transactionPrice
  cases cache with
  | none =>
    cases token with
    | none => simp [bind, Except.bind]
    | some l =>
      dsimp only
      split
      · simp [bind, Except.bind]
      · split <;> simp [bind, Except.bind]
  | some c =>
    obtain ⟨ts, g⟩ := c
    cases token with
    | none =>
      simp only [bind, Except.bind, Except.ok.injEq]
      rw [eq_comm, fin]
      constructor
      · rintro ⟨h1, h2, h3, h4, h5⟩; exact ⟨ts, g, rfl, h2, h3, h4, h5, h1⟩
      · rintro ⟨ts', g', he, h2, h3, h4, h5, h1⟩
        cases he
        exact ⟨h1, h2, h3, h4, h5⟩
    | some l =>
      dsimp only
      cases hf : s.findErc20TokenByLedgerId l with
      | some t =>
        simp only [bind, Except.bind, Except.ok.injEq, Option.isSome_some, Option.isNone_some, true_and, Bool.false_eq_true, false_and, or_false]
        rw [eq_comm, fin]
        constructor
        · rintro ⟨h1, h2, h3, h4, h5⟩; exact ⟨ts, g, rfl, h2, h3, h4, h5, h1⟩
        · rintro ⟨ts', g', he, h2, h3, h4, h5, h1⟩
          cases he
          exact ⟨h1, h2, h3, h4, h5⟩
      | none =>
        dsimp only
        split
        · rename_i hl
          simp only [bind, Except.bind, Except.ok.injEq, Option.isSome_none, Option.isNone_none, true_and, Bool.false_eq_true, false_and, false_or]
          rw [eq_comm, fin]
          constructor
          · rintro ⟨h1, h2, h3, h4, h5⟩; exact ⟨ts, g, rfl, h2, h3, h4, h5, hl, h1⟩
          · rintro ⟨ts', g', he, h2, h3, h4, h5, _, h1⟩
            cases he
            exact ⟨h1, h2, h3, h4, h5⟩
        · rename_i hl
          simp [bind, Except.bind, hl]

/-- **C38** An estimate is used again only within 30 seconds. A refresh either replaces it by the new one or leaves it. -/
theorem C38_cache {cache : CachedEstimate} {now : Nat} :
    (∀ g, cachedEstimate cache now = some g → ∃ ts, cache = some (ts, g) ∧ now < ts + 30000000000) ∧
    ∀ minimum history, (∃ g h, history = some h ∧ estimateTransactionFee minimum h = .ok g ∧
        refreshEstimate cache minimum now history = (some (now, g), some g)) ∨
      refreshEstimate cache minimum now history = (cache, none) := by
  constructor
  · intro g h
    unfold cachedEstimate at h
    split at h
    · rename_i ts g'
      split at h
      · rename_i hn
        cases h
        exact ⟨ts, rfl, Nat.lt_of_lt_of_le hn (Nat.min_le_left _ _)⟩
      · cases h
    · cases h
  · intro minimum history
    unfold refreshEstimate
    cases history with
    | none => exact .inr rfl
    | some h =>
      dsimp only
      cases he : estimateTransactionFee minimum h with
      | ok g => exact .inl ⟨g, h, rfl, he, rfl⟩
      | error _ => exact .inr rfl

namespace Example

def feeHistory : FeeHistory := ⟨100, [9, 10, 12, 11, 10, 13], [[3], [9], [1], [4], [7]]⟩

theorem C38_example :
    estimateTransactionFee 2 feeHistory = .ok ⟨13, 4⟩ ∧ estimateTransactionFee 6 feeHistory = .ok ⟨13, 6⟩ ∧
    (GasFeeEstimate.mk 13 6).maxFeePerGas = 32 ∧ median [5, 1] = some 5 ∧
    estimateTransactionFee 2 { feeHistory with baseFeePerGas := [] } = .error .invalidFeeHistory ∧
    ∀ g, estimateTransactionFee 2 { feeHistory with baseFeePerGas := [2 ^ 255] } ≠ .ok g := by
  have hm : median feeHistory.reward.flatten = some 4 := C38_median.2 (by decide +kernel)
  refine ⟨C38_estimate.2 ⟨⟨[9, 10, 12, 11, 10], rfl⟩, ⟨4, hm, rfl⟩, by decide⟩, C38_estimate.2 ⟨⟨[9, 10, 12, 11, 10], rfl⟩, ⟨4, hm, rfl⟩, by decide⟩, by decide +kernel,
    C38_median.2 (by decide +kernel), rfl, ?_⟩
  intro g h
  obtain ⟨⟨l, h1⟩, _, h2⟩ := C38_estimate.1 h
  have h1 := congrArg List.getLast? h1
  simp at h1
  rw [← h1] at h2
  revert h2
  generalize g.maxPriorityFeePerGas = x
  intro h2
  exact absurd (Nat.lt_of_le_of_lt (Nat.le_add_right _ x) h2) (by decide)

end Example
end EvmMinter
