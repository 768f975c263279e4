import Verif.Model.Types
/-!
# Block ranges (minter/src/numeric/range.rs)

`RangeInclusive` is never iterated here, hence its internal flag `exhausted` is always unset and the range is empty
exactly if `start > end`.
-/

namespace EvmMinter

/-- `BlockRangeInclusive` (range.rs:5-6). -/
structure BlockRange where
  start : BlockNumber
  stop : BlockNumber
deriving DecidableEq, Repr

namespace BlockRange

/-- `partition_at_checked` (range.rs:70-91). -/
def partitionAt (r : BlockRange) (mid : BlockNumber) : Res (Option BlockRange × Option BlockRange) :=
  if mid ≤ r.start then .ok (none, some r)
  else if mid > r.stop then .ok (some r, none)
  else do
    let prev ← expect (csub mid 1) "BUG: mid is strictly positive"
    return (some ⟨r.start, prev⟩, some ⟨mid, r.stop⟩)

/-- `partition_into_halves` (range.rs:122-146); `div_by_two` is the floor of the half. -/
def halves (r : BlockRange) : Res (Option BlockRange × Option BlockRange) :=
  if r.start ≥ r.stop then .ok (some r, none)
  else do
    let delta ← expect (csub r.stop r.start) "unreachable: end > start"
    let mid ← expect (cadd r.start (delta / 2)) "unreachable: mid < end"
    let mid ← expect (cinc mid) "unreachable: mid <= end"
    r.partitionAt mid

/-- `join_with` (range.rs:165-169). -/
def joinWith (r o : BlockRange) : BlockRange := ⟨min r.start o.start, max r.stop o.stop⟩

end BlockRange

/-- `BlockRangeChunks` (range.rs:205-209). -/
structure Chunks where
  range : BlockRange
  size : Nat
  exhausted : Bool
deriving DecidableEq, Repr

/-- `into_chunks` (range.rs:198-202); the size is a `u16`. -/
def BlockRange.intoChunks (r : BlockRange) (size : Nat) : Res Chunks := do
  ensure (size != 0) "chunk size must be non-zero"
  return ⟨r, size, false⟩

/-- `BlockRangeChunks::next` (range.rs:224-261). -/
def Chunks.next (c : Chunks) : Res (Option BlockRange × Chunks) :=
  if c.exhausted then .ok (none, c)
  else if c.range.start > c.range.stop then .ok (none, { c with exhausted := true })
  else do
    let mid := (cadd c.range.start c.size).getD u256Max
    match ← c.range.partitionAt mid with
    | (some left, some right) => return (some left, { c with range := right })
    | (some left, none) => return (some left, { c with exhausted := true })
    | (none, some right) => return (some right, { c with exhausted := true })
    | (none, none) => .error "BUG: partition_at_checked should not return (None, None)"

end EvmMinter
