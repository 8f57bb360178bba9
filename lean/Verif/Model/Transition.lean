import Verif.Model.Parameters

/-!
# Model of `src/data_store/transition/mod.rs` and of the lag loop of the intersection calculation

Points are reduced to their id and their segment. The coordinates are carried along unchanged by the modelled
functions (they only matter for the geometry, see `Model/Geometry.lean`).
-/

namespace S2G

/-- `Point`, src/data_store/point.rs (id and segment; coordinates omitted). -/
structure Pt where
  id : Nat
  seg : Nat
  deriving Repr, DecidableEq

/-- `Transition` / `MaterializedTransition`, src/data_store/transition/mod.rs lines 9-13,
src/data_store/transition/materialized.rs lines 6-10. `materialize` (lines 30-37) and `into_transition`
(lines 13-15) only clone. -/
structure Trans where
  src : Pt
  dst : Pt
  deriving Repr, DecidableEq

namespace Trans

/-- `crosses_segments`, src/data_store/transition/mod.rs lines 32-36. -/
def crossesSegments (t : Trans) : Bool := t.src.seg != t.dst.seg

/-- `raw_diff`, lines 54-56. -/
def rawDiff (t : Trans) : Int := (t.dst.seg : Int) - (t.src.seg : Int)

/-- `has_valid_direction`, lines 38-48 (`div_floor(rate, 2)` is `Int` floor division). -/
def hasValidDirection (t : Trans) (rate : Int) : Bool :=
  let rawDiffCounter := (rate + (t.dst.seg : Int)) - (t.src.seg : Int)
  let halfRate := Int.fdiv rate 2
  let rawDiff := t.rawDiff
  (decide (0 ≤ rawDiff) && decide (rawDiff ≤ halfRate)) ||
    (decide (rawDiff < 0) && (decide (0 ≤ rawDiffCounter) && decide (rawDiffCounter ≤ halfRate)))

/-- `segment_diff`, lines 50-52. -/
def segmentDiff (t : Trans) : Nat := t.rawDiff.natAbs

/-- `get_first_intersection_segment`, lines 70-72. `rate = 0` (a panic) is excluded by the callers. -/
def firstIntersectionSegment (t : Trans) (rate : Nat) : Nat := (t.src.seg + 1) % rate

/-- The condition under which a step is kept as transition: src/training/segmentation/mod.rs lines 123-127
and 394-396. -/
def isValid (t : Trans) (rate : Nat) : Bool := t.crossesSegments && t.hasValidDirection rate

/-- The number of intersected segments: `segment_diff` as computed in
src/training/intersection_calculation/mod.rs lines 119-137. -/
def intersectionCount (t : Trans) (rate : Nat) : Nat :=
  let segmentDiff := t.segmentDiff
  let halfRate := rate / 2
  let segmentDiff :=
    if segmentDiff > halfRate then
      if t.dst.seg > halfRate then ((t.src.seg : Int) - (-(rate : Int) + t.dst.seg)).natAbs
      else if t.src.seg > halfRate then ((t.dst.seg : Int) - (-(rate : Int) + t.src.seg)).natAbs
      else segmentDiff
    else segmentDiff
  min segmentDiff halfRate

/-- The loop `for segment_lag in 1..segment_diff + 1`, src/training/intersection_calculation/mod.rs lines
139-142: the segments for which an intersection task is created, in order. -/
def intersectionSegments (t : Trans) (rate : Nat) : List Nat :=
  (List.range' 1 (t.intersectionCount rate)).map (fun lag => (t.src.seg + lag) % rate)

end Trans

/-- The tasks of all transitions of a node, src/training/intersection_calculation/mod.rs lines 108-164
(`pairs`), then popped from the back into one message, lines 192-216. -/
def intersectionTasks (rate : Nat) (ts : List Trans) : List (Trans × Nat) :=
  (ts.flatMap (fun t => (t.intersectionSegments rate).map (fun s => (t, s)))).reverse

end S2G
