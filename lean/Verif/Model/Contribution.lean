import Verif.Model.Scoring
import Mathlib.Data.List.FinRange
import Mathlib.Data.Rat.Floor

/-!
# Model of the explanation of the scores

`src/training/anomaly_contribution/mod.rs`, the part of `src/training/node_estimation/mod.rs` which feeds it, and the part of
`src/training/scoring/mod.rs` which writes the result. Only one node is supported (src/bin/s2gpp.rs lines 14-16). A point with
`nd` dimensions is a function on `Fin nd`; coordinates are of any type `V` (only compared for equality), results are rational
numbers. `none` is a panic.
-/

namespace S2G
namespace Contribution
variable {V : Type} [DecidableEq V] {nd : Nat}

/-- `label_counts`, src/training/node_estimation/mod.rs lines 241-246 (only called for non-empty `labels`). -/
def labelCounts (labels : List Nat) : List Nat :=
  labels.foldl (fun c l => c.modify l (· + 1)) (List.replicate (labels.max?.getD 0 + 1) 0)

/-- One column of `calculate_dimension_uniqueness`, lines 56-75: first the counts of equal coordinates (`none`: more labels
than centres, line 60), then the result (`none`: a coordinate was not counted, line 71). `n_intersections` is the sum of the
counts; the division by zero (NaN) cannot happen, because every label has a positive count. -/
def uniquenessCol (dim : List V) (counts : List Nat) : Option (List ℚ) :=
  if counts.length ≤ dim.length then
    let counter : Counts V := (dim.zip counts).foldl (fun m x => m.add x.1 x.2) Counts.empty
    dim.mapM (fun v => (counter v).map (fun k : Nat => 1 - (k : ℚ) / (counts.sum : ℚ)))
  else none

/-- `calculate_dimension_uniqueness`, lines 47-79; the result has one row per centre. -/
def uniqueness (centers : List (Fin nd → V)) (counts : List Nat) : Option (List (Fin nd → ℚ)) := do
  let cols ← (List.finRange nd).mapM (fun d => uniquenessCol (centers.map (· d)) counts)
  some ((List.range centers.length).map (fun i d => ((cols.getD d [])[i]?).getD 0))

/-- The map `node_contribution`. -/
abbrev Contribs (nd : Nat) := NodeKey → Option (Fin nd → ℚ)

/-- `record_contributions`, lines 28-45 (`none`: unknown label). -/
def record (m : Contribs nd) (nodes : List Node) (centers : List (Fin nd → V)) (counts : List Nat) : Option (Contribs nd) := do
  let scores ← uniqueness centers counts
  nodes.foldlM (fun m v => do
    let r ← scores[v.cluster]?
    some (Function.update m v.nodeKey (some r))) m

/-- `query_node_score`, lines 124-147 (`none`: a node is not registered); the mean of the contributions, or zero. -/
def query (m : Contribs nd) (nodes : List Node) : Option (Fin nd → ℚ) := do
  let cs ← nodes.mapM (fun v => m v.nodeKey)
  some (if cs = [] then fun _ => 0 else fun d => (cs.map (· d)).sum / cs.length)

/-- Sum of a row. -/
def rowSum (r : Fin nd → ℚ) : ℚ := ((List.finRange nd).map r).sum

/-- The first loop of the handler of `QueryClusterContributionResponse`, src/training/scoring/mod.rs lines 351-358: a row with
sum zero is replaced by the last row which was not (`none`: there is no such row). -/
def fillRows : Option (Fin nd → ℚ) → List (Fin nd → ℚ) → Option (List (Fin nd → ℚ))
  | _, [] => some []
  | last, r :: rs =>
    if rowSum r = 0 then do
      let l ← last
      let rest ← fillRows last rs
      some (l :: rest)
    else do
      let rest ← fillRows (some r) rs
      some (r :: rest)

/-- What `FloatApprox` is ordered by: `(x * 80) as isize`, src/utils/float_approx.rs lines 15-20 and 65-69. -/
def bucket (x : ℚ) : Int := if 0 ≤ x then ⌊80 * x⌋ else ⌈80 * x⌉

/-- The value subtracted from a column, src/training/scoring/mod.rs lines 362-370 (`none`: no rows). -/
def median (col : List ℚ) : Option ℚ :=
  (col.mergeSort (fun a b => decide (bucket a ≤ bucket b)))[col.length / 2]?

/-- The second loop, lines 361-372. -/
def shift (rows : List (Fin nd → ℚ)) : Option (List (Fin nd → ℚ)) := do
  let ms ← (List.finRange nd).mapM (fun d => median (rows.map (· d)))
  some (rows.map (fun r d => r d - (ms.getD d 0)))

/-- The third loop, lines 374-385: the rows which are written. -/
def written : Option (Fin nd → ℚ) → List (Fin nd → ℚ) → List (Fin nd → ℚ)
  | _, [] => []
  | last, r :: rs =>
    let ser := if rowSum r = 0 then last.getD r else r
    ser :: written (some ser) rs

/-- From the windows of the scores to the file: `build_anomaly_contribution_score`, lines 110-132, with the answers of
`query_node_score`, and the handler of `QueryClusterContributionResponse`, lines 337-387. -/
def explain (m : Contribs nd) (edges : List Edge) (eit : List Nat) (q : Nat) : Option (List (Fin nd → ℚ)) := do
  let len ← Scoring.scoreLength eit q
  let rows ← (List.range len).mapM (fun i => do
    let win ← Scoring.window edges eit q i
    query m (win.map Edge.src))
  let rows ← fillRows none rows
  let rows ← shift rows
  some (written none rows)

end Contribution

/-- The default of `n_threads` in Python, s2gpp/__init__.py line 31: `n_threads if n_threads > 0 else min(cpu_count() - 1, 1)`. -/
def defaultThreads (nThreads cpuCount : Int) : Int := if nThreads > 0 then nThreads else min (cpuCount - 1) 1

end S2G
