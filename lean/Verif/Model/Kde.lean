import Verif.Model.Protocols
import Mathlib.Analysis.SpecialFunctions.Pow.Real
import Mathlib.Analysis.SpecialFunctions.Trigonometric.Basic
import Mathlib.Algebra.BigOperators.Group.List.Basic

/-!
# Model of the clustering of intersections, `src/training/node_estimation/multi_kde`

Numbers are real (`f32` in the code); the peak functions only need a linear order.
-/

namespace S2G
namespace Kde

/-! ## Peaks -/

section peaks
variable {α : Type} [LinearOrder α]

/-- The comparison for one shift, multi_kde/mod.rs lines 77-95: element vs. its neighbours at distance `shift`, with
the first/last element repeated at the ends. `none`: index underflow in `datalen - 1` or `datalen - shift`. -/
def shiftPeaks (est : List α) (shift : Nat) : Option (List Bool) := do
  let last ← est[est.length - 1]?
  let first ← est[0]?
  let upTo ← checkedSub est.length shift
  let plus := est.drop shift ++ List.replicate shift last
  let minus := List.replicate shift first ++ est.take upTo
  some (((est.zip plus).zip minus).map (fun x => decide (x.1.1 > x.1.2) && decide (x.1.1 > x.2)))

/-- The loop over the shifts with its early exit, lines 76-100. -/
def peakLoop (est : List α) : List Nat → List Bool → Option (List Bool)
  | [], results => some results
  | shift :: rest, results => do
    let cur ← shiftPeaks est shift
    let results' := (results.zip cur).map (fun x => x.1 && x.2)
    if !results'.any id then some results' else peakLoop est rest results'

/-- `find_peak_index`, lines 73-105. -/
def findPeakIndex (order : Nat) (est : List α) : Option (List Nat) := do
  let results ← peakLoop est (List.range' 1 order) (List.replicate est.length true)
  some ((List.range est.length).filter (fun i => results[i]? = some true))

end peaks

/-! ## Labels -/

section labels
variable {C : Type} [DecidableEq C]

/-- State of the loop of `extract_labels_from_centers`: the map from centre to key in insertion order, and the
labels. `key` always is the number of entries of the map. -/
structure LabelState (C : Type) where
  key : Nat := 0
  map : List (C × Nat) := []
  labels : List Nat := []

/-- Loop body, multi_kde/mod.rs lines 129-139. (`FloatApprox` compares with `==`.) -/
def labelStep (s : LabelState C) (center : C) : LabelState C :=
  match s.map.find? (fun e => e.1 = center) with
  | some e => { s with labels := s.labels ++ [e.2] }
  | none => { key := s.key + 1, map := s.map ++ [(center, s.key)], labels := s.labels ++ [s.key] }

/-- `extract_labels_from_centers`, lines 122-159. The entries of the hash map are sorted by key, which is the
insertion order. `none`: stacking an empty list fails. -/
def extractLabels (centers : List C) : Option (List Nat × List C) :=
  let s := centers.foldl labelStep {}
  if s.map = [] then none else some (s.labels, s.map.map (·.1))

end labels

/-! ## Density -/

/-- The ranges of the tasks, actors/gaussian_kde.rs `send_tasks` lines 81-96. `none`: division by zero. -/
def tasks (n t : Nat) : Option (List (Nat × Nat)) := do
  let chunk ← checkedDiv n t
  some ((List.range t).map (fun i => (i * chunk, if i + 1 < t then (i + 1) * chunk else n)))

/-- State of the `GaussianKDEActor` while it collects the answers of its helpers. -/
structure GState where
  proto : HelperProto
  estimate : Option (Nat → ℝ) := none
  out : List (Nat → ℝ) := []

/-- State after `send_tasks`, gaussian_kde.rs lines 76-78 and 81-96. -/
def GState.start (t : Nat) : GState :=
  { proto := (List.range t).foldl (fun p _ => p.sent) { nTotal := t } }

/-- The accumulation of the answers, gaussian_kde.rs lines 153-158. -/
noncomputable def addEstimate : Option (Nat → ℝ) → (Nat → ℝ) → Nat → ℝ
  | some x, e => fun j => x j + e j
  | none, e => e

/-- `Handler<EstimatorResponse>`, gaussian_kde.rs lines 148-173; `out` lists the `GaussianKDEResponse`s. -/
noncomputable def GState.onResponse (s : GState) (e : Nat → ℝ) : Option GState := do
  let proto ← s.proto.received
  let est := addEstimate s.estimate e
  if proto.isRunning then some { s with proto := proto, estimate := some est }
  else some { proto := proto, estimate := none, out := s.out ++ [est] }

noncomputable section

/-- Smallest value of a column, `data.min().unwrap()`. -/
def colMin : List ℝ → Option ℝ
  | [] => none
  | x :: xs => some (xs.foldl min x)

/-- Largest value of a column, `data.max().unwrap()`. -/
def colMax : List ℝ → Option ℝ
  | [] => none
  | x :: xs => some (xs.foldl max x)

/-- Entry `i` of the padded grid, gaussian_kde.rs lines 45-49 and multi_kde/mod.rs lines 63-64. -/
def gridAt (mn mx : ℝ) (resolution i : Nat) : ℝ :=
  let padding := (mx - mn) * 0.1
  (mn - padding) + (i : ℝ) * (((mx + padding) - (mn - padding)) / ((resolution - 1 : Nat) : ℝ))

/-- Sample variance, the only entry of `data.t().cov(1.)` for one column. -/
def variance (col : List ℝ) : ℝ :=
  let mean := col.sum / col.length
  (col.map (fun x => (x - mean) * (x - mean))).sum / ((col.length : ℝ) - 1)

/-- `calculate_weights`, `neff`, `scotts_factor`, lines 104-119, for one column. -/
def scottsFactor (col : List ℝ) : ℝ :=
  let weights := List.replicate col.length (1 / (col.length : ℝ))
  let neff := 1 / (weights.map (fun w => w ^ 2)).sum
  neff ^ (-1 / ((1 + 4 : Nat) : ℝ))

/-- `compute_covariance`, lines 98-102. `none`: the covariance is singular (`unwrap` of the inverse). -/
def precision (col : List ℝ) : Option ℝ :=
  if variance col = 0 then none else some ((variance col)⁻¹ / scottsFactor col ^ 2)

/-- Summand of data point `x` at grid position `j`: actors/helper.rs lines 41-48 and 60-86 for one column. The Cholesky
factor of the 1x1 precision matrix is its square root. -/
def kernel (col : List ℝ) (prec mn mx : ℝ) (resolution : Nat) (x : ℝ) (j : Nat) : ℝ :=
  let whitening := √prec
  let norm := (2 * Real.pi) ^ (-(1 : ℝ) / 2) * whitening
  let residual := x * whitening - gridAt mn mx resolution j * whitening
  1 / (col.length : ℝ) * (Real.exp (-(residual ^ 2) / 2) * norm)

/-- `evaluate` of one helper for a range, helper.rs lines 60-86. -/
def evaluate (col : List ℝ) (prec mn mx : ℝ) (resolution : Nat) (range : Nat × Nat) : Nat → ℝ := fun j =>
  (((col.take range.2).drop range.1).map (fun x => kernel col prec mn mx resolution x j)).sum

/-- The density of a column as the actor with `t` threads reports it when the answers come in the order of the
tasks (`C37` shows that the order does not matter). -/
def density (t resolution : Nat) (col : List ℝ) : Option (Nat → ℝ) := do
  let mn ← colMin col
  let mx ← colMax col
  let prec ← precision col
  let ranges ← tasks col.length t
  let s ← (ranges.map (evaluate col prec mn mx resolution)).foldlM GState.onResponse (GState.start t)
  s.out.head?

/-! ## Clustering -/

/-- `argmin` of the distances, first minimum; multi_kde/mod.rs lines 116-119. -/
def closestLoop (x : ℝ) (best : ℝ) : List ℝ → ℝ
  | [] => best
  | p :: ps => closestLoop x (if |p - x| < |best - x| then p else best) ps

/-- `assign_closest_peak_values`, lines 107-120, for one point. `none`: `argmin` of nothing. -/
def closestPeak (peaks : List ℝ) (x : ℝ) : Option ℝ :=
  match peaks with
  | [] => none
  | p :: ps => some (closestLoop x p ps)

/-- `find_cluster_centers`, actors/mod.rs lines 73-92, given the reported density. -/
def columnCenters (resolution order : Nat) (col : List ℝ) (dens : Nat → ℝ) : Option (List ℝ) := do
  let mn ← colMin col
  let mx ← colMax col
  let idx ← findPeakIndex order ((List.range resolution).map dens)
  let peaks := idx.map (gridAt mn mx resolution)
  if peaks = [] then some (List.replicate col.length 0) else col.mapM (closestPeak peaks)

open Classical in
/-- The actor `MultiKDEActor`, actors/mod.rs lines 45-71 and 98-119: one column after the other, then the labels.
`data` lists the rows, all of length `dims`. -/
def cluster (t resolution order dims : Nat) (data : List (List ℝ)) : Option (List Nat × List (List ℝ)) := do
  let cols ← (List.range dims).mapM (fun c => data.mapM (fun row => row[c]?))
  let centers ← cols.mapM (fun col => do
    let dens ← density t resolution col
    columnCenters resolution order col dens)
  let rows ← (List.range data.length).mapM (fun i => centers.mapM (fun col => col[i]?))
  extractLabels rows

end
end Kde
end S2G
