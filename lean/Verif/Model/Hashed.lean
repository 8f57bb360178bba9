import Verif.Model.Whole

/-!
# Model of the keys of the centres, `src/utils/float_approx.rs`

`extract_labels_from_centers` puts the centres into a `HashMap` whose keys are vectors of `FloatApprox`. Their hash is computed from the number
times 80, converted to `isize`, and the conversion is unwrapped. `Model/Kde.lean` leaves the hash out; here it is. Numbers are real; `isize`
has 64 bits. `none` is a panic.
-/

namespace S2G
namespace Kde
noncomputable section

/-- The number without its fractional part. -/
def trunc (x : ℝ) : Int := if 0 ≤ x then ⌊x⌋ else ⌈x⌉

/-- `FloatApprox::approximate(8)`, src/utils/float_approx.rs lines 15-20 (`none`: the number does not fit into `isize`, `unwrap`). -/
def approximate (x : ℝ) : Option Int :=
  if -2 ^ 63 ≤ trunc (80 * x) ∧ trunc (80 * x) < 2 ^ 63 then some (trunc (80 * x)) else none

open Classical in
/-- The loop of `extract_labels_from_centers`, src/training/node_estimation/multi_kde/mod.rs lines 126-139: `get` (or `insert`, if the map is
empty) computes the hash of the centre, float_approx.rs lines 55-62. -/
def labelStepHashed (s : LabelState (List ℝ)) (center : List ℝ) : Option (LabelState (List ℝ)) := do
  let _ ← center.mapM approximate
  some (labelStep s center)

open Classical in
/-- `extract_labels_from_centers`, lines 122-159. -/
def extractLabelsHashed (centers : List (List ℝ)) : Option (List Nat × List (List ℝ)) := do
  let s ← centers.foldlM labelStepHashed {}
  if s.map = [] then none else some (s.labels, s.map.map (·.1))

/-- The centres of all rows, actors/mod.rs lines 45-71 and 73-92, as in `cluster`. -/
def centerRows (t resolution order dims : Nat) (data : List (List ℝ)) : Option (List (List ℝ)) := do
  let cols ← (List.range dims).mapM (fun c => data.mapM (fun row => row[c]?))
  let centers ← cols.mapM (fun col => do
    let dens ← density t resolution col
    columnCenters resolution order col dens)
  (List.range data.length).mapM (fun i => centers.mapM (fun col => col[i]?))

/-- The actor `MultiKDEActor` with the hashes of the centres. -/
def clusterHashed (t resolution order dims : Nat) (data : List (List ℝ)) : Option (List Nat × List (List ℝ)) := do
  let rows ← centerRows t resolution order dims data
  extractLabelsHashed rows

end
end Kde

namespace Whole
open Points Pipeline

noncomputable section

/-- `clustering` with the hashes. -/
def clusteringHashed (resolution order : Nat) (p : Parameters) (e : Nat) (data : List (List ℝ)) : Option (List Nat) :=
  (Kde.clusterHashed p.nThreads resolution order (e + 1) data).map Prod.fst

/-- `scoreWith` with the hashes. -/
def scoreWithHashed (resolution order : Nat) (p : Parameters) (e len : Nat) (mirror : Pt → Pt) (pts : List Pt) (eff : List Point)
    (stored : List Trans) : Option ParScore :=
  if (intersectionTasks p.rate stored).all (fun x => (interCoord e eff stored p.rate x).isSome) then
    Pipeline.localRun (clusteringHashed resolution order p e) (fun x => (interCoord e eff stored p.rate x).getD []) mirror p len pts
  else none

/-- `score` with the hashes: the stages from the points to the instructions for the scoring. -/
def scoreHashed (resolution order : Nat) (p : Parameters) (e len : Nat) (pts : List Point) : Option ParScore := do
  let mirrored ← pts.mapM (mirrorPoint p.rate)
  let eff ← effectivePoints p mirrored pts
  let t ← Pipeline.segment p (mirrorPt mirrored) (pts.map toPt)
  scoreWithHashed resolution order p e len (mirrorPt mirrored) (pts.map toPt) eff t.stored

/-- A run on the series can deliver the vector, with the hashes. -/
def DeliversHashed {e w : Nat} (lib : Lib w) (resolution order : Nat) (p : Parameters) (series : List (Fin (e + 1) → ℝ))
    (v : Option (List (Option ℚ))) : Prop :=
  ∃ pts s0 s, PointsOf lib p series pts ∧ scoreHashed resolution order p e series.length pts = some s0 ∧ ParScore.Reachable s0 s ∧
    v ∈ Pipeline.delivered s

end
end Whole
end S2G
