import Verif.Model.Whole

/-!
# Runs in which a rotation matrix is NaN

`Model/Whole.lean` stops where `get_rotation_matrix` divides by zero. The code goes on: all nine entries of the matrix of that
dimension are NaN (the factor `(1 - c) / s^2` of src/training/rotation/mod.rs line 188 is NaN or infinite, and it is multiplied with
every entry of `k^2`, which is zero or NaN), so both rotated coordinates of the dimension are NaN in every point. Here a coordinate
is `none` if it is NaN. What intersections and clustering do with NaN is left open: they are parameters.
-/

namespace S2G
namespace Whole
noncomputable section

open Pca Rotation Points

variable {e w : Nat} {X : Type}

/-- `Points.coordinates` with matrices which may be NaN, src/training/rotation/mod.rs lines 205-229. -/
def coordinatesN {d : Nat} (R : Fin d → Option (Matrix (Fin 3) (Fin 3) ℝ)) (row : Fin d → Vec) : List (Option ℝ) :=
  [fun p : ℝ × ℝ => p.1, fun p => p.2].flatMap (fun coord => (List.finRange d).map (fun m => (R m).map (fun M => coord (rotateRow M (row m)))))

/-- Segment of a point: `atan2` of NaN is NaN, `floor` keeps it, and `NaN as usize` is 0 (src/data_store/utils.rs lines 3-7,
src/data_store/point.rs lines 26-29, src/utils/ndarray_extensions/mod.rs lines 148-154). -/
def segmentN (rate : Nat) (c : List (Option ℝ)) : Option Nat := do
  let x ← c[0]?
  let y ← c[1]?
  match x, y with
  | some x, some y => SegmentId.pointSegment x y rate
  | _, _ => checkedMod 0 rate

/-- Ids and segments of the points, `add_points_with_offset`, src/data_store/mod.rs lines 56-69, on the only node. -/
def pointsN (rate : Nat) (cs : List (List (Option ℝ))) : Option (List Pt) := do
  let segs ← cs.mapM (segmentN rate)
  some (List.zipWith Pt.mk (List.range segs.length) segs)

/-- Coordinates of a mirrored point, src/data_store/point.rs lines 53-58. -/
def mirrorN : List (Option ℝ) → List (Option ℝ)
  | [] => []
  | c :: cs => c.map (· * (-1)) :: cs

/-- The coordinates of all points of a series, as `PointsOf`, but with NaN. -/
def CoordsN (lib : Lib w) (p : Parameters) (series : List (Fin (e + 1) → ℝ)) (R : Fin (e + 1) → Option (Matrix (Fin 3) (Fin 3) ℝ))
    (cs : List (List (Option ℝ))) : Prop :=
  ∃ (lo hi : Fin (e + 1) → ℝ) (ps ref : List (List (Fin (e + 1) → ℝ))) (comps : Fin (e + 1) → List (Row (w + 1)))
    (means : Fin (e + 1) → Row (w + 1)) (first : List (Fin (e + 1) → ℝ)),
    (∀ m, columnMin series m = some (lo m) ∧ columnMax series m = some (hi m)) ∧
    checkedSub p.patternLength p.latent = some (w + 1) ∧
    PhaseSpace.referenceDataset p lo hi = some ref ∧ PhaseSpace.build p series = some ps ∧
    (∀ m, PcaOf lib p.nThreads (column ps m) (comps m) (means m)) ∧ ref.head? = some first ∧
    (∀ m, R m = rotationMatrix (reduced (comps m) (means m) (fun j => first.getD j 0 m))) ∧
    cs = (List.range ps.length).map (fun i => coordinatesN R (fun m => reduced (comps m) (means m) ((column ps m).getD i 0)))

/-- A run on the series, in which matrices may be NaN, can deliver the vector; `clu` and `coord`: clustering and coordinates of
intersections. -/
def DeliversN (lib : Lib w) (clu : List X → Option (List Nat)) (coord : Inter → X) (p : Parameters) (series : List (Fin (e + 1) → ℝ))
    (R : Fin (e + 1) → Option (Matrix (Fin 3) (Fin 3) ℝ)) (v : Option (List (Option ℚ))) : Prop :=
  ∃ cs pts mirrored s0 s, CoordsN lib p series R cs ∧ pointsN p.rate cs = some pts ∧ pointsN p.rate (cs.map mirrorN) = some mirrored ∧
    Pipeline.localRun clu coord (fun a => (mirrored.find? (fun x => x.id = a.id)).getD a) p series.length pts = some s0 ∧
    ParScore.Reachable s0 s ∧ v ∈ Pipeline.delivered s

end
end Whole
end S2G
