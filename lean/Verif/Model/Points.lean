import Verif.Model.Rotation
import Verif.Model.SegmentId
import Verif.Model.PhaseSpace

/-!
# Model of the points made of the rotated rows

`apply_rotation_matrix` (`src/training/rotation/mod.rs` lines 205-245) and `add_points_with_offset` (`src/data_store/mod.rs` lines
56-69) for all dimensions (columns of the series) together. A reduced row is one vector per dimension.
-/

namespace S2G
namespace Points
noncomputable section

open Rotation

/-- `Point`, src/data_store/point.rs lines 11-16. -/
structure Point where
  id : Nat
  coordinates : List ℝ
  segment : Nat

/-- One row of `rotated.into_shape([rows, 2 * dims])`, src/training/rotation/mod.rs lines 212-229: the array of shape
`[rows, 2, dims]` is flattened in row-major order, so the first coordinates of all dimensions come first. -/
def coordinates {d : Nat} (R : Fin d → Matrix (Fin 3) (Fin 3) ℝ) (row : Fin d → Vec) : List ℝ :=
  [fun p : ℝ × ℝ => p.1, fun p => p.2].flatMap (fun coord => (List.finRange d).map (fun m => coord (rotateRow (R m) (row m))))

/-- `Point::new_calculate_segment`, src/data_store/point.rs lines 26-29, with `to_polar`, which reads `self[0]` and `self[1]`
(src/utils/ndarray_extensions/mod.rs lines 148-154). `none`: index out of bounds or no segments. -/
def newPoint (id : Nat) (coords : List ℝ) (nSegments : Nat) : Option Point := do
  let x ← coords[0]?
  let y ← coords[1]?
  let segment ← SegmentId.pointSegment x y nSegments
  some { id := id, coordinates := coords, segment := segment }

/-- `add_points_with_offset`, src/data_store/mod.rs lines 56-69. -/
def addPoints (offset nSegments : Nat) : List (List ℝ) → Option (List Point)
  | [] => some []
  | c :: cs => do
    let p ← newPoint offset c nSegments
    let ps ← addPoints (offset + 1) nSegments cs
    some (p :: ps)

/-- `apply_rotation_matrix`, src/training/rotation/mod.rs lines 205-245, on node `ownId` of `k`; `n` is `dataset_stats.n`.
`none`: no dimensions (`stack` of nothing), or a panic in one of the steps. -/
def applyRotation {d : Nat} (R : Fin d → Matrix (Fin 3) (Fin 3) ℝ) (reduced : List (Fin d → Vec)) (n k ownId rate : Nat) :
    Option (List Point) :=
  if d = 0 then none
  else do
    let perNode ← checkedDiv n k
    addPoints (perNode * ownId) rate (reduced.map (coordinates R))

end
end Points
end S2G
