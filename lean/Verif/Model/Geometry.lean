import Verif.Model.SegmentId
import Mathlib.LinearAlgebra.Matrix.NonsingularInverse
import Mathlib.LinearAlgebra.Matrix.ToLinearEquiv
import Mathlib.Data.Finset.Lattice.Fold

/-!
# Model of the intersection geometry
(`src/utils/geometry.rs`, `src/training/intersection_calculation/mod.rs` lines 59-173, `.../helper.rs`)

Coordinates are real numbers (`f32` in the code). Inverting a matrix fails exactly when its determinant is zero
(LAPACK reports an exactly zero pivot).
-/

namespace S2G
namespace Geometry
noncomputable section

/-- The matrix `vectors` of `line_plane_intersection`, src/utils/geometry.rs lines 24-40: the negated line vector and
the vectors from the first plane point to the others. -/
def vectors {n : Nat} (l0 l1 : Fin (n + 1) → ℝ) (pl : Fin (n + 1) → Fin (n + 1) → ℝ) :
    Matrix (Fin (n + 1)) (Fin (n + 1)) ℝ :=
  Matrix.of (Fin.cons (-(l1 - l0)) (fun k : Fin n => pl k.succ - pl 0))

/-- `line_plane_intersection`, src/utils/geometry.rs lines 20-47. `none`: the inversion fails. -/
def linePlane {n : Nat} (l0 l1 : Fin (n + 1) → ℝ) (pl : Fin (n + 1) → Fin (n + 1) → ℝ) :
    Option (Fin (n + 1) → ℝ) :=
  if (vectors l0 l1 pl).det = 0 then none
  else
    let t := (((vectors l0 l1 pl)⁻¹).transpose.mulVec (l0 - pl 0)) 0
    some (l0 + t • (l1 - l0))

/-- `get_max_coordinate().max(get_min_coordinate().abs())` of a point,
src/training/intersection_calculation/mod.rs lines 71-73 and 75-77. -/
def pointMax {n : Nat} (x : Fin (n + 1) → ℝ) : ℝ :=
  max (Finset.univ.sup' Finset.univ_nonempty x) |Finset.univ.inf' Finset.univ_nonempty x|

/-- `max_value`, lines 65-81, over the pairs of end points of all transitions. -/
def maxValue {n : Nat} (ts : List ((Fin (n + 1) → ℝ) × (Fin (n + 1) → ℝ))) : ℝ :=
  (ts.map (fun t => max (pointMax t.1) |pointMax t.2|)).foldl max 0

/-- Border angle of a segment, line 99. -/
def borderAngle (rate seg : Nat) : ℝ := 2 * Real.pi * seg / rate

/-- `planes_end_points[segment_id]`, lines 93-112: `radius = ‖(max, max)‖` at the border angle in the first two
coordinates, `max_value` in the others. -/
def planeEnd {m : Nat} (mx : ℝ) (rate seg : Nat) : Fin (m + 2) → ℝ := fun j =>
  if j.val = 0 then √(mx ^ 2 + mx ^ 2) * Real.cos (borderAngle rate seg)
  else if j.val = 1 then √(mx ^ 2 + mx ^ 2) * Real.sin (borderAngle rate seg)
  else mx

/-- `plane_points`, lines 147-159: the origin, for each further dimension the end point with that coordinate zeroed,
and the end point. -/
def planePoints {m : Nat} (mx : ℝ) (rate seg : Nat) : Fin (m + 2) → Fin (m + 2) → ℝ := fun k =>
  if k.val = 0 then 0
  else if k.val ≤ m then fun j => if j.val = k.val + 1 then 0 else planeEnd mx rate seg j
  else planeEnd mx rate seg

/-- `work` of the helper, src/training/intersection_calculation/helper.rs lines 16-35, without the norms. -/
def intersectionPoint {m : Nat} (ts : List ((Fin (m + 2) → ℝ) × (Fin (m + 2) → ℝ))) (rate : Nat)
    (t : (Fin (m + 2) → ℝ) × (Fin (m + 2) → ℝ)) (seg : Nat) : Option (Fin (m + 2) → ℝ) :=
  linePlane t.1 t.2 (planePoints (maxValue ts) rate seg)

/-- The norms of the columns of the intersection point reshaped to `[2, dims / 2]`, helper.rs lines 20-26
(row major: column `i` holds coordinates `i` and `dims / 2 + i`), for `dims = 2 * d`. -/
def distances {d : Nat} (x : Fin (d + d) → ℝ) : Fin d → ℝ := fun i =>
  √(x (Fin.castAdd d i) ^ 2 + x (Fin.natAdd d i) ^ 2)

end
end Geometry
end S2G
