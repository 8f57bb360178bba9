import Verif.Model.Parameters
import Mathlib.Analysis.SpecialFunctions.Complex.Arg

/-!
# Model of the segment id of a point
(`src/data_store/utils.rs`, `src/data_store/point.rs`, `src/utils/ndarray_extensions/mod.rs` lines 143-163)

Coordinates and angles are real numbers (`f32` in the code). `atan2(y, x)` is the argument of `x + iy` in `(-π, π]`.
-/

namespace S2G
namespace SegmentId
noncomputable section

/-- `get_segment_id`, src/data_store/utils.rs lines 3-7. `floor() as usize` is the floor clipped at 0; `none`: `% 0`. -/
def getSegmentId (angle : ℝ) (nSegments : Nat) : Option Nat :=
  let positiveAngle := 2 * Real.pi + angle
  let segmentSize := 2 * Real.pi / (nSegments : ℝ)
  checkedMod ⌊positiveAngle / segmentSize⌋₊ nSegments

/-- Angle of `to_polar`, src/utils/ndarray_extensions/mod.rs lines 148-154. -/
def theta (x y : ℝ) : ℝ := Complex.arg ⟨x, y⟩

/-- `Point::new_calculate_segment`, src/data_store/point.rs lines 26-29, for the first two coordinates. -/
def pointSegment (x y : ℝ) (nSegments : Nat) : Option Nat := getSegmentId (theta x y) nSegments

/-- `Point::mirror`, src/data_store/point.rs lines 53-58: negate the first coordinate, recompute the segment. -/
def mirrorSegment (x y : ℝ) (nSegments : Nat) : Option Nat := pointSegment (-x) y nSegments

end
end SegmentId
end S2G
