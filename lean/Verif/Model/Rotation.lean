import Mathlib.Analysis.Real.Sqrt
import Mathlib.LinearAlgebra.Matrix.Notation

/-!
# Model of the rotation

`src/training/rotation/mod.rs` for one input dimension (the code treats all dimensions at once, each with its own matrix), over
the real numbers (the code: f32). `none` is a matrix of NaNs (division by zero).
-/

namespace S2G
namespace Rotation

/-- A reduced point. -/
abbrev Vec := Fin 3 → ℝ

/-- `norm`, src/utils/ndarray_extensions/mod.rs lines 12-14, for one column. -/
noncomputable def norm (x : Vec) : ℝ := Real.sqrt (x 0 ^ 2 + x 1 ^ 2 + x 2 ^ 2)

/-- `cross1d`, src/utils/ndarray_extensions/mod.rs lines 43-49. -/
def cross (a b : Vec) : Vec := ![a 1 * b 2 - a 2 * b 1, a 2 * b 0 - a 0 * b 2, a 0 * b 1 - a 1 * b 0]

/-- The matrix `k`, lines 161-180. -/
def skew (v : Vec) : Matrix (Fin 3) (Fin 3) ℝ := !![0, -v 2, v 1; v 2, 0, -v 0; -v 1, v 0, 0]

/-- `get_rotation_matrix`, lines 131-189; `u` is the first reference point after reduction. -/
noncomputable def rotationMatrix (u : Vec) : Option (Matrix (Fin 3) (Fin 3) ℝ) :=
  if norm u = 0 then none
  else
    let a : Vec := fun i => u i / norm u
    let b : Vec := ![0, 0, 1]
    let v := cross a b
    let c := b 0 * a 0 + b 1 * a 1 + b 2 * a 2
    let s := norm v
    if s * s = 0 then none
    else some (1 + skew v + ((1 - c) / (s * s)) • (skew v * skew v))

/-- One row of `apply_rotation_matrix`, lines 205-224: the row times the transposed matrix, of which the first two entries are
kept. -/
def rotateRow (R : Matrix (Fin 3) (Fin 3) ℝ) (x : Vec) : ℝ × ℝ :=
  (Matrix.vecMul x R.transpose 0, Matrix.vecMul x R.transpose 1)

end Rotation
end S2G
