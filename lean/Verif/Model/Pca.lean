import Mathlib.Analysis.Real.Sqrt
import Mathlib.LinearAlgebra.Matrix.Notation

/-!
# Model of the numeric part of the PCA

`src/training/rotation/pca/mod.rs` and `src/training/rotation/pca/helper.rs` over the real numbers (the code: f32). A matrix
with `d` columns is the list of its rows. The QR decomposition of the library is a parameter `qr` which returns the triangular
factor; all that is assumed about it is that the Gram matrix is unchanged (`RᵀR = AᵀA`, from `A = QR` and `QᵀQ = 1`).
-/

namespace S2G
namespace Pca
variable {d : Nat}

/-- A row. -/
abbrev Row (d : Nat) := Fin d → ℝ

/-- What one participant knows of its data: `column_means` (one row), `n`, `local_r`. -/
structure Summary (d : Nat) where
  means : Row d
  n : ℝ
  r : List (Row d)

/-- `mean_axis(Axis(0))` of a non-empty matrix. -/
noncomputable def colMeans (data : List (Row d)) : Row d := fun a => (data.map (· a)).sum / data.length

/-- `center_columns_decomposition` without sending, pca/mod.rs lines 92-110, helper.rs lines 36-48. -/
noncomputable def localStep (qr : List (Row d) → List (Row d)) (data : List (Row d)) : Summary d :=
  { means := colMeans data
    n := data.length
    r := qr (data.map (fun x => x - colMeans data)) }

/-- `combine_remote_r`, pca/mod.rs lines 191-203, helper.rs lines 110-122: both factors below each other. -/
def combine (qr : List (Row d) → List (Row d)) (a b : List (Row d)) : List (Row d) := qr (a ++ b)

/-- `global_means`, pca/mod.rs lines 206-211, helper.rs lines 125-130; `ms` are the rows of `column_means` with the entries of
`n`. -/
noncomputable def globalMeans (ms : List (Row d × ℝ)) : Row d :=
  fun a => (ms.map (fun x => x.2 * x.1 a)).sum / (ms.map Prod.snd).sum

/-- `finalize` up to the factor, pca/mod.rs lines 205-224, helper.rs lines 124-148. -/
noncomputable def finalize (qr : List (Row d) → List (Row d)) (ms : List (Row d × ℝ)) (r : List (Row d)) : Summary d :=
  { means := globalMeans ms
    n := (ms.map Prod.snd).sum
    r := qr (ms.map (fun x => fun a => Real.sqrt x.2 * (x.1 a - globalMeans ms a)) ++ r) }

/-- `normalize` of one component, pca/mod.rs lines 235-249. -/
noncomputable def normalizeRow (v : Row (d + 1)) : Row (d + 1) := if 0 ≤ v 0 then v else fun a => v a * (-1)

/-- `normalize`, pca/mod.rs lines 235-249. -/
noncomputable def normalize (vs : List (Row (d + 1))) : List (Row (d + 1)) := vs.map normalizeRow

/-- One row of `reduce`, src/training/rotation/mod.rs lines 68-129. -/
noncomputable def reduceRow (components : List (Row d)) (means : Row d) (x : Row d) : List ℝ :=
  components.map (fun v => ((List.finRange d).map (fun a => (x a - means a) * v a)).sum)

end Pca
end S2G
