import Verif.Model.Estimator
import Verif.Model.LoadNet

/-!
# The layout of a matrix in memory

`min_axis` and `max_axis` (src/utils/ndarray_extensions/mod.rs lines 92-131) look at the strides of the matrix. A matrix of `ndarray` or NumPy is
its rows together with the two strides, counted in elements. Not modelled is the memory itself: that copies have the same entries is taken from
`ndarray` and NumPy, as are the rules for the strides of copies.
-/

namespace S2G

/-- `Array2<f32>` or a NumPy array with two axes: the entries, and how far apart neighbours of a column (`rowStride`) and of a row (`colStride`)
are in memory. -/
structure Nd (e : Nat) where
  rows : List (Fin (e + 1) → ℝ)
  rowStride : Int
  colStride : Int

namespace Nd
open Manager

variable {e w : Nat}

/-- Row after row: the layout of `into_shape`, src/data_manager/mod.rs lines 217-221, and of most NumPy arrays (order 'C'). -/
def rowMajor (rows : List (Fin (e + 1) → ℝ)) : Nd e := ⟨rows, e + 1, 1⟩

/-- Column after column (order 'F'), as in `DataFrame.values` of pandas (README.md line 138) and in transposed arrays. -/
def colMajor (rows : List (Fin (e + 1) → ℝ)) : Nd e := ⟨rows, 1, rows.length⟩

/-- `is_contiguous` of `ndarray` (version 0.15) for two axes: the standard strides, or, the smaller stride first, a stride which is the product of
the lengths before, up to the sign and except for axes of length 1. -/
def contiguous (a : Nd e) : Prop :=
  (a.rowStride = e + 1 ∧ a.colStride = 1) ∨
    if |a.rowStride| ≤ |a.colStride| then
      (a.rows.length = 1 ∨ |a.rowStride| = 1) ∧ (e + 1 = 1 ∨ |a.colStride| = a.rows.length)
    else (e + 1 = 1 ∨ |a.colStride| = 1) ∧ (a.rows.length = 1 ∨ |a.rowStride| = e + 1)

instance (a : Nd e) : Decidable a.contiguous := by unfold contiguous; infer_instance

/-- `to_owned` of `ndarray` (version 0.15), also inside `to_shared`, minmax.rs lines 29-30: the copy keeps the strides of a contiguous matrix, otherwise
it is row after row. -/
def toOwned (a : Nd e) : Nd e := if a.contiguous then a else rowMajor a.rows

/-- `min_axis(Axis(0))`, src/utils/ndarray_extensions/mod.rs lines 92-110. `none`: `panic!("Not yet implemented!")`. -/
noncomputable def minAxis (a : Nd e) : Option (Fin (e + 1) → ℝ) := if a.colStride = 1 then some (lowest a.rows) else none

/-- `max_axis(Axis(0))`, src/utils/ndarray_extensions/mod.rs lines 112-131. -/
noncomputable def maxAxis (a : Nd e) : Option (Fin (e + 1) → ℝ) := if a.colStride = 1 then some (highest a.rows) else none

/-- `s2gpp(params, Some(data))`, src/lib.rs lines 27-32, can return the vector: `calculate_minmax` (minmax.rs lines 28-30) does not panic on
the data which is handed over without a change (src/training/mod.rs lines 157-161, src/data_manager/mod.rs lines 227-233), and the run of
`Model/Whole.lean` delivers it. -/
def Fit (lib : Whole.Lib w) (resolution order : Nat) (p : Parameters) (a : Nd e) (v : Option (List (Option ℚ))) : Prop :=
  (∃ lo hi, a.toOwned.minAxis = some lo ∧ a.toOwned.maxAxis = some hi) ∧ Whole.Delivers lib resolution order p a.rows v

/-- The flag `C_CONTIGUOUS` of NumPy: strides of axes of length 1 do not matter. -/
def flagC (a : Nd e) : Prop := (e + 1 = 1 ∨ a.colStride = 1) ∧ (a.rows.length = 1 ∨ a.rowStride = e + 1)

/-- The flag `F_CONTIGUOUS` of NumPy. -/
def flagF (a : Nd e) : Prop := (a.rows.length = 1 ∨ a.rowStride = 1) ∧ (e + 1 = 1 ∨ a.colStride = a.rows.length)

instance (a : Nd e) : Decidable a.flagC := by unfold flagC; infer_instance

instance (a : Nd e) : Decidable a.flagF := by unfold flagF; infer_instance

/-- `X.astype(np.float32)`, s2gpp/__init__.py line 37, makes a copy with `order='K'`: row after row, if the array is `C_CONTIGUOUS`; else column after
column, if it is `F_CONTIGUOUS`; else as the sizes of the strides are ordered. (Entries are real numbers here.) -/
def astype (a : Nd e) : Nd e :=
  if a.flagC then rowMajor a.rows
  else if a.flagF then colMajor a.rows
  else if |a.colStride| ≤ |a.rowStride| then rowMajor a.rows
  else colMajor a.rows

/-- `Series2GraphPP.fit_predict(X)`, s2gpp/__init__.py lines 36-48 and src/python_binding.rs lines 31-38 (`as_array().to_owned()`), can return
the vector. -/
def FitPredict (lib : Whole.Lib w) (resolution order : Nat) (x : Estimator) (a : Nd e) (v : Option (List (Option ℚ))) : Prop :=
  ∃ p, x.parameters = some p ∧
    (∃ s, Preproc.Reachable (K := ℝ) p.nThreads (e + 1) a.rows s ∧ 0 < s.mgr.doneMsgs) ∧ Fit lib resolution order p a.astype.toOwned v

end Nd
end S2G
