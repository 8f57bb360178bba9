import Verif.Model.Rotation
import Mathlib.LinearAlgebra.Matrix.Determinant.Basic
import Mathlib.Tactic.Linarith
import Mathlib.Tactic.LinearCombination
import Mathlib.Tactic.FieldSimp
import Mathlib.Tactic.FinCases
import Mathlib.Tactic.Positivity

/-!
# C24: the rotation
-/

namespace S2G
namespace Rotation
open Matrix

theorem norm_sq (x : Vec) : norm x * norm x = x 0 ^ 2 + x 1 ^ 2 + x 2 ^ 2 := Real.mul_self_sqrt (by positivity)

theorem norm_eq_zero {x : Vec} : norm x = 0 ↔ x 0 = 0 ∧ x 1 = 0 ∧ x 2 = 0 := by
  unfold norm
  rw [Real.sqrt_eq_zero (by positivity)]
  constructor
  · intro h
    refine ⟨?_, ?_, ?_⟩ <;> nlinarith [sq_nonneg (x 0), sq_nonneg (x 1), sq_nonneg (x 2)]
  · rintro ⟨h0, h1, h2⟩
    simp [h0, h1, h2]

/-- The matrix in closed form: `a` is the unit vector, `w = 1/(1+a2)`. -/
theorem matrix_form {u : Vec} (h : u 0 ≠ 0 ∨ u 1 ≠ 0) : ∃ (a0 a1 a2 w : ℝ), a0 ^ 2 + a1 ^ 2 + a2 ^ 2 = 1 ∧ w * (1 + a2) = 1 ∧
    u 0 = norm u * a0 ∧ u 1 = norm u * a1 ∧ u 2 = norm u * a2 ∧
    rotationMatrix u = some !![1 - w * a0 ^ 2, -(w * a0 * a1), -a0; -(w * a0 * a1), 1 - w * a1 ^ 2, -a1; a0, a1, a2] := by
  have hn : norm u ≠ 0 := by
    rw [Ne, norm_eq_zero]
    tauto
  have hsq := norm_sq u
  have hA : (u 0 / norm u) ^ 2 + (u 1 / norm u) ^ 2 + (u 2 / norm u) ^ 2 = 1 := by
    field_simp
    linarith
  have hpos : 0 < (u 0 / norm u) ^ 2 + (u 1 / norm u) ^ 2 := by
    rcases h with h | h
    · have : 0 < (u 0 / norm u) ^ 2 := by positivity
      nlinarith [sq_nonneg (u 1 / norm u)]
    · have : 0 < (u 1 / norm u) ^ 2 := by positivity
      nlinarith [sq_nonneg (u 0 / norm u)]
  set a0 := u 0 / norm u with h0
  set a1 := u 1 / norm u with h1
  set a2 := u 2 / norm u with h2
  have hs : norm (cross (fun i => u i / norm u) ![0, 0, 1]) * norm (cross (fun i => u i / norm u) ![0, 0, 1]) =
      a0 ^ 2 + a1 ^ 2 := by
    rw [norm_sq]
    simp [cross, ← h0, ← h1, ← h2]
    ring
  have hs0 : a0 ^ 2 + a1 ^ 2 ≠ 0 := hpos.ne'
  refine ⟨a0, a1, a2, (1 - a2) / (a0 ^ 2 + a1 ^ 2), hA, ?_, ?_, ?_, ?_, ?_⟩
  · have : a0 ^ 2 + a1 ^ 2 = (1 - a2) * (1 + a2) := by linear_combination hA
    rw [div_mul_eq_mul_div, ← this, div_self hs0]
  · rw [h0]; field_simp
  · rw [h1]; field_simp
  · rw [h2]; field_simp
  · unfold rotationMatrix
    rw [if_neg hn]
    simp only [hs, if_neg hs0]
    congr 1
    have hw : (1 - a2) / (a0 ^ 2 + a1 ^ 2) * (a0 ^ 2 + a1 ^ 2) = 1 - a2 := div_mul_cancel₀ _ hs0
    have hv : cross (fun i => u i / norm u) ![0, 0, 1] = ![a1, -a0, 0] := by
      simp [cross, ← h0, ← h1]
    rw [hv]
    simp only [← h0, ← h1, ← h2, Matrix.cons_val_zero, Matrix.cons_val_one, Matrix.cons_val, zero_mul, one_mul, zero_add]
    generalize (1 - a2) / (a0 ^ 2 + a1 ^ 2) = w at *
    ext i j
    fin_cases i <;> fin_cases j <;> simp [skew] <;>
      first | ring1 | linear_combination (-1 : ℝ) * hw

/-- C24: for every reference vector which is not parallel to the z axis, the matrix is a rotation (orthogonal, determinant 1)
which maps the vector to the z axis. -/
theorem C24_rotation {u : Vec} (h : u 0 ≠ 0 ∨ u 1 ≠ 0) : ∃ R, rotationMatrix u = some R ∧ R * R.transpose = 1 ∧
    R.transpose * R = 1 ∧ R.det = 1 ∧ R.mulVec u = ![0, 0, norm u] := by
  obtain ⟨a0, a1, a2, w, hA, hw, e0, e1, e2, hR⟩ := matrix_form h
  refine ⟨_, hR, ?_, ?_, ?_, ?_⟩
  · ext i j
    fin_cases i <;> fin_cases j <;> simp [Matrix.mul_apply, Fin.sum_univ_three] <;> grind
  · ext i j
    fin_cases i <;> fin_cases j <;> simp [Matrix.mul_apply, Fin.sum_univ_three] <;> grind
  · rw [Matrix.det_fin_three]
    simp
    grind
  · funext i
    generalize norm u = n at *
    fin_cases i <;> simp [Matrix.mulVec, dotProduct, Fin.sum_univ_three, e0, e1, e2] <;> grind

/-- C24 (what fails): exactly for a reference vector parallel to the z axis the result is NaN. -/
theorem C24_nan_iff {u : Vec} : rotationMatrix u = none ↔ u 0 = 0 ∧ u 1 = 0 := by
  constructor
  · intro h
    by_contra hu
    obtain ⟨R, hR, _⟩ := C24_rotation (u := u) (by tauto)
    rw [h] at hR
    cases hR
  · rintro ⟨h0, h1⟩
    unfold rotationMatrix
    split
    · rfl
    · have : norm (cross (fun i => u i / norm u) ![0, 0, 1]) = 0 := by
        rw [norm_eq_zero]
        simp [cross, h0, h1]
      simp [this]

/-- C24: the first reference point is projected to the origin. -/
theorem C24_reference {u : Vec} (h : u 0 ≠ 0 ∨ u 1 ≠ 0) : (rotationMatrix u).map (fun R => rotateRow R u) = some (0, 0) := by
  obtain ⟨R, hR, _, _, _, hu⟩ := C24_rotation h
  rw [hR, Option.map_some]
  unfold rotateRow
  rw [Matrix.vecMul_transpose, hu]
  rfl

/-- C24: distances between points are preserved by the rotation, so that distances in the plane are not larger. -/
theorem C24_distances {u : Vec} {R : Matrix (Fin 3) (Fin 3) ℝ} (hR : rotationMatrix u = some R) (x y : Vec) :
    norm (R.mulVec x - R.mulVec y) = norm (x - y) ∧
    ((rotateRow R x).1 - (rotateRow R y).1) ^ 2 + ((rotateRow R x).2 - (rotateRow R y).2) ^ 2 ≤
      norm (x - y) * norm (x - y) := by
  have h : u 0 ≠ 0 ∨ u 1 ≠ 0 := by
    by_contra h
    push Not at h
    have := C24_nan_iff.2 h
    rw [this] at hR
    cases hR
  obtain ⟨R', hR', _, ho, _, _⟩ := C24_rotation h
  rw [hR] at hR'
  cases hR'
  have hn : ∀ z : Vec, norm z * norm z = z ⬝ᵥ z := by
    intro z
    rw [norm_sq, dotProduct, Fin.sum_univ_three]
    ring
  have hdot : (R.mulVec (x - y)) ⬝ᵥ (R.mulVec (x - y)) = (x - y) ⬝ᵥ (x - y) := by
    rw [Matrix.dotProduct_mulVec, Matrix.vecMul_mulVec, ho, Matrix.vecMul_one]
  have hsub : R.mulVec x - R.mulVec y = R.mulVec (x - y) := (Matrix.mulVec_sub R x y).symm
  have h1 : norm (R.mulVec x - R.mulVec y) * norm (R.mulVec x - R.mulVec y) = norm (x - y) * norm (x - y) := by
    rw [hsub, hn, hn, hdot]
  constructor
  · unfold norm
    rw [← norm_sq, ← norm_sq, h1]
  · rw [← h1, norm_sq]
    unfold rotateRow
    simp only [Matrix.vecMul_transpose, Pi.sub_apply]
    nlinarith [sq_nonneg (R.mulVec x 2 - R.mulVec y 2)]

-- the reference vector (3, 0, 4)
example : (∃ R, rotationMatrix ![3, 0, 4] = some R ∧ R * R.transpose = 1) :=
  let ⟨R, h1, h2, _⟩ := C24_rotation (u := ![3, 0, 4]) (Or.inl (by simp))
  ⟨R, h1, h2⟩

end Rotation
end S2G
