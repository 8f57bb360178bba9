import Verif.Props.KdeDensity
import Mathlib.Analysis.SpecialFunctions.Pow.Real
import Mathlib.Analysis.SpecialFunctions.Sqrt

/-!
# C65: the density is the Gaussian kernel density estimate with Scott's bandwidth
-/

namespace S2G
namespace Kde

/-! ## Specification -/

/-- Sample variance. -/
noncomputable def sampleVar (col : List ℝ) : ℝ :=
  (col.map (fun x => (x - col.sum / col.length) ^ 2)).sum / (col.length - 1)

/-- Scott's bandwidth in one dimension. -/
noncomputable def bandwidth (col : List ℝ) : ℝ := √(sampleVar col) * (col.length : ℝ) ^ (-(1 / 5) : ℝ)

/-- Density of the normal distribution with mean `y` and deviation `h`. -/
noncomputable def gauss (h y x : ℝ) : ℝ := Real.exp (-((x - y) / h) ^ 2 / 2) / (h * √(2 * Real.pi))

/-- `resolution` equidistant positions from a tenth of the range below the minimum to a tenth above the maximum. -/
noncomputable def position (mn mx : ℝ) (resolution j : Nat) : ℝ :=
  (mn - (mx - mn) / 10) + j * ((12 / 10 * (mx - mn)) / (resolution - 1 : Nat))

/-! ## Proof -/

theorem foldl_min_spec : ∀ (l : List ℝ) (a : ℝ), l.foldl min a ∈ a :: l ∧ ∀ x ∈ a :: l, l.foldl min a ≤ x
  | [], a => by simp
  | b :: l, a => by
    obtain ⟨h1, h2⟩ := foldl_min_spec l (min a b)
    rw [List.foldl_cons]
    constructor
    · rcases List.mem_cons.1 h1 with h | h
      · rw [h]
        rcases min_choice a b with h | h <;> rw [h] <;> simp
      · exact List.mem_cons_of_mem _ (List.mem_cons_of_mem _ h)
    · intro x hx
      have h0 := h2 (min a b) (by simp)
      rcases List.mem_cons.1 hx with rfl | hx
      · exact h0.trans (min_le_left _ _)
      · rcases List.mem_cons.1 hx with rfl | hx
        · exact h0.trans (min_le_right _ _)
        · exact h2 x (List.mem_cons_of_mem _ hx)

theorem foldl_max_spec : ∀ (l : List ℝ) (a : ℝ), l.foldl max a ∈ a :: l ∧ ∀ x ∈ a :: l, x ≤ l.foldl max a
  | [], a => by simp
  | b :: l, a => by
    obtain ⟨h1, h2⟩ := foldl_max_spec l (max a b)
    rw [List.foldl_cons]
    constructor
    · rcases List.mem_cons.1 h1 with h | h
      · rw [h]
        rcases max_choice a b with h | h <;> rw [h] <;> simp
      · exact List.mem_cons_of_mem _ (List.mem_cons_of_mem _ h)
    · intro x hx
      have h0 := h2 (max a b) (by simp)
      rcases List.mem_cons.1 hx with rfl | hx
      · exact (le_max_left _ _).trans h0
      · rcases List.mem_cons.1 hx with rfl | hx
        · exact (le_max_right _ _).trans h0
        · exact h2 x (List.mem_cons_of_mem _ hx)

theorem variance_eq (col : List ℝ) : variance col = sampleVar col := by
  unfold variance sampleVar
  simp only [pow_two]

theorem scottsFactor_eq {col : List ℝ} (hne : col ≠ []) : scottsFactor col = (col.length : ℝ) ^ (-(1 / 5) : ℝ) := by
  have hn : (col.length : ℝ) ≠ 0 := by
    rw [Nat.cast_ne_zero]
    exact fun h => hne (List.length_eq_zero_iff.1 h)
  unfold scottsFactor
  simp only [List.map_replicate, List.sum_replicate, nsmul_eq_mul]
  congr 1
  · field_simp
  · norm_num

theorem gridAt_eq (mn mx : ℝ) (resolution j : Nat) : gridAt mn mx resolution j = position mn mx resolution j := by
  unfold gridAt position
  simp only
  congr 1
  · norm_num; ring
  · congr 2
    norm_num; ring

/-- C65: a density which is reported is, at every position of the grid, the average of the normal densities around the data
points with Scott's bandwidth; the bandwidth is positive. -/
theorem C65_density {t resolution : Nat} (ht : 1 ≤ t) {col : List ℝ} (h2 : 2 ≤ col.length) {dens : Nat → ℝ}
    (h : density t resolution col = some dens) :
    0 < bandwidth col ∧ ∃ mn ∈ col, ∃ mx ∈ col, (∀ x ∈ col, mn ≤ x ∧ x ≤ mx) ∧ ∀ j,
      dens j = (col.map (gauss (bandwidth col) (position mn mx resolution j))).sum / col.length := by
  obtain ⟨mn, mx, prec, h1, h3, h4, rfl⟩ := (density_spec ht h2).2 dens h
  have hne : col ≠ [] := by rintro rfl; simp at h2
  have hn : (0 : ℝ) < col.length := by exact_mod_cast (by omega : 0 < col.length)
  have hv0 : variance col ≠ 0 := by
    unfold precision at h4
    split at h4
    · cases h4
    · assumption
  have hv : 0 < sampleVar col := by
    rw [← variance_eq]
    refine lt_of_le_of_ne ?_ (Ne.symm hv0)
    unfold variance
    apply div_nonneg
    · apply List.sum_nonneg
      intro y hy
      obtain ⟨x, _, rfl⟩ := List.mem_map.1 hy
      exact mul_self_nonneg _
    · have : (2 : ℝ) ≤ col.length := by exact_mod_cast h2
      linarith
  have hs : 0 < (col.length : ℝ) ^ (-(1 / 5) : ℝ) := Real.rpow_pos_of_pos hn _
  have hb : 0 < bandwidth col := mul_pos (Real.sqrt_pos.2 hv) hs
  refine ⟨hb, ?_⟩
  have hw : √prec = (bandwidth col)⁻¹ := by
    have hprec : prec = ((bandwidth col)⁻¹) ^ 2 := by
      unfold precision at h4
      rw [if_neg hv0] at h4
      rw [← Option.some.inj h4, variance_eq, scottsFactor_eq hne]
      unfold bandwidth
      rw [inv_pow, mul_pow, Real.sq_sqrt hv.le, mul_inv, div_eq_mul_inv]
    rw [hprec, Real.sqrt_sq (inv_pos.2 hb).le]
  have hpi : (2 * Real.pi) ^ (-(1 : ℝ) / 2) = (√(2 * Real.pi))⁻¹ := by
    rw [Real.sqrt_eq_rpow, ← Real.rpow_neg (by positivity)]
    congr 1
    norm_num
  have hmem : mn ∈ col ∧ mx ∈ col ∧ ∀ x ∈ col, mn ≤ x ∧ x ≤ mx := by
    cases col with
    | nil => exact absurd rfl hne
    | cons a l =>
      have e1 := Option.some.inj h1
      have e2 := Option.some.inj h3
      obtain ⟨a1, a2⟩ := foldl_min_spec l a
      obtain ⟨b1, b2⟩ := foldl_max_spec l a
      rw [e1] at a1 a2
      rw [e2] at b1 b2
      exact ⟨a1, b1, fun x hx => ⟨a2 x hx, b2 x hx⟩⟩
  refine ⟨mn, hmem.1, mx, hmem.2.1, hmem.2.2, fun j => ?_⟩
  have hk : ∀ x, kernel col prec mn mx resolution x j =
      gauss (bandwidth col) (position mn mx resolution j) x * (col.length : ℝ)⁻¹ := by
    intro x
    unfold kernel gauss
    simp only
    rw [hw, hpi, gridAt_eq, ← sub_mul, ← div_eq_mul_inv, div_eq_mul_inv (Real.exp _), mul_inv]
    ring
  simp only [hk]
  rw [List.sum_map_mul_right, div_eq_mul_inv]

/-- The grid begins a tenth of the range below the minimum and ends a tenth above the maximum. -/
theorem C65_grid (mn mx : ℝ) {resolution : Nat} (h : 2 ≤ resolution) :
    gridAt mn mx resolution 0 = mn - (mx - mn) / 10 ∧ gridAt mn mx resolution (resolution - 1) = mx + (mx - mn) / 10 ∧
    ∀ j, gridAt mn mx resolution (j + 1) - gridAt mn mx resolution j = 12 / 10 * (mx - mn) / (resolution - 1 : Nat) := by
  have hr : ((resolution - 1 : Nat) : ℝ) ≠ 0 := by
    rw [Nat.cast_ne_zero]
    omega
  simp only [gridAt_eq, position]
  refine ⟨by simp, ?_, fun j => ?_⟩
  · field_simp
    ring
  · push_cast
    ring

/-- A column with a density. -/
example : ∃ dens, density 2 5 [0, 1, 3] = some dens := by
  cases h : density 2 5 [0, 1, 3] with
  | some d => exact ⟨d, rfl⟩
  | none =>
    have := ((density_spec (t := 2) (resolution := 5) (by decide) (col := [0, 1, 3]) (by decide)).1.1 h) 0 (by simp) 1 (by simp)
    norm_num at this

end Kde
end S2G
