import Verif.Model.Layout
import Verif.Props.Estimator
import Verif.Props.FileRun
import Verif.Props.WholeOrderExample

/-!
# The layout of the data in memory decides whether there is a result (C89)
-/

namespace S2G
namespace Nd
open Whole Manager

variable {e w : Nat}

theorem loads_iff (a : Nd e) :
    (∃ lo hi, a.toOwned.minAxis = some lo ∧ a.toOwned.maxAxis = some hi) ↔ a.colStride = 1 ∨ ¬ a.contiguous := by
  unfold toOwned minAxis maxAxis rowMajor
  by_cases h : a.contiguous <;> by_cases h1 : a.colStride = 1 <;> simp [h, h1]

/-- **C89 (minima).** If the statistics do not panic, they are the minima and maxima of the columns, whatever the layout. -/
theorem C89_minima {a : Nd e} (hne : a.rows ≠ []) {lo hi : Fin (e + 1) → ℝ} (h1 : a.toOwned.minAxis = some lo) (h2 : a.toOwned.maxAxis = some hi)
    (m : Fin (e + 1)) : ((∃ r ∈ a.rows, r m = lo m) ∧ ∀ r ∈ a.rows, lo m ≤ r m) ∧ (∃ r ∈ a.rows, r m = hi m) ∧ ∀ r ∈ a.rows, r m ≤ hi m := by
  have hr : a.toOwned.rows = a.rows := by unfold toOwned; split <;> rfl
  have e1 : lo = lowest a.rows := by
    unfold minAxis at h1
    split at h1
    · rw [← Option.some.inj h1, hr]
    · exact absurd h1 (by simp)
  have e2 : hi = highest a.rows := by
    unfold maxAxis at h2
    split at h2
    · rw [← Option.some.inj h2, hr]
    · exact absurd h2 (by simp)
  obtain ⟨x, hx⟩ : ∃ x, columnMin a.rows m = some x := by
    obtain ⟨r, l, hl⟩ := List.exists_cons_of_ne_nil hne
    rw [hl]
    exact ⟨_, rfl⟩
  obtain ⟨y, hy⟩ := columnMax_some hne m
  have e1' : lo m = x := by rw [e1]; unfold lowest; rw [hx]; rfl
  have e2' : hi m = y := by rw [e2]; unfold highest; rw [hy]; rfl
  have hx' := (Cluster.colMin_iff _ _).1 hx
  have hy' := (Cluster.colMax_iff _ _).1 hy
  simp only [List.mem_map, forall_exists_index, and_imp, forall_apply_eq_imp_iff₂] at hx' hy'
  rw [e1', e2']
  exact ⟨hx', hy'⟩

/-- **C89 (library).** `s2gpp(params, Some(data))` on a matrix returns exactly what the run on its rows delivers, if the matrix has stride 1 along the
rows or is not contiguous; otherwise it returns nothing. -/
theorem C89_library {lib : Lib w} {resolution order : Nat} {p : Parameters} {a : Nd e} {v : Option (List (Option ℚ))} :
    Fit lib resolution order p a v ↔ (a.colStride = 1 ∨ ¬ a.contiguous) ∧ Delivers lib resolution order p a.rows v := by
  unfold Fit
  rw [loads_iff]

/-- **C89 (rows).** Data stored row after row, as the reader of files stores it, never fails because of its layout. -/
theorem C89_rows {lib : Lib w} {resolution order : Nat} {p : Parameters} {rows : List (Fin (e + 1) → ℝ)} {v : Option (List (Option ℚ))} :
    Fit lib resolution order p (rowMajor rows) v ↔ Delivers lib resolution order p rows v := by
  rw [C89_library]
  exact ⟨fun h => h.2, fun h => ⟨.inl rfl, h⟩⟩

theorem colMajor_contiguous (rows : List (Fin (e + 1) → ℝ)) (h : 1 ≤ rows.length) : (colMajor rows).contiguous := by
  right
  unfold colMajor
  simp only
  rw [if_pos (by rw [abs_one, abs_of_nonneg (by omega)]; omega)]
  exact ⟨.inr abs_one, .inr (abs_of_nonneg (by omega))⟩

/-- **C89 (columns).** FALSE: the layout does not matter. A matrix of at least two rows stored column after column never gives a result, even if it has
only one column. -/
theorem C89_columns {lib : Lib w} {resolution order : Nat} {p : Parameters} {rows : List (Fin (e + 1) → ℝ)} (h : 2 ≤ rows.length)
    {v : Option (List (Option ℚ))} : ¬ Fit lib resolution order p (colMajor rows) v := by
  rw [C89_library]
  rintro ⟨h1 | h1, -⟩
  · have : ((rows.length : Nat) : Int) = 1 := h1
    omega
  · exact h1 (colMajor_contiguous rows (by omega))

/-- The same for data whose columns have been reversed without a copy. -/
theorem C89_reversed {lib : Lib w} {resolution order : Nat} {p : Parameters} {rows : List (Fin (e + 1) → ℝ)} (he : 1 ≤ e)
    {v : Option (List (Option ℚ))} : ¬ Fit lib resolution order p ⟨rows, e + 1, -1⟩ v := by
  rw [C89_library]
  rintro ⟨h1 | h1, -⟩
  · exact absurd h1 (by simp)
  · refine h1 (.inr ?_)
    have h2 : |((e : Int) + 1)| = e + 1 := abs_of_nonneg (by omega)
    rw [if_neg (by simp only [h2, abs_neg, abs_one]; omega)]
    simp [h2]

theorem astype_rows (a : Nd e) : a.astype.rows = a.rows := by
  unfold astype
  split
  · rfl
  · split
    · rfl
    · split <;> rfl

theorem rowMajor_toOwned (rows : List (Fin (e + 1) → ℝ)) : (rowMajor rows).toOwned = rowMajor rows := by
  unfold toOwned
  split <;> rfl

theorem colMajor_toOwned (rows : List (Fin (e + 1) → ℝ)) (h : 1 ≤ rows.length) : (colMajor rows).toOwned = colMajor rows :=
  if_pos (colMajor_contiguous rows h)

theorem predict_of {lib : Lib w} {resolution order : Nat} {x : Estimator} {a : Nd e} (hr : 2 ≤ a.rows.length) {v : Option (List (Option ℚ))} {P : Prop}
    (hp : P → a.astype = rowMajor a.rows) (hn : ¬ P → a.astype = colMajor a.rows) :
    FitPredict lib resolution order x a v ↔ P ∧ Estimator.FitPredict lib resolution order x a.rows v := by
  unfold FitPredict Estimator.FitPredict
  by_cases h : P
  · rw [hp h, rowMajor_toOwned]
    simp only [C89_rows, h, true_and]
  · rw [hn h, colMajor_toOwned _ (by omega)]
    constructor
    · rintro ⟨p, -, -, h3⟩
      exact absurd h3 (C89_columns hr)
    · exact fun h' => absurd h'.1 h

/-- **C89 (Python).** With at least two rows and two columns, `fit_predict` returns exactly what the run on the rows of the array delivers (C79) if
neighbours in a row are not further apart in memory than neighbours in a column; otherwise it never returns. -/
theorem C89_python {lib : Lib w} {resolution order : Nat} {x : Estimator} {a : Nd e} (hr : 2 ≤ a.rows.length) (he : 1 ≤ e)
    {v : Option (List (Option ℚ))} :
    FitPredict lib resolution order x a v ↔
      |a.colStride| ≤ |a.rowStride| ∧ Estimator.FitPredict lib resolution order x a.rows v := by
  refine predict_of hr (fun h => ?_) fun h => ?_
  · unfold astype
    split
    · rfl
    · rw [if_neg]
      rintro ⟨h1, h2⟩
      have h1' : a.rowStride = 1 := h1.resolve_left (by omega)
      have h2' : a.colStride = a.rows.length := h2.resolve_left (by omega)
      rw [h1', h2', abs_one, abs_of_nonneg (by omega)] at h
      omega
  · unfold astype
    rw [if_neg, if_neg h, ite_self]
    rintro ⟨h1, h2⟩
    have h1' : a.colStride = 1 := h1.resolve_left (by omega)
    have h2' : a.rowStride = e + 1 := h2.resolve_left (by omega)
    rw [h1', h2', abs_one, abs_of_nonneg (by omega)] at h
    omega

/-- **C89 (one column).** With one column also a contiguous column is accepted, wherever the next column would be. -/
theorem C89_one_column {lib : Lib w} {resolution order : Nat} {x : Estimator} {a : Nd 0} (hr : 2 ≤ a.rows.length) {v : Option (List (Option ℚ))} :
    FitPredict lib resolution order x a v ↔
      (a.rowStride = 1 ∨ |a.colStride| ≤ |a.rowStride|) ∧ Estimator.FitPredict lib resolution order x a.rows v := by
  refine predict_of hr (fun h => ?_) fun h => ?_
  · unfold astype
    by_cases hc : a.flagC
    · rw [if_pos hc]
    · have h1 : a.rowStride ≠ 1 := fun h1 => hc ⟨.inl rfl, .inr (by simpa using h1)⟩
      rw [if_neg hc, if_neg, if_pos (h.resolve_left h1)]
      rintro ⟨h2, -⟩
      exact h1 (h2.resolve_left (by omega))
  · push Not at h
    unfold astype
    rw [if_neg, if_neg (not_le.2 h.2), ite_self]
    rintro ⟨-, h2⟩
    exact h.1 (by simpa using h2.resolve_left (by omega))

/-- **C89 (frame).** FALSE: the example of the README returns scores. For an array with at least two rows and two columns which is stored column
after column, as `DataFrame.values` is, `fit_predict` never returns, whatever the parameters. -/
theorem C89_frame {lib : Lib w} {resolution order : Nat} {x : Estimator} {rows : List (Fin (e + 1) → ℝ)} (hr : 2 ≤ rows.length) (he : 1 ≤ e)
    {v : Option (List (Option ℚ))} : ¬ FitPredict lib resolution order x (colMajor rows) v := by
  rw [C89_python hr he]
  rintro ⟨h, -⟩
  unfold colMajor at h
  simp only [abs_one] at h
  rw [abs_of_nonneg (by omega)] at h
  omega

/-- **C89 (array).** For an array stored row after row it returns what C79 says. -/
theorem C89_array {lib : Lib w} {resolution order : Nat} {x : Estimator} {rows : List (Fin (e + 1) → ℝ)} (hr : 2 ≤ rows.length) (he : 1 ≤ e)
    {v : Option (List (Option ℚ))} :
    FitPredict lib resolution order x (rowMajor rows) v ↔ Estimator.FitPredict lib resolution order x rows v := by
  rw [C89_python (a := rowMajor rows) hr he]
  refine ⟨fun h => h.2, fun h => ⟨?_, h⟩⟩
  unfold rowMajor
  simp only [abs_one]
  rw [abs_of_nonneg (by omega)]
  omega

/-- **C89 (same entries).** There is a matrix of two columns for which `Series2GraphPP(4, rate=4, query_length=1).fit_predict` returns [1, 0, 0] if
it is stored row after row (also if only every second row or column of a larger array is used), and nothing if it is stored column after column. -/
theorem C89_same_entries (resolution order : Nat) : ∃ rows : List (Fin 2 → ℝ), ∀ v,
    (FitPredict exLib resolution order (Estimator.new 8 4 none 4 (some 1)) (rowMajor rows) v ↔ v = some [some 1, some 0, some 0]) ∧
    (FitPredict exLib resolution order (Estimator.new 8 4 none 4 (some 1)) ⟨rows, 4, 2⟩ v ↔ v = some [some 1, some 0, some 0]) ∧
    ¬ FitPredict exLib resolution order (Estimator.new 8 4 none 4 (some 1)) (colMajor rows) v := by
  have hlen : (exCols (e := 0) (fun m => decide (m = 1))).length = 7 := by simp [exCols, waves]
  have key : ∀ v, Estimator.FitPredict exLib resolution order (Estimator.new 8 4 none 4 (some 1)) (exCols (e := 0) (fun m => decide (m = 1))) v ↔
      v = some [some 1, some 0, some 0] := by
    intro v
    rw [Estimator.C79_returns, ← exCols_delivers (e := 0) resolution order (c := fun m => decide (m = 1)) rfl rfl v]
    constructor
    · rintro ⟨p, h1, -, h2⟩
      have : p = exP := by
        have h3 : (Estimator.new 8 4 none 4 (some 1)).parameters = some exP := rfl
        rw [h3] at h1
        exact (Option.some.inj h1).symm
      rwa [this] at h2
    · exact fun h => ⟨exP, rfl, le_rfl, h⟩
  refine ⟨_, fun v => ⟨?_, ?_, C89_frame (e := 1) (by rw [hlen]; omega) le_rfl⟩⟩
  · rw [C89_array (e := 1) (by rw [hlen]; omega) le_rfl, key]
  · rw [C89_python (e := 1) (by simp only [hlen]; omega) le_rfl, key]
    simp

end Nd
end S2G
