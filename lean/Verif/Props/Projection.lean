import Verif.Props.Pca
import Mathlib.Algebra.BigOperators.Fin
import Mathlib.Tactic.Ring
import Mathlib.Tactic.FieldSimp

/-!
# C66: the reduced points are the coordinates of the centred data along the components
-/

namespace S2G
namespace Pca
variable {d : Nat}

/-- Specification: the coordinate of `x` along `v`, seen from `m`. -/
def coordinate (m v x : Row d) : ℝ := ∑ a, (x a - m a) * v a

theorem reduceRow_eq (vs : List (Row d)) (m x : Row d) : reduceRow vs m x = vs.map (fun v => coordinate m v x) := by
  unfold reduceRow coordinate
  apply List.map_congr_left
  intro v _
  rw [← List.ofFn_eq_map, List.sum_ofFn]

theorem sum_swap {β : Type} (D : List β) (f : β → Fin d → ℝ) :
    (D.map (fun x => ∑ a, f x a)).sum = ∑ a, (D.map (fun x => f x a)).sum := by
  induction D with
  | nil => simp
  | cons x D ih => simp only [List.map_cons, List.sum_cons, ih, Finset.sum_add_distrib]

/-- C66: with the global means and factor of C22, reducing gives one coordinate per component; the coordinates of all points
along a component sum to zero, and their squares to the quadratic form of the factor, which is what the component was chosen by. -/
theorem C66_projection {D : List (Row d)} (hD : D ≠ []) {S : Summary d} (hS : Summarises D S) (vs : List (Row d)) :
    (∀ x, (reduceRow vs S.means x).length = vs.length) ∧ ∀ (k : Nat) (v : Row d), vs[k]? = some v →
      (∀ x, (reduceRow vs S.means x)[k]? = some (coordinate (mean D) v x)) ∧
      (D.map (coordinate (mean D) v)).sum = 0 ∧
      (D.map (fun x => coordinate (mean D) v x ^ 2)).sum = ∑ a, ∑ b, v a * gram S.r a b * v b := by
  have hn : (D.length : ℝ) ≠ 0 := by
    rw [Nat.cast_ne_zero]
    exact fun h => hD (List.length_eq_zero_iff.1 h)
  refine ⟨fun x => by rw [reduceRow_eq, List.length_map], fun k v hk => ⟨fun x => ?_, ?_, ?_⟩⟩
  · rw [reduceRow_eq, List.getElem?_map, hk, hS.means]
    rfl
  · unfold coordinate
    rw [sum_swap]
    apply Finset.sum_eq_zero
    intro a _
    rw [List.sum_map_mul_right]
    have : (D.map (fun x => x a - mean D a)).sum = (D.map (fun x => x a)).sum - D.length * mean D a := by
      generalize mean D a = c
      clear hn hS hD
      induction D with
      | nil => simp
      | cons y D ih =>
        simp only [List.map_cons, List.sum_cons, List.length_cons]
        rw [ih]
        push_cast
        ring
    rw [this]
    unfold mean
    rw [mul_div_cancel₀ _ hn]
    ring
  · rw [hS.r]
    have h1 : ∀ x : Row d, coordinate (mean D) v x ^ 2 =
        ∑ a, ∑ b, v a * ((x a - mean D a) * (x b - mean D b)) * v b := by
      intro x
      unfold coordinate
      rw [pow_two, Finset.sum_mul_sum]
      refine Finset.sum_congr rfl (fun a _ => Finset.sum_congr rfl (fun b _ => ?_))
      ring
    simp only [h1]
    rw [sum_swap]
    refine Finset.sum_congr rfl (fun a _ => ?_)
    rw [sum_swap]
    refine Finset.sum_congr rfl (fun b _ => ?_)
    unfold gram
    rw [List.map_map, List.sum_map_mul_right, List.sum_map_mul_left]
    rfl

/-- C66: adding the same row to all data and to the point changes nothing. -/
theorem C66_shift {D : List (Row d)} (hD : D ≠ []) (c x : Row d) (vs : List (Row d)) :
    reduceRow vs (mean (D.map (fun y => y + c))) (x + c) = reduceRow vs (mean D) x := by
  have hn : (D.length : ℝ) ≠ 0 := by
    rw [Nat.cast_ne_zero]
    exact fun h => hD (List.length_eq_zero_iff.1 h)
  have hm : mean (D.map (fun y => y + c)) = mean D + c := by
    funext a
    unfold mean
    rw [List.map_map, List.length_map, Pi.add_apply]
    have : ((fun x : Row d => x a) ∘ fun y => y + c) = fun y => y a + c a := rfl
    rw [this, List.sum_map_add]
    simp only [List.map_const', List.sum_replicate, nsmul_eq_mul]
    field_simp
  rw [hm, reduceRow_eq, reduceRow_eq]
  apply List.map_congr_left
  intro v _
  unfold coordinate
  refine Finset.sum_congr rfl (fun a _ => ?_)
  simp only [Pi.add_apply]
  ring

example : Summarises [![1, 2], ![3, 4]] (localStep id [![1, 2], ![3, 4]]) := summarises_local (fun _ => rfl) _
example : ([![1, 2], ![3, 4]] : List (Row 2)) ≠ [] := by simp

end Pca
end S2G
