import Verif.Model.Geometry
import Verif.Props.SegmentId
import Verif.Props.Transition
import Mathlib.Tactic.Linarith
import Mathlib.Tactic.Ring
import Mathlib.Tactic.FieldSimp

/-!
# C31: intersections of steps with segment borders
-/

namespace S2G
namespace Geometry

open Matrix

/-- `x` is on the line through `l0` and `l1`. -/
def OnLine {n : Nat} (l0 l1 x : Fin n → ℝ) : Prop := ∃ t : ℝ, ∀ j, x j = l0 j + t * (l1 j - l0 j)

/-- `x` is in the plane through the points `pl`. -/
def InPlane {n : Nat} (pl : Fin (n + 1) → Fin (n + 1) → ℝ) (x : Fin (n + 1) → ℝ) : Prop :=
  ∃ c : Fin n → ℝ, ∀ j, x j = pl 0 j + ∑ k, c k * (pl k.succ j - pl 0 j)

theorem vecMul_vectors {n : Nat} (l0 l1 : Fin (n + 1) → ℝ) (pl : Fin (n + 1) → Fin (n + 1) → ℝ)
    (v : Fin (n + 1) → ℝ) (j : Fin (n + 1)) :
    (v ᵥ* vectors l0 l1 pl) j = v 0 * -(l1 j - l0 j) + ∑ k : Fin n, v k.succ * (pl k.succ j - pl 0 j) := by
  simp [vecMul, dotProduct, vectors, Fin.sum_univ_succ]

theorem mulVec_vectors_zero {n : Nat} (l0 l1 : Fin (n + 1) → ℝ) (pl : Fin (n + 1) → Fin (n + 1) → ℝ)
    (w : Fin (n + 1) → ℝ) :
    (vectors l0 l1 pl *ᵥ w) 0 = ∑ j, -(l1 j - l0 j) * w j := by
  simp [mulVec, dotProduct, vectors]

theorem mulVec_vectors_succ {n : Nat} (l0 l1 : Fin (n + 1) → ℝ) (pl : Fin (n + 1) → Fin (n + 1) → ℝ)
    (w : Fin (n + 1) → ℝ) (k : Fin n) :
    (vectors l0 l1 pl *ᵥ w) k.succ = ∑ j, (pl k.succ j - pl 0 j) * w j := by
  simp [mulVec, dotProduct, vectors]

/-- C31 (general): a returned point is on the line and in the plane, and no other point is. -/
theorem C31_sound {n : Nat} {l0 l1 : Fin (n + 1) → ℝ} {pl : Fin (n + 1) → Fin (n + 1) → ℝ}
    {x : Fin (n + 1) → ℝ} (h : linePlane l0 l1 pl = some x) :
    OnLine l0 l1 x ∧ InPlane pl x ∧ ∀ y, OnLine l0 l1 y → InPlane pl y → y = x := by
  unfold linePlane at h
  split at h
  · cases h
  rename_i hdet
  simp only [Option.some.injEq] at h
  have hu : IsUnit (vectors l0 l1 pl).det := isUnit_iff_ne_zero.2 hdet
  obtain ⟨v, hv⟩ : ∃ v, v = ((vectors l0 l1 pl)⁻¹)ᵀ *ᵥ (l0 - pl 0) := ⟨_, rfl⟩
  have hvA : v ᵥ* vectors l0 l1 pl = l0 - pl 0 := by
    rw [hv, mulVec_transpose, vecMul_vecMul, nonsing_inv_mul _ hu, vecMul_one]
  rw [← hv] at h
  have hx : ∀ j, x j = l0 j + v 0 * (l1 j - l0 j) := by
    intro j; rw [← h]; simp
  refine ⟨⟨v 0, hx⟩, ⟨fun k => v k.succ, ?_⟩, ?_⟩
  · intro j
    have := congrFun hvA j
    rw [vecMul_vectors] at this
    simp only [Pi.sub_apply] at this
    rw [hx]
    linarith
  · rintro y ⟨t, ht⟩ ⟨c, hc⟩
    have e : (Fin.cons t c : Fin (n + 1) → ℝ) ᵥ* vectors l0 l1 pl = l0 - pl 0 := by
      funext j
      rw [vecMul_vectors]
      simp only [Fin.cons_zero, Fin.cons_succ, Pi.sub_apply]
      have h1 := ht j
      have h2 := hc j
      linarith
    have e2 : (Fin.cons t c : Fin (n + 1) → ℝ) = v := by
      have := congrArg (fun u => u ᵥ* (vectors l0 l1 pl)⁻¹) (e.trans hvA.symm)
      simpa [vecMul_vecMul, mul_nonsing_inv _ hu] using this
    have e3 : t = v 0 := by rw [← e2]; rfl
    funext j
    rw [ht, hx, e3]

/-- C31 (general): the calculation fails iff some non-trivial combination of the line vector and the plane vectors
vanishes. -/
theorem C31_none_iff {n : Nat} (l0 l1 : Fin (n + 1) → ℝ) (pl : Fin (n + 1) → Fin (n + 1) → ℝ) :
    linePlane l0 l1 pl = none ↔ ∃ (a : ℝ) (c : Fin n → ℝ), (a ≠ 0 ∨ c ≠ 0) ∧
      ∀ j, a * (l1 j - l0 j) = ∑ k, c k * (pl k.succ j - pl 0 j) := by
  have : linePlane l0 l1 pl = none ↔ (vectors l0 l1 pl).det = 0 := by
    unfold linePlane
    split <;> simp_all
  rw [this, ← exists_vecMul_eq_zero_iff]
  constructor
  · rintro ⟨v, hv, h⟩
    refine ⟨v 0, fun k => v k.succ, ?_, ?_⟩
    · by_contra hc
      push Not at hc
      apply hv
      funext j
      refine Fin.cases hc.1 (fun k => ?_) j
      exact congrFun hc.2 k
    · intro j
      have := congrFun h j
      rw [vecMul_vectors] at this
      simp only [Pi.zero_apply] at this
      linarith
  · rintro ⟨a, c, hne, h⟩
    refine ⟨Fin.cons a c, ?_, ?_⟩
    · intro h0
      rcases hne with ha | hc
      · exact ha (congrFun h0 0)
      · apply hc
        funext k
        exact congrFun h0 k.succ
    · funext j
      rw [vecMul_vectors]
      simp only [Fin.cons_zero, Fin.cons_succ, Pi.zero_apply]
      have := h j
      linarith

/-! ### The borders of the segments -/

theorem sum_two {m : Nat} (f : Fin (m + 2) → ℝ) (h : ∀ j : Fin (m + 2), 2 ≤ j.val → f j = 0) :
    ∑ j, f j = f 0 + f 1 := by
  rw [Fin.sum_univ_succ, Fin.sum_univ_succ, Finset.sum_eq_zero]
  · simp
  · intro i _
    exact h _ (by simp)

theorem planePoints_zero {m : Nat} (mx : ℝ) (rate seg : Nat) :
    (planePoints mx rate seg : Fin (m + 2) → Fin (m + 2) → ℝ) 0 = 0 := by simp [planePoints]

theorem planeEnd_zero {m : Nat} (mx : ℝ) (rate seg : Nat) :
    (planeEnd mx rate seg : Fin (m + 2) → ℝ) 0 = √(mx ^ 2 + mx ^ 2) * Real.cos (borderAngle rate seg) := by
  simp [planeEnd]

theorem planeEnd_one {m : Nat} (mx : ℝ) (rate seg : Nat) :
    (planeEnd mx rate seg : Fin (m + 2) → ℝ) 1 = √(mx ^ 2 + mx ^ 2) * Real.sin (borderAngle rate seg) := by
  simp [planeEnd]

theorem planePoints_succ_01 {m : Nat} (mx : ℝ) (rate seg : Nat) (k : Fin (m + 1)) (j : Fin (m + 2))
    (hj : j.val < 2) :
    (planePoints mx rate seg : Fin (m + 2) → Fin (m + 2) → ℝ) k.succ j = planeEnd mx rate seg j := by
  simp only [planePoints, Fin.val_succ]
  rw [if_neg (by omega)]
  split
  · exact if_neg (by omega)
  · rfl

theorem inPlane_border {m : Nat} {mx : ℝ} {rate seg : Nat} {x : Fin (m + 2) → ℝ}
    (h : InPlane (planePoints mx rate seg) x) :
    x 0 * Real.sin (borderAngle rate seg) = x 1 * Real.cos (borderAngle rate seg) := by
  obtain ⟨c, hc⟩ := h
  rw [hc 0, hc 1, planePoints_zero]
  simp only [planePoints_succ_01 _ _ _ _ 0 (by simp), planePoints_succ_01 _ _ _ _ 1 (by simp),
    Pi.zero_apply, zero_add, sub_zero]
  rw [← Finset.sum_mul, ← Finset.sum_mul, planeEnd_zero, planeEnd_one]
  ring

/-- C31 (borders): the calculation for a segment border fails iff all coordinates of the end points of all
transitions are zero (`max_value = 0`), or the step is parallel to the border in the first two coordinates. -/
theorem C31_border_none_iff {m : Nat} (l0 l1 : Fin (m + 2) → ℝ) (mx : ℝ) (rate seg : Nat) :
    linePlane l0 l1 (planePoints mx rate seg) = none ↔
      mx = 0 ∨ (l1 0 - l0 0) * Real.sin (borderAngle rate seg) = (l1 1 - l0 1) * Real.cos (borderAngle rate seg) := by
  have hdet : linePlane l0 l1 (planePoints mx rate seg) = none ↔
      (vectors l0 l1 (planePoints mx rate seg)).det = 0 := by
    unfold linePlane
    split <;> simp_all
  have hsc := Real.sin_sq_add_cos_sq (borderAngle rate seg)
  rw [hdet]
  constructor
  · intro h
    by_contra hc
    push Not at hc
    obtain ⟨hm, hp⟩ := hc
    obtain ⟨w, hw, hz⟩ := exists_mulVec_eq_zero_iff.2 h
    have hend : ∑ j, planeEnd mx rate seg j * w j = 0 := by
      have := congrFun hz (Fin.last m).succ
      rw [mulVec_vectors_succ, planePoints_zero] at this
      simpa [planePoints] using this
    have hw2 : ∀ j : Fin (m + 2), 2 ≤ j.val → w j = 0 := by
      intro j hj
      have := congrFun hz (⟨j.val - 2, by omega⟩ : Fin (m + 1)).succ
      rw [mulVec_vectors_succ, planePoints_zero] at this
      have e : ∑ i, (planeEnd mx rate seg i * w i - (planePoints mx rate seg
          (⟨j.val - 2, by omega⟩ : Fin (m + 1)).succ i - (0 : Fin (m + 2) → ℝ) i) * w i) = mx * w j := by
        rw [Finset.sum_eq_single j]
        · have : (planeEnd mx rate seg : Fin (m + 2) → ℝ) j = mx := by
            simp only [planeEnd]; rw [if_neg (by omega), if_neg (by omega)]
          rw [this]
          simp only [planePoints, Fin.val_succ]
          rw [if_neg (by omega), if_pos (by omega), if_pos (by omega)]
          simp
        · intro i _ hi
          simp only [planePoints, Fin.val_succ]
          rw [if_neg (by omega), if_pos (by omega), if_neg (by
            intro e; apply hi; apply Fin.ext; omega)]
          simp
        · simp
      rw [Finset.sum_sub_distrib, hend, this] at e
      simp only [Pi.zero_apply, sub_zero] at e
      rcases mul_eq_zero.1 e.symm with h' | h'
      · exact absurd h' hm
      · exact h'
    rw [sum_two _ (fun j hj => by rw [hw2 j hj, mul_zero]), planeEnd_zero, planeEnd_one] at hend
    have hl := congrFun hz 0
    rw [mulVec_vectors_zero, sum_two _ (fun j hj => by rw [hw2 j hj, mul_zero])] at hl
    simp only [Pi.zero_apply] at hl
    have hR : √(mx ^ 2 + mx ^ 2) ≠ 0 := by
      have : 0 < mx ^ 2 := by positivity
      positivity
    have hcw : Real.cos (borderAngle rate seg) * w 0 + Real.sin (borderAngle rate seg) * w 1 = 0 := by
      have : √(mx ^ 2 + mx ^ 2) * (Real.cos (borderAngle rate seg) * w 0 + Real.sin (borderAngle rate seg) * w 1) = 0 := by
        linarith
      exact (mul_eq_zero.1 this).resolve_left hR
    -- `w` is `s * (-sin, cos)`
    generalize Real.cos (borderAngle rate seg) = C at *
    generalize Real.sin (borderAngle rate seg) = S at *
    have e1 : w 0 = -(w 1 * C - w 0 * S) * S := by
      linear_combination (-w 0) * hsc + C * hcw
    have e2 : w 1 = (w 1 * C - w 0 * S) * C := by
      linear_combination (-w 1) * hsc + S * hcw
    have hs : (w 1 * C - w 0 * S) * ((l1 0 - l0 0) * S - (l1 1 - l0 1) * C) = 0 := by
      linear_combination hl + (l1 0 - l0 0) * e1 + (l1 1 - l0 1) * e2
    have hq : w 1 * C - w 0 * S = 0 := (mul_eq_zero.1 hs).resolve_right (sub_ne_zero.2 hp)
    rw [hq] at e1 e2
    apply hw
    funext j
    by_cases hj : 2 ≤ j.val
    · exact hw2 j hj
    · have : j = 0 ∨ j = 1 := by
        rcases j with ⟨j, hj'⟩
        simp only at hj
        rcases (show j = 0 ∨ j = 1 by omega) with rfl | rfl
        · exact Or.inl rfl
        · exact Or.inr rfl
      rcases this with rfl | rfl
      · rw [e1]; simp
      · rw [e2]; simp
  · rintro (rfl | hp)
    · apply det_eq_zero_of_row_eq_zero (Fin.last (m + 1))
      intro j
      have : (Fin.last (m + 1)) = (Fin.last m).succ := rfl
      rw [this]
      simp [vectors, planePoints, planeEnd]
    · apply exists_mulVec_eq_zero_iff.1
      refine ⟨fun j => if j.val = 0 then Real.sin (borderAngle rate seg)
        else if j.val = 1 then -Real.cos (borderAngle rate seg) else 0, ?_, ?_⟩
      · intro h
        have h0 := congrFun h 0
        have h1 := congrFun h 1
        simp only [Fin.val_zero, if_true, Pi.zero_apply] at h0
        simp at h1
        rw [h0, h1] at hsc
        norm_num at hsc
      · funext k
        refine Fin.cases ?_ (fun k => ?_) k
        · rw [mulVec_vectors_zero, sum_two _ (fun j hj => by
            rw [if_neg (by omega), if_neg (by omega), mul_zero])]
          simp only [Fin.val_zero, if_true, Pi.zero_apply, Fin.val_one]
          simp only [one_ne_zero, if_false]
          linarith
        · rw [mulVec_vectors_succ, sum_two _ (fun j hj => by
            rw [if_neg (by omega), if_neg (by omega), mul_zero]), planePoints_zero,
            planePoints_succ_01 _ _ _ _ 0 (by simp), planePoints_succ_01 _ _ _ _ 1 (by simp), planeEnd_zero, planeEnd_one]
          simp only [Fin.val_zero, if_true, Pi.zero_apply, Fin.val_one]
          simp only [one_ne_zero, if_false]
          ring

theorem abs_le_pointMax {n : Nat} (x : Fin (n + 1) → ℝ) (j : Fin (n + 1)) : |x j| ≤ pointMax x := by
  rw [abs_le]
  have h1 : x j ≤ Finset.univ.sup' Finset.univ_nonempty x := Finset.le_sup' x (Finset.mem_univ j)
  have h2 : Finset.univ.inf' Finset.univ_nonempty x ≤ x j := Finset.inf'_le x (Finset.mem_univ j)
  have h3 := neg_abs_le (Finset.univ.inf' Finset.univ_nonempty x)
  have h4 := le_max_left (Finset.univ.sup' Finset.univ_nonempty x) |Finset.univ.inf' Finset.univ_nonempty x|
  have h5 := le_max_right (Finset.univ.sup' Finset.univ_nonempty x) |Finset.univ.inf' Finset.univ_nonempty x|
  unfold pointMax
  constructor <;> linarith

theorem le_foldl_max (l : List ℝ) (a : ℝ) : a ≤ l.foldl max a ∧ ∀ b ∈ l, b ≤ l.foldl max a := by
  induction l generalizing a with
  | nil => simp
  | cons c l ih =>
    simp only [List.foldl_cons]
    obtain ⟨h1, h2⟩ := ih (max a c)
    refine ⟨le_trans (le_max_left a c) h1, ?_⟩
    intro b hb
    rcases List.mem_cons.1 hb with rfl | hb
    · exact le_trans (le_max_right a b) h1
    · exact h2 b hb

theorem maxValue_ge {n : Nat} {ts : List ((Fin (n + 1) → ℝ) × (Fin (n + 1) → ℝ))}
    {t : (Fin (n + 1) → ℝ) × (Fin (n + 1) → ℝ)} (ht : t ∈ ts) (j : Fin (n + 1)) :
    |t.1 j| ≤ maxValue ts ∧ |t.2 j| ≤ maxValue ts := by
  have h := (le_foldl_max (ts.map (fun t => max (pointMax t.1) |pointMax t.2|)) 0).2 _ (List.mem_map_of_mem ht)
  have h1 := abs_le_pointMax t.1 j
  have h2 := abs_le_pointMax t.2 j
  have h3 := le_abs_self (pointMax t.2)
  have h4 := le_max_left (pointMax t.1) |pointMax t.2|
  have h5 := le_max_right (pointMax t.1) |pointMax t.2|
  unfold maxValue
  constructor <;> linarith

/-- Planar core: if the direction `(C, S)` is strictly after `l0`, not before `l1`, and `l1` is less than half a turn
after `l0`, then the only point of the line on the border is between the end points, on the ray. -/
theorem between_core {C S x0 y0 x1 y1 x y t : ℝ}
    (h0 : 0 < x0 * S - y0 * C) (h1 : 0 ≤ C * y1 - S * x1) (h01 : 0 < x0 * y1 - y0 * x1)
    (hsc : S ^ 2 + C ^ 2 = 1) (hx : x = x0 + t * (x1 - x0)) (hy : y = y0 + t * (y1 - y0)) (hb : x * S = y * C) :
    0 < t ∧ t ≤ 1 ∧ ∃ r, 0 < r ∧ x = r * C ∧ y = r * S := by
  have hD : 0 < (x0 * S - y0 * C) + (C * y1 - S * x1) := by linarith
  have ht : t * ((x0 * S - y0 * C) + (C * y1 - S * x1)) = x0 * S - y0 * C := by
    rw [hx, hy] at hb
    linear_combination -hb
  have ht0 : 0 < t := by
    by_contra hc
    have : t * ((x0 * S - y0 * C) + (C * y1 - S * x1)) ≤ 0 :=
      mul_nonpos_of_nonpos_of_nonneg (not_lt.1 hc) hD.le
    linarith
  have ht1 : t ≤ 1 := by
    by_contra hc
    have : 0 < (t - 1) * ((x0 * S - y0 * C) + (C * y1 - S * x1)) := mul_pos (by linarith) hD
    linarith
  refine ⟨ht0, ht1, x * C + y * S, ?_, ?_, ?_⟩
  · have e : (x * C + y * S) * (x0 * S - y0 * C) = t * (x0 * y1 - y0 * x1) := by
      have e1 : x = (x * C + y * S) * C := by linear_combination (-x) * hsc + S * hb
      have e2 : y = (x * C + y * S) * S := by linear_combination (-y) * hsc - C * hb
      have : (x * C + y * S) * (x0 * S - y0 * C) = x0 * y - y0 * x := by
        linear_combination (-x0) * e2 + y0 * e1
      rw [this, hx, hy]; ring
    have : 0 < (x * C + y * S) * (x0 * S - y0 * C) := by rw [e]; exact mul_pos ht0 h01
    exact (pos_iff_pos_of_mul_pos this).2 h0
  · linear_combination (-x) * hsc + S * hb
  · linear_combination (-y) * hsc - C * hb

set_option maxHeartbeats 1000000 in
/-- C31 (steps): let `t` be one of the transitions, both ends different from the origin (in the first two
coordinates), moving forward by `k` borders with `2 (k + 1) ≤ rate`. Then for each of the borders it is crossed the
calculation succeeds, and the result is on the step (strictly after its start), and on the ray of the border. -/
theorem C31_crossing_below_half_turn {m : Nat} {ts : List ((Fin (m + 2) → ℝ) × (Fin (m + 2) → ℝ))}
    {t : (Fin (m + 2) → ℝ) × (Fin (m + 2) → ℝ)} (hmem : t ∈ ts) {rate f d k j : Nat}
    (hz0 : ¬(t.1 0 = 0 ∧ t.1 1 = 0)) (hz1 : ¬(t.2 0 = 0 ∧ t.2 1 = 0))
    (hf : SegmentId.pointSegment (t.1 0) (t.1 1) rate = some f)
    (hd : SegmentId.pointSegment (t.2 0) (t.2 1) rate = some d)
    (hk : Trans.ForwardBy rate f d k) (hk2 : 2 * (k + 1) ≤ rate) (hj : 1 ≤ j) (hjk : j ≤ k) :
    ∃ x, intersectionPoint ts rate t ((f + j) % rate) = some x ∧
      ∃ a r : ℝ, 0 < a ∧ a ≤ 1 ∧ (∀ i, x i = t.1 i + a * (t.2 i - t.1 i)) ∧ 0 < r ∧
        x 0 = r * Real.cos (borderAngle rate ((f + j) % rate)) ∧
        x 1 = r * Real.sin (borderAngle rate ((f + j) % rate)) := by
  have hrate : 0 < rate := by omega
  have hrR : (0 : ℝ) < rate := by exact_mod_cast hrate
  have hpi := Real.pi_pos
  obtain ⟨hfl, r0, φ0, hr0, hx0, hy0, hφ0, hφ0'⟩ := (SegmentId.C25_polar hz0 hrate f).1 hf
  obtain ⟨hdl, r1, φ1, hr1, hx1, hy1, hφ1, hφ1'⟩ := (SegmentId.C25_polar hz1 hrate d).1 hd
  obtain ⟨hk1, _, hdk⟩ := hk
  obtain ⟨w, hw⟩ : ∃ w : ℝ, w = 2 * Real.pi / rate := ⟨_, rfl⟩
  have hwpos : 0 < w := by rw [hw]; positivity
  have hwr : w * rate = 2 * Real.pi := by rw [hw]; field_simp
  have hkw : w * (k + 1) ≤ Real.pi := by
    have : (2 : ℝ) * (k + 1) ≤ rate := by exact_mod_cast hk2
    nlinarith
  have conv : ∀ a : ℝ, 2 * Real.pi * a / rate = w * a := by intro a; rw [hw]; ring
  rw [conv] at hφ0 hφ0' hφ1 hφ1'
  -- lift the angle of the end point
  obtain ⟨φ1u, hc1, hs1, hl1, hu1⟩ : ∃ φ : ℝ, Real.cos φ = Real.cos φ1 ∧ Real.sin φ = Real.sin φ1 ∧
      w * (f + k) ≤ φ ∧ φ < w * (f + k + 1) := by
    rw [Trans.mod_cases hfl (by omega)] at hdk
    split at hdk
    · refine ⟨φ1, rfl, rfl, ?_, ?_⟩ <;> rw [hdk] at hφ1 hφ1' <;> push_cast at hφ1 hφ1' <;> assumption
    · refine ⟨φ1 + 2 * Real.pi, Real.cos_add_two_pi _, Real.sin_add_two_pi _, ?_, ?_⟩
      · rw [hdk, Nat.cast_sub (by omega)] at hφ1
        push_cast at hφ1; linarith
      · rw [hdk, Nat.cast_sub (by omega)] at hφ1'
        push_cast at hφ1'; linarith
  obtain ⟨hcB, hsB⟩ : Real.cos (borderAngle rate ((f + j) % rate)) = Real.cos (w * (f + j)) ∧
      Real.sin (borderAngle rate ((f + j) % rate)) = Real.sin (w * (f + j)) := by
    unfold borderAngle
    rw [conv, Trans.mod_cases hfl (by omega)]
    split
    · push_cast; exact ⟨rfl, rfl⟩
    · rw [Nat.cast_sub (by omega)]
      push_cast
      have : w * ((f : ℝ) + j - rate) = w * (f + j) - 2 * Real.pi := by rw [← hwr]; ring
      rw [this]
      exact ⟨Real.cos_sub_two_pi _, Real.sin_sub_two_pi _⟩
  have hj1 : (1 : ℝ) ≤ j := by exact_mod_cast hj
  have hjkR : (j : ℝ) ≤ k := by exact_mod_cast hjk
  have hb1 : w * (f + j) - φ0 > 0 := by nlinarith
  have hb2 : w * (f + j) - φ0 < Real.pi := by nlinarith
  have hb3 : 0 ≤ φ1u - w * (f + j) := by nlinarith
  have hb4 : φ1u - w * (f + j) ≤ Real.pi := by nlinarith
  have hb5 : 0 < φ1u - φ0 := by linarith
  have hb6 : φ1u - φ0 < Real.pi := by nlinarith
  have s1 := Real.sin_pos_of_pos_of_lt_pi hb1 hb2
  have s2 := Real.sin_nonneg_of_nonneg_of_le_pi hb3 hb4
  have s3 := Real.sin_pos_of_pos_of_lt_pi hb5 hb6
  rw [Real.sin_sub] at s1 s2 s3
  have hsc := Real.sin_sq_add_cos_sq (w * (f + j))
  have h0 : 0 < t.1 0 * Real.sin (w * (f + j)) - t.1 1 * Real.cos (w * (f + j)) := by
    rw [hx0, hy0]; have := mul_pos hr0 s1; linarith
  have h1 : 0 ≤ Real.cos (w * (f + j)) * t.2 1 - Real.sin (w * (f + j)) * t.2 0 := by
    rw [hx1, hy1, ← hc1, ← hs1]; have := mul_nonneg hr1.le s2; linarith
  have h01 : 0 < t.1 0 * t.2 1 - t.1 1 * t.2 0 := by
    rw [hx0, hy0, hx1, hy1, ← hc1, ← hs1]; have := mul_pos (mul_pos hr0 hr1) s3; linarith
  have hmx : maxValue ts ≠ 0 := by
    intro h
    apply hz0
    have a := (maxValue_ge hmem 0).1
    have b := (maxValue_ge hmem 1).1
    rw [h] at a b
    exact ⟨abs_nonpos_iff.1 a, abs_nonpos_iff.1 b⟩
  rcases hres : intersectionPoint ts rate t ((f + j) % rate) with _ | x
  · exfalso
    have := (C31_border_none_iff _ _ _ _ _).1 hres
    rw [hcB, hsB] at this
    rcases this with h | h
    · exact hmx h
    · linarith
  · refine ⟨x, rfl, ?_⟩
    obtain ⟨⟨a, ha⟩, hpl, _⟩ := C31_sound hres
    have hb := inPlane_border hpl
    rw [hcB, hsB] at hb
    obtain ⟨ha0, ha1, r, hr, e1, e2⟩ := between_core h0 h1 h01 hsc (ha 0) (ha 1) hb
    exact ⟨a, r, ha0, ha1, ha, hr, by rw [e1, hcB], by rw [e2, hsB]⟩

/-- In the univariate case (two coordinates) the stored distance of an intersection is its position `r` on the
border. -/
theorem C31_distance {r θ : ℝ} (hr : 0 ≤ r) {x : Fin (1 + 1) → ℝ} (h0 : x 0 = r * Real.cos θ)
    (h1 : x 1 = r * Real.sin θ) : distances (d := 1) x 0 = r := by
  have e : x (Fin.castAdd 1 0) ^ 2 + x (Fin.natAdd 1 0) ^ 2 = r ^ 2 := by
    have a : (Fin.castAdd 1 0 : Fin (1 + 1)) = 0 := rfl
    have b : (Fin.natAdd 1 0 : Fin (1 + 1)) = 1 := rfl
    rw [a, b, h0, h1]
    have := Real.sin_sq_add_cos_sq θ
    linear_combination r ^ 2 * this
  unfold distances
  rw [e, Real.sqrt_sq hr]

/-- What is missing in `C31_crossing_below_half_turn`: a step of exactly half a turn between opposite points goes through
the origin. The step `(1, 0) → (-1, 0)` (segments 0 and `rate / 2`) is valid, but the calculation for the
border of its last segment fails, and the node crashes. -/
theorem C31_opposite_counterexample :
    ∃ t : (Fin 2 → ℝ) × (Fin 2 → ℝ), SegmentId.pointSegment (t.1 0) (t.1 1) 4 = some 0 ∧
      SegmentId.pointSegment (t.2 0) (t.2 1) 4 = some 2 ∧ Trans.ForwardBy 4 0 2 2 ∧
      intersectionPoint [t] 4 t 2 = none := by
  refine ⟨(![1, 0], ![-1, 0]), ?_, ?_, ⟨by omega, by omega, rfl⟩, ?_⟩
  · refine (SegmentId.C25_polar (by norm_num) (by norm_num) 0).2 ⟨by norm_num, 1, 0, by norm_num, by simp, by simp, ?_, ?_⟩
    · simp
    · have := Real.pi_pos; simp; positivity
  · refine (SegmentId.C25_polar (by norm_num) (by norm_num) 2).2
      ⟨by norm_num, 1, Real.pi, by norm_num, by simp, by simp, ?_, ?_⟩
    · push_cast; linarith
    · have := Real.pi_pos; push_cast; linarith
  · unfold intersectionPoint
    rw [C31_border_none_iff]
    right
    have : borderAngle 4 2 = Real.pi := by unfold borderAngle; push_cast; ring
    rw [this]
    simp

/-- The second gap: a valid step of half a turn may pass the origin on the wrong side; then the result is on the
opposite ray (negative `r`). Here with two segments, `(1, 1) → (1, -1)` and the border at angle `π`. -/
theorem C31_wrong_side_counterexample :
    ∃ t : (Fin 2 → ℝ) × (Fin 2 → ℝ), SegmentId.pointSegment (t.1 0) (t.1 1) 2 = some 0 ∧
      SegmentId.pointSegment (t.2 0) (t.2 1) 2 = some 1 ∧ Trans.ForwardBy 2 0 1 1 ∧
      ∃ x, intersectionPoint [t] 2 t 1 = some x ∧ x 0 = (-1) * Real.cos (borderAngle 2 1) ∧
        x 1 = (-1) * Real.sin (borderAngle 2 1) := by
  have hpi := Real.pi_pos
  have hang : borderAngle 2 1 = Real.pi := by unfold borderAngle; push_cast; ring
  refine ⟨(![1, 1], ![1, -1]), ?_, ?_, ⟨by omega, by omega, rfl⟩, ?_⟩
  · refine (SegmentId.C25_polar (by norm_num) (by norm_num) 0).2
      ⟨by norm_num, √2, Real.pi / 4, by positivity, ?_, ?_, ?_, ?_⟩
    · rw [Real.cos_pi_div_four]
      simp only [cons_val_zero]
      have := Real.mul_self_sqrt (show (0:ℝ) ≤ 2 by norm_num); linarith
    · rw [Real.sin_pi_div_four]
      simp only [cons_val_one, cons_val_zero]
      have := Real.mul_self_sqrt (show (0:ℝ) ≤ 2 by norm_num); linarith
    · push_cast; linarith
    · push_cast; linarith
  · have c : Real.cos (2 * Real.pi - Real.pi / 4) = √2 / 2 := by rw [Real.cos_two_pi_sub, Real.cos_pi_div_four]
    have s : Real.sin (2 * Real.pi - Real.pi / 4) = -(√2 / 2) := by rw [Real.sin_two_pi_sub, Real.sin_pi_div_four]
    refine (SegmentId.C25_polar (by norm_num) (by norm_num) 1).2
      ⟨by norm_num, √2, 2 * Real.pi - Real.pi / 4, by positivity, ?_, ?_, ?_, ?_⟩
    · rw [c]
      simp only [cons_val_zero]
      have := Real.mul_self_sqrt (show (0:ℝ) ≤ 2 by norm_num); linarith
    · rw [s]
      simp only [cons_val_one, cons_val_zero]
      have := Real.mul_self_sqrt (show (0:ℝ) ≤ 2 by norm_num); linarith
    · push_cast; linarith
    · push_cast; linarith
  · rcases hres : intersectionPoint [((![1, 1], ![1, -1]) : (Fin 2 → ℝ) × (Fin 2 → ℝ))] 2 (![1, 1], ![1, -1]) 1 with _ | x
    · exfalso
      have := (C31_border_none_iff (m := 0) _ _ _ _ _).1 hres
      rw [hang] at this
      simp only [Real.sin_pi, Real.cos_pi] at this
      rcases this with h | h
      · have := (maxValue_ge (n := 1) (ts := [((![1, 1], ![1, -1]) : (Fin 2 → ℝ) × (Fin 2 → ℝ))])
          (List.mem_singleton_self _) 0).1
        rw [h] at this
        norm_num at this
      · norm_num at h
    · refine ⟨x, rfl, ?_⟩
      obtain ⟨⟨a, ha⟩, hpl, _⟩ := C31_sound hres
      have hb := inPlane_border hpl
      rw [hang] at hb ⊢
      have h0 := ha 0
      simp at h0 hb
      simp [h0, hb]

/-! Concrete instance of `C31_crossing_below_half_turn`: four segments, the step `(1, 1) → (-1, 1)` crosses the border at
`π / 2`. -/
example : ∃ x, intersectionPoint [((![1, 1], ![-1, 1]) : (Fin 2 → ℝ) × (Fin 2 → ℝ))] 4 (![1, 1], ![-1, 1]) 1 = some x := by
  have hpi := Real.pi_pos
  have h0 : SegmentId.pointSegment 1 1 4 = some 0 := by
    refine (SegmentId.C25_polar (by norm_num) (by norm_num) 0).2
      ⟨by norm_num, √2, Real.pi / 4, by positivity, ?_, ?_, ?_, ?_⟩
    · rw [Real.cos_pi_div_four]
      have := Real.mul_self_sqrt (show (0:ℝ) ≤ 2 by norm_num); linarith
    · rw [Real.sin_pi_div_four]
      have := Real.mul_self_sqrt (show (0:ℝ) ≤ 2 by norm_num); linarith
    · push_cast; linarith
    · push_cast; linarith
  have h1 : SegmentId.pointSegment (-1) 1 4 = some 1 := by
    refine (SegmentId.C25_polar (by norm_num) (by norm_num) 1).2
      ⟨by norm_num, √2, Real.pi - Real.pi / 4, by positivity, ?_, ?_, ?_, ?_⟩
    · rw [Real.cos_pi_sub, Real.cos_pi_div_four]
      have := Real.mul_self_sqrt (show (0:ℝ) ≤ 2 by norm_num); linarith
    · rw [Real.sin_pi_sub, Real.sin_pi_div_four]
      have := Real.mul_self_sqrt (show (0:ℝ) ≤ 2 by norm_num); linarith
    · push_cast; linarith
    · push_cast; linarith
  obtain ⟨x, hx, _⟩ := C31_crossing_below_half_turn (m := 0) (ts := [((![1, 1], ![-1, 1]) : (Fin 2 → ℝ) × (Fin 2 → ℝ))])
    (t := (![1, 1], ![-1, 1])) (List.mem_singleton_self _) (rate := 4) (f := 0) (d := 1) (k := 1) (j := 1)
    (by norm_num) (by norm_num) h0 h1 ⟨by omega, by omega, rfl⟩ (by omega) (by omega) (by omega)
  exact ⟨x, hx⟩

end Geometry
end S2G
