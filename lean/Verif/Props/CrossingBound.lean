import Verif.Props.ExplainedHashed
import Verif.Props.ExplainedExample
import Verif.Props.ClusterRun
import Verif.Props.Geometry

/-!
# C105: crossings lie between the points

`C31_crossing_below_half_turn` leaves out steps of about half a turn. For these the result may be missing or on the wrong side of the origin, but a
result is always between the two ends of the step. Hence the distances are bounded by the values of the series.
-/

namespace S2G
namespace Geometry

/-- A point at an angle within half a turn before (after) a border is on one side of the line of the border. -/
theorem side {x y : ℝ} {n s : Nat} (hn : 0 < n) (h : SegmentId.pointSegment x y n = some s) (θ : ℝ)
    (hθ : ∀ φ : ℝ, 2 * Real.pi * s / n ≤ φ → φ < 2 * Real.pi * (s + 1) / n → 0 ≤ Real.sin (θ - φ)) :
    0 ≤ x * Real.sin θ - y * Real.cos θ := by
  by_cases hz : x = 0 ∧ y = 0
  · rw [hz.1, hz.2]
    simp
  · obtain ⟨_, r, φ, hr, hx, hy, h1, h2⟩ := (SegmentId.C25_polar hz hn s).1 h
    have := mul_nonneg hr.le (hθ φ h1 h2)
    rw [Real.sin_sub] at this
    rw [hx, hy]
    linarith

/-- The angle of a border modulo full turns. -/
theorem border_lift {rate f j : Nat} (hfr : f < rate) (hj : j ≤ rate) :
    Real.cos (borderAngle rate ((f + j) % rate)) = Real.cos (2 * Real.pi / rate * (f + j)) ∧
      Real.sin (borderAngle rate ((f + j) % rate)) = Real.sin (2 * Real.pi / rate * (f + j)) := by
  have hrR : (0 : ℝ) < rate := by exact_mod_cast (by omega : 0 < rate)
  have hwr : 2 * Real.pi / rate * rate = 2 * Real.pi := by field_simp
  have conv : ∀ a : ℝ, 2 * Real.pi * a / rate = 2 * Real.pi / rate * a := by intro a; ring
  unfold borderAngle
  rw [conv, Trans.mod_cases hfr hj]
  split
  · push_cast; exact ⟨rfl, rfl⟩
  · rw [Nat.cast_sub (by omega)]
    push_cast
    have : 2 * Real.pi / rate * ((f : ℝ) + j - rate) = 2 * Real.pi / rate * (f + j) - 2 * Real.pi := by linear_combination -hwr
    rw [this]
    exact ⟨Real.cos_sub_two_pi _, Real.sin_sub_two_pi _⟩

/-- The ends of a step which is kept are on the two sides of the line of each border it crosses. -/
theorem sides {x0 y0 x1 y1 : ℝ} {rate f d k j : Nat} (hf : SegmentId.pointSegment x0 y0 rate = some f)
    (hd : SegmentId.pointSegment x1 y1 rate = some d) (hfr : f < rate) (hk : Trans.ForwardBy rate f d k) (hj : 1 ≤ j) (hjk : j ≤ k) :
    0 ≤ x0 * Real.sin (borderAngle rate ((f + j) % rate)) - y0 * Real.cos (borderAngle rate ((f + j) % rate)) ∧
      x1 * Real.sin (borderAngle rate ((f + j) % rate)) - y1 * Real.cos (borderAngle rate ((f + j) % rate)) ≤ 0 := by
  obtain ⟨hk1, hk2, hdk⟩ := hk
  have hrate : 0 < rate := by omega
  have hrR : (0 : ℝ) < rate := by exact_mod_cast hrate
  have hpi := Real.pi_pos
  obtain ⟨hcB, hsB⟩ := border_lift hfr (show j ≤ rate by omega)
  rw [hcB, hsB]
  obtain ⟨w, hw⟩ : ∃ w : ℝ, w = 2 * Real.pi / rate := ⟨_, rfl⟩
  have hwpos : 0 < w := by rw [hw]; positivity
  have hwr : w * rate = 2 * Real.pi := by rw [hw]; field_simp
  have hkw : w * k ≤ Real.pi := by
    have : (2 : ℝ) * k ≤ rate := by exact_mod_cast hk2
    nlinarith
  have conv : ∀ a : ℝ, 2 * Real.pi * a / rate = w * a := by intro a; rw [hw]; ring
  have hj1 : (1 : ℝ) ≤ j := by exact_mod_cast hj
  have hjkR : (j : ℝ) ≤ k := by exact_mod_cast hjk
  rw [← hw]
  have h0 : 0 ≤ x0 * Real.sin (w * (f + j)) - y0 * Real.cos (w * (f + j)) := by
    refine side hrate hf _ (fun φ h1 h2 => ?_)
    rw [conv] at h1 h2
    exact Real.sin_nonneg_of_nonneg_of_le_pi (by nlinarith) (by nlinarith)
  have h1 : 0 ≤ x1 * Real.sin (w * (f + j) + Real.pi) - y1 * Real.cos (w * (f + j) + Real.pi) := by
    refine side hrate hd _ (fun φ h1 h2 => ?_)
    rw [conv] at h1 h2
    rw [Trans.mod_cases hfr (by omega)] at hdk
    split at hdk
    · rw [hdk] at h1 h2
      push_cast at h1 h2
      exact Real.sin_nonneg_of_nonneg_of_le_pi (by nlinarith) (by nlinarith)
    · rw [hdk, Nat.cast_sub (by omega)] at h1 h2
      push_cast at h1 h2
      rw [← Real.sin_sub_two_pi]
      exact Real.sin_nonneg_of_nonneg_of_le_pi (by nlinarith) (by nlinarith)
  rw [Real.sin_add_pi, Real.cos_add_pi] at h1
  exact ⟨h0, by linarith⟩

/-- **C105.** Whatever a step which is kept (forward by up to half a turn) and whatever border it crosses: if there is a result, it is between the
two ends of the step. -/
theorem C105_between {m : Nat} {ts : List ((Fin (m + 2) → ℝ) × (Fin (m + 2) → ℝ))} {t : (Fin (m + 2) → ℝ) × (Fin (m + 2) → ℝ)}
    {rate f d k j : Nat} (hf : SegmentId.pointSegment (t.1 0) (t.1 1) rate = some f)
    (hd : SegmentId.pointSegment (t.2 0) (t.2 1) rate = some d) (hfr : f < rate) (hk : Trans.ForwardBy rate f d k) (hj : 1 ≤ j) (hjk : j ≤ k)
    {x : Fin (m + 2) → ℝ} (hx : intersectionPoint ts rate t ((f + j) % rate) = some x) :
    ∃ a : ℝ, 0 ≤ a ∧ a ≤ 1 ∧ ∀ i, x i = t.1 i + a * (t.2 i - t.1 i) := by
  obtain ⟨h0, h1⟩ := sides hf hd hfr hk hj hjk
  have hpar : ¬ ((t.2 0 - t.1 0) * Real.sin (borderAngle rate ((f + j) % rate)) =
      (t.2 1 - t.1 1) * Real.cos (borderAngle rate ((f + j) % rate))) := by
    intro h
    have : intersectionPoint ts rate t ((f + j) % rate) = none := (C31_border_none_iff _ _ _ _ _).2 (.inr h)
    rw [this] at hx
    cases hx
  obtain ⟨⟨a, ha⟩, hpl, _⟩ := C31_sound hx
  have hb := inPlane_border hpl
  rw [ha 0, ha 1] at hb
  generalize Real.sin (borderAngle rate ((f + j) % rate)) = sn at *
  generalize Real.cos (borderAngle rate ((f + j) % rate)) = cn at *
  have hb' : a * ((t.2 0 - t.1 0) * sn - (t.2 1 - t.1 1) * cn) = -(t.1 0 * sn - t.1 1 * cn) := by linarith
  have hneg : (t.2 0 - t.1 0) * sn - (t.2 1 - t.1 1) * cn < 0 := by
    refine lt_of_le_of_ne (by linarith) (fun h => hpar (by linarith))
  refine ⟨a, ?_, ?_, ha⟩
  · by_contra hc
    have := mul_pos_of_neg_of_neg (not_le.1 hc) hneg
    linarith
  · by_contra hc
    have := mul_neg_of_pos_of_neg (sub_pos.2 (not_le.1 hc)) hneg
    linarith

/-- **C105.** A crossing is in no dimension farther out than the farther of the two points of its step. -/
theorem C105_farther {d : Nat} {u v x : Fin (d + d) → ℝ} {a : ℝ} (h0 : 0 ≤ a) (h1 : a ≤ 1) (hx : ∀ i, x i = u i + a * (v i - u i)) (i : Fin d) :
    distances x i ≤ max (distances u i) (distances v i) := by
  have key : ∀ y : Fin (d + d) → ℝ, distances y i = ‖(⟨y (Fin.castAdd d i), y (Fin.natAdd d i)⟩ : ℂ)‖ := fun y => by
    rw [Complex.norm_eq_sqrt_sq_add_sq]
    rfl
  rw [key, key, key]
  have hc : (⟨x (Fin.castAdd d i), x (Fin.natAdd d i)⟩ : ℂ) = ((1 - a : ℝ) : ℂ) * ⟨u (Fin.castAdd d i), u (Fin.natAdd d i)⟩ +
      ((a : ℝ) : ℂ) * ⟨v (Fin.castAdd d i), v (Fin.natAdd d i)⟩ := by
    apply Complex.ext
    · simp [hx]; ring
    · simp [hx]; ring
  rw [hc]
  refine (norm_add_le _ _).trans ?_
  rw [norm_mul, norm_mul, Complex.norm_real, Complex.norm_real, Real.norm_of_nonneg (by linarith), Real.norm_of_nonneg h0]
  have m1 := le_max_left ‖(⟨u (Fin.castAdd d i), u (Fin.natAdd d i)⟩ : ℂ)‖ ‖(⟨v (Fin.castAdd d i), v (Fin.natAdd d i)⟩ : ℂ)‖
  have m2 := le_max_right ‖(⟨u (Fin.castAdd d i), u (Fin.natAdd d i)⟩ : ℂ)‖ ‖(⟨v (Fin.castAdd d i), v (Fin.natAdd d i)⟩ : ℂ)‖
  nlinarith [mul_le_mul_of_nonneg_left m1 (by linarith : 0 ≤ 1 - a), mul_le_mul_of_nonneg_left m2 h0]

/-- The distances of a point whose coordinates are at most `B`. -/
theorem distances_le {d : Nat} {x : Fin (d + d) → ℝ} {B : ℝ} (h : ∀ i, |x i| ≤ B) (i : Fin d) : distances x i ≤ √2 * B := by
  have hB : 0 ≤ B := (abs_nonneg _).trans (h (Fin.castAdd d i))
  unfold distances
  rw [Real.sqrt_le_left (by positivity), mul_pow, Real.sq_sqrt (by norm_num)]
  have h1 := sq_le_sq' (neg_le_of_abs_le (h (Fin.castAdd d i))) (le_of_abs_le (h (Fin.castAdd d i)))
  have h2 := sq_le_sq' (neg_le_of_abs_le (h (Fin.natAdd d i))) (le_of_abs_le (h (Fin.natAdd d i)))
  linarith

end Geometry

namespace Whole
open Pca Rotation Points Pipeline Contribution SegState Kde
variable {e w : Nat}

/-- Every point is in the segment of its first two coordinates. -/
def Placed (rate : Nat) (pts : List Point) : Prop :=
  ∀ x ∈ pts, SegmentId.pointSegment (x.coordinates.getD 0 0) (x.coordinates.getD 1 0) rate = some x.segment

/-- No coordinate of a point exceeds `B`. -/
def Within (B : ℝ) (pts : List Point) : Prop := ∀ x ∈ pts, ∀ c ∈ x.coordinates, |c| ≤ B

theorem mirrored_placed {rate : Nat} {B : ℝ} {pts mirrored : List Point} (hm : pts.mapM (mirrorPoint rate) = some mirrored) (hB : Within B pts) :
    Placed rate mirrored ∧ Within B mirrored := by
  have key : ∀ y ∈ mirrored, ∃ x ∈ pts, mirrorPoint rate x = some y := fun y hy => Kde.mapM_mem hm hy
  constructor
  · intro y hy
    obtain ⟨x, _, hxy⟩ := key y hy
    obtain ⟨_, ⟨c, d, cs, _, h2, h3⟩, _⟩ := (C72_mirror x).2 y hxy
    rw [h2]
    exact h3
  · intro y hy c hc
    obtain ⟨x, hx, hxy⟩ := key y hy
    obtain ⟨_, ⟨a, d, cs, h1, h2, _⟩, _⟩ := (C72_mirror x).2 y hxy
    have h4 := hB x hx
    rw [h1] at h4
    rw [h2, List.mem_cons] at hc
    rcases hc with rfl | hc
    · rw [abs_neg]
      exact h4 a (by simp)
    · exact h4 c (List.mem_cons_of_mem _ hc)

theorem corrected_facts {p : Parameters} (hr : 0 < p.rate) {B : ℝ} {pts mirrored : List Point} (hm : pts.mapM (mirrorPoint p.rate) = some mirrored)
    (hnum : Numbered p.rate e pts) (hpl : Placed p.rate pts) (hB : Within B pts) :
    effective p (mirrorPt mirrored) (pts.map toPt) = (corrected p mirrored pts).map toPt ∧ Numbered p.rate e (corrected p mirrored pts) ∧
      Placed p.rate (corrected p mirrored pts) ∧ Within B (corrected p mirrored pts) := by
  obtain ⟨h1, h2, h3⟩ := Cluster.mirrorPt_map hr hnum hm
  obtain ⟨h4, h5⟩ := mirrored_placed hm hB
  unfold effective corrected
  split
  · exact ⟨h1, h3, h4, h5⟩
  · exact ⟨rfl, hnum, hpl, hB⟩

theorem coordsOf_mem {rate : Nat} {l : List Point} (h : Numbered rate e l) {x : Point} (hx : x ∈ l) : coordsOf l x.id = x.coordinates := by
  obtain ⟨i, hi, rfl⟩ := List.getElem_of_mem hx
  have h1 : (l.map Point.id)[i]? = some i := by rw [h.ids, List.getElem?_range hi]
  rw [List.getElem?_map, List.getElem?_eq_getElem hi] at h1
  have h1 : l[i].id = i := Option.some.inj h1
  unfold coordsOf
  rw [h1, Cluster.find_numbered h.ids hi]
  rfl

/-- **C105 (from the points to the crossings).** If no coordinate of a point exceeds `B`, no distance of a crossing exceeds `√2 * B`. -/
theorem C105_points {p : Parameters} (hr : 0 < p.rate) {B : ℝ} {pts mirrored : List Point} (hm : pts.mapM (mirrorPoint p.rate) = some mirrored)
    (hnum : Numbered p.rate e pts) (hpl : Placed p.rate pts) (hB : Within B pts) {s : Nat} {row : List ℝ}
    (hrow : row ∈ segmentData p e mirrored pts s) {y : ℝ} (hy : y ∈ row) : y ≤ √2 * B := by
  obtain ⟨heff, hn', hp', hB'⟩ := corrected_facts hr hm hnum hpl hB
  unfold segmentData at hrow
  obtain ⟨z, hz, rfl⟩ := List.mem_map.1 hrow
  obtain ⟨t, ht, rfl⟩ := List.mem_map.1 (List.mem_reverse.1 hz)
  obtain ⟨ht, hs⟩ := List.mem_filter.1 ht
  have hs : s ∈ t.intersectionSegments p.rate := by simpa using hs
  unfold track at ht
  rw [heff] at ht
  have hseg : ∀ x ∈ (corrected p mirrored pts).map toPt, x.seg < p.rate := by
    intro x hx
    obtain ⟨a, ha, rfl⟩ := List.mem_map.1 hx
    exact hn'.segs a ha
  obtain ⟨h1, h2, h3⟩ := validSteps_valid hseg t ht
  obtain ⟨h4, h5⟩ := mem_steps (List.mem_filter.1 ht).1
  obtain ⟨a, ha, ha'⟩ := List.mem_map.1 h4
  obtain ⟨b, hb, hb'⟩ := List.mem_map.1 h5
  obtain ⟨k, hk⟩ := (Trans.C26_valid_iff t h1 h2).1 h3
  obtain ⟨j, hj1, hj2, rfl⟩ := (Trans.C30_mem_iff t h1 h2 hk s).1 hs
  have ha2 : coordsOf (corrected p mirrored pts) t.src.id = a.coordinates := by rw [← ha']; exact coordsOf_mem hn' ha
  have hb2 : coordsOf (corrected p mirrored pts) t.dst.id = b.coordinates := by rw [← hb']; exact coordsOf_mem hn' hb
  have hB0 : 0 ≤ B := by
    have := hn'.coords a ha
    obtain ⟨c, hc⟩ := List.exists_mem_of_length_pos (l := a.coordinates) (by omega)
    exact (abs_nonneg c).trans (hB' a ha c hc)
  have hvec : ∀ x ∈ corrected p mirrored pts, ∀ i, |vec (2 * e + 2) x.coordinates i| ≤ B := by
    intro x hx i
    unfold vec
    rw [List.getD_eq_getElem?_getD]
    cases h : x.coordinates[i.val]? with
    | none => simpa using hB0
    | some c => exact hB' x hx c (List.mem_of_getElem? h)
  unfold place interCoord at hy
  cases hg : Geometry.intersectionPoint (m := 2 * e) ((track p mirrored pts).map (ends (corrected p mirrored pts))) p.rate
      (ends (corrected p mirrored pts) t) ((t.src.seg + j) % p.rate) with
  | none =>
    rw [hg] at hy
    cases hy
  | some q =>
    rw [hg, Option.map_some, Option.getD_some, List.mem_ofFn] at hy
    obtain ⟨i, rfl⟩ := hy
    obtain ⟨u, hu0, hu1, hu⟩ := Geometry.C105_between (f := t.src.seg) (d := t.dst.seg) (t := ends (corrected p mirrored pts) t)
      (by
        show SegmentId.pointSegment ((coordsOf _ t.src.id).getD 0 0) ((coordsOf _ t.src.id).getD 1 0) _ = _
        rw [ha2, ← ha']
        exact hp' a ha)
      (by
        show SegmentId.pointSegment ((coordsOf _ t.dst.id).getD 0 0) ((coordsOf _ t.dst.id).getD 1 0) _ = _
        rw [hb2, ← hb']
        exact hp' b hb) h1 hk hj1 hj2 hg
    refine Geometry.distances_le (fun i => ?_) i
    have e1 := hvec a ha (Fin.cast (by omega) i)
    have e2 := hvec b hb (Fin.cast (by omega) i)
    rw [hu]
    unfold ends
    rw [ha2, hb2]
    rw [abs_le] at e1 e2 ⊢
    constructor <;> nlinarith

/-! ### From the series to the points -/

theorem abs_sum_le {α : Type} (f : α → ℝ) {C : ℝ} (l : List α) (h : ∀ x ∈ l, |f x| ≤ C) : |(l.map f).sum| ≤ l.length * C := by
  induction l with
  | nil => simp
  | cons a l ih =>
    rw [List.map_cons, List.sum_cons, List.length_cons]
    have h1 := h a (by simp)
    have h2 := ih (fun x hx => h x (List.mem_cons_of_mem _ hx))
    have h3 := abs_add_le (f a) (l.map f).sum
    push_cast
    linarith

theorem window_le {p : Parameters} {series : List (Fin (e + 1) → ℝ)} {M : ℝ} (hM0 : 0 ≤ M) (hM : ∀ x ∈ series, ∀ m, |x m| ≤ M) {m : Fin (e + 1)}
    {x : Row (w + 1)} (hx : x ∈ windows w p series m) (j : Fin (w + 1)) : |x j| ≤ p.latent * M := by
  unfold windows column at hx
  obtain ⟨r, hr, rfl⟩ := List.mem_map.1 hx
  obtain ⟨i, _, rfl⟩ := List.mem_map.1 hr
  unfold PhaseSpace.specPoint
  beta_reduce
  rw [List.getD_eq_getElem?_getD, List.getElem?_map]
  cases (List.range (p.patternLength - p.latent))[j.val]? with
  | none =>
    simp only [Option.map_none, Option.getD_none, Pi.zero_apply, abs_zero]
    positivity
  | some k =>
    simp only [Option.map_some, Option.getD_some, Finset.sum_apply]
    refine (Finset.abs_sum_le_sum_abs _ _).trans ?_
    refine (Finset.sum_le_sum (g := fun _ => M) fun t _ => ?_).trans (by simp)
    unfold PhaseSpace.series
    rw [List.getD_eq_getElem?_getD]
    cases h : series[i + k + t]? with
    | none => simpa using hM0
    | some v => exact hM v (List.mem_of_getElem? h) m

theorem mean_le {d : Nat} {D : List (Row d)} (hD : D ≠ []) {C : ℝ} (h : ∀ x ∈ D, ∀ j, |x j| ≤ C) (j : Fin d) : |mean D j| ≤ C := by
  have hpos : (0 : ℝ) < D.length := by exact_mod_cast List.length_pos_iff.2 hD
  unfold mean
  rw [abs_div, abs_of_pos hpos, div_le_iff₀ hpos, mul_comm]
  exact abs_sum_le _ D (fun x hx => h x hx j)

theorem reduced_le {comps : List (Row (w + 1))} (hc : ∀ v ∈ comps, ∀ i, |v i| ≤ 1) {means x : Row (w + 1)} {C : ℝ} (hC : 0 ≤ C)
    (h1 : ∀ j, |means j| ≤ C) (h2 : ∀ j, |x j| ≤ C) (i : Fin 3) : |reduced comps means x i| ≤ (w + 1) * (2 * C) := by
  unfold reduced reduceRow
  rw [List.getD_eq_getElem?_getD, List.getElem?_map]
  cases h : comps[i.val]? with
  | none =>
    simp only [Option.map_none, Option.getD_none, abs_zero]
    positivity
  | some v =>
    simp only [Option.map_some, Option.getD_some]
    refine (abs_sum_le (fun a => (x a - means a) * v a) (C := 2 * C) _ (fun a _ => ?_)).trans (by simp)
    rw [abs_mul]
    have h3 := hc v (List.mem_of_getElem? h) a
    have h4 : |x a - means a| ≤ 2 * C := (abs_sub _ _).trans (by have := h1 a; have := h2 a; linarith)
    have := mul_le_mul h4 h3 (abs_nonneg _) (by positivity)
    linarith

theorem entry_le {u : Vec} {R : Matrix (Fin 3) (Fin 3) ℝ} (h : rotationMatrix u = some R) (i j : Fin 3) : |R i j| ≤ 1 := by
  have hu : u 0 ≠ 0 ∨ u 1 ≠ 0 := by
    by_contra hc
    push Not at hc
    rw [C24_nan_iff.2 hc] at h
    cases h
  obtain ⟨R', hR', h1, _⟩ := C24_rotation hu
  cases Option.some.inj (h.symm.trans hR')
  have h2 := congrFun (congrFun h1 i) i
  rw [Matrix.mul_apply, Fin.sum_univ_three] at h2
  simp only [Matrix.transpose_apply, Matrix.one_apply_eq] at h2
  rw [← sq_le_one_iff_abs_le_one]
  have q0 := mul_self_nonneg (R i 0)
  have q1 := mul_self_nonneg (R i 1)
  have q2 := mul_self_nonneg (R i 2)
  fin_cases j <;> simp only [Fin.zero_eta, Fin.mk_one, Fin.reduceFinMk] <;> nlinarith

theorem rotate_le {R : Matrix (Fin 3) (Fin 3) ℝ} (hR : ∀ i j, |R i j| ≤ 1) {x : Vec} {C : ℝ} (hx : ∀ i, |x i| ≤ C) :
    |(rotateRow R x).1| ≤ 3 * C ∧ |(rotateRow R x).2| ≤ 3 * C := by
  have key : ∀ c : Fin 3, |Matrix.vecMul x R.transpose c| ≤ 3 * C := by
    intro c
    unfold Matrix.vecMul dotProduct
    refine (Finset.abs_sum_le_sum_abs _ _).trans ((Finset.sum_le_sum (g := fun _ => C) fun k _ => ?_).trans (by simp))
    rw [abs_mul]
    have := mul_le_mul (hx k) (hR c k) (abs_nonneg _) ((abs_nonneg _).trans (hx k))
    show |x k| * |R c k| ≤ C
    linarith
  exact ⟨key 0, key 1⟩

/-- **C105 (from the series to the points).** If the values of the series do not exceed `M` and the entries of the directions do not exceed 1, the
coordinates of the points do not exceed `M` times six times the window (`patternLength - latent`) times `latent`. -/
theorem C105_coordinates {lib : Lib w} (hqr : ∀ A, gram (lib.qr A) = gram A) {p : Parameters} (hr : 0 < p.rate)
    {series : List (Fin (e + 1) → ℝ)} (hs : ∀ m, Settled lib (windows w p series m))
    (hv : ∀ A vs, lib.svd A = some vs → ∀ v ∈ vs, ∀ i, |v i| ≤ 1) {M : ℝ} (hM : ∀ x ∈ series, ∀ m, |x m| ≤ M) {pts : List Point}
    (h : PointsOf lib p series pts) :
    Placed p.rate pts ∧ Within (6 * ((p.patternLength - p.latent : Nat) * p.latent * M)) pts := by
  obtain ⟨lo, hi, ps, ref, comps, means, first, R, hmm, hw, href, hps, hpca, hfirst, hR, hpts⟩ := h
  obtain ⟨hN, rfl⟩ := build_some hw hps
  obtain ⟨hle, hw'⟩ := checkedSub_some hw
  have hM0 : 0 ≤ M := by
    have h1 := (hmm 0).1
    cases series with
    | nil => simp [columnMin, colMin] at h1
    | cons x l => exact (abs_nonneg _).trans (hM x (by simp) 0)
  have hC : (0 : ℝ) ≤ p.latent * M := by positivity
  have hwin : ∀ m, ∀ x ∈ windows w p series m, ∀ j, |x j| ≤ p.latent * M := fun m x hx j => window_le hM0 hM hx j
  have hred : ∀ (m : Fin (e + 1)) (i : Nat) (c : Fin 3), |reduced (comps m) (means m) ((windows w p series m).getD i 0) c| ≤
      (w + 1) * (2 * (p.latent * M)) := by
    intro m i c
    obtain ⟨h1, _, h2, h3⟩ := (pcaOf_iff hqr (hs m)).1 (hpca m)
    refine reduced_le ?_ hC ?_ ?_ c
    · intro v hv' k
      obtain ⟨vs, h4, h5⟩ := Option.map_eq_some_iff.1 h3
      rw [← h5] at hv'
      obtain ⟨v0, h6, rfl⟩ := List.mem_map.1 hv'
      have h7 := hv _ vs h4 v0 h6 k
      unfold normalizeRow
      split
      · exact h7
      · simpa using h7
    · rw [h2]
      exact mean_le h1 (hwin m)
    · intro j
      rw [List.getD_eq_getElem?_getD]
      cases h4 : (windows w p series m)[i]? with
      | none => simpa using hC
      | some x => exact hwin m x (List.mem_of_getElem? h4) j
  obtain ⟨pts', h1, h2, h3⟩ := C67_points R ((List.range ((List.range (series.length - (p.patternLength - 1))).map
    (PhaseSpace.specPoint p series)).length).map (fun i m => reduced (comps m) (means m) ((windows w p series m).getD i 0)))
    (n := series.length) (k := 1) (i := 0) (rate := p.rate) (by omega) (by omega) hr
  cases Option.some.inj (hpts.symm.trans h1)
  have key : ∀ x ∈ pts, ∃ r, pts[r]? = some x := fun x hx => List.getElem?_of_mem hx
  constructor
  · intro x hx
    obtain ⟨r, hr⟩ := key x hx
    obtain ⟨row, _, _, _, _, a, b, ha, hb, hab⟩ := h3 r x hr
    rw [List.getD_eq_getElem?_getD, List.getD_eq_getElem?_getD, ha, hb]
    exact hab
  · intro x hx c hc
    obtain ⟨r, hr⟩ := key x hx
    obtain ⟨row, h4, _, h5, h6, _⟩ := h3 r x hr
    have hrow : ∀ m, |(rotateRow (R m) (row m)).1| ≤ 3 * ((w + 1) * (2 * (p.latent * M))) ∧
        |(rotateRow (R m) (row m)).2| ≤ 3 * ((w + 1) * (2 * (p.latent * M))) := by
      intro m
      refine rotate_le (entry_le (hR m)) (fun c => ?_)
      rw [List.getElem?_map] at h4
      obtain ⟨i, _, hi⟩ := Option.map_eq_some_iff.1 h4
      rw [← hi]
      exact hred m i c
    have heq : 3 * (((w : ℝ) + 1) * (2 * (p.latent * M))) = 6 * ((p.patternLength - p.latent : Nat) * p.latent * M) := by
      rw [← hw']
      push_cast
      ring
    rw [heq] at hrow
    obtain ⟨i, hi, rfl⟩ := List.getElem_of_mem hc
    by_cases hid : i < e + 1
    · have := (h6 ⟨i, hid⟩).1
      rw [List.getElem?_eq_getElem hi] at this
      rw [Option.some.inj this, ← rotateRow_eq]
      exact (hrow _).1
    · have := (h6 ⟨i - (e + 1), by omega⟩).2
      simp only [show e + 1 + (i - (e + 1)) = i by omega] at this
      rw [List.getElem?_eq_getElem hi] at this
      rw [Option.some.inj this, ← rotateRow_eq]
      exact (hrow _).2

/-- **C105.** The distances of all crossings are at most nine times the window times `latent` times the largest value. -/
theorem C105_distances {lib : Lib w} (hqr : ∀ A, gram (lib.qr A) = gram A) {p : Parameters} (hr : 0 < p.rate)
    {series : List (Fin (e + 1) → ℝ)} (hs : ∀ m, Settled lib (windows w p series m))
    (hv : ∀ A vs, lib.svd A = some vs → ∀ v ∈ vs, ∀ i, |v i| ≤ 1) {M : ℝ} (hM : ∀ x ∈ series, ∀ m, |x m| ≤ M) {pts mirrored : List Point}
    (h : PointsOf lib p series pts) (hm : pts.mapM (mirrorPoint p.rate) = some mirrored) {s : Nat} {row : List ℝ}
    (hrow : row ∈ segmentData p e mirrored pts s) {y : ℝ} (hy : y ∈ row) : y ≤ 9 * ((p.patternLength - p.latent : Nat) * p.latent * M) := by
  obtain ⟨h1, h2⟩ := C105_coordinates hqr hr hs hv hM h
  obtain ⟨_, _, hnum⟩ := h.numbered hr
  have h3 := C105_points hr hm hnum h1 h2 hrow hy
  have hM0 : 0 ≤ M := by
    obtain ⟨lo, hi, _, _, _, _, _, _, hmm, _⟩ := h
    have h1 := (hmm 0).1
    cases series with
    | nil => simp [columnMin, colMin] at h1
    | cons x l => exact (abs_nonneg _).trans (hM x (by simp) 0)
  have h4 : √2 ≤ 3 / 2 := by
    rw [Real.sqrt_le_left (by norm_num)]
    norm_num
  have h5 : (0 : ℝ) ≤ (p.patternLength - p.latent : Nat) * p.latent * M := by positivity
  nlinarith

/-- **C105.** If `792 * (patternLength - latent) * latent` times the largest value is below `2^63`, the keys of the cluster centres and of the
coordinates make no difference, neither for the scores nor for the explanation. -/
theorem C105_no_difference {lib : Lib w} (hqr : ∀ A, gram (lib.qr A) = gram A) {p : Parameters} (hp : p.WellFormed) (hn : p.nClusterNodes = 1)
    {resolution order : Nat} {series : List (Fin (e + 1) → ℝ)} (hs : ∀ m, Settled lib (windows w p series m))
    (hv : ∀ A vs, lib.svd A = some vs → ∀ v ∈ vs, ∀ i, |v i| ≤ 1) {M : ℝ} (hM : ∀ x ∈ series, ∀ m, |x m| ≤ M)
    (hlim : 792 * ((p.patternLength - p.latent : Nat) * p.latent * M) < 2 ^ 63) :
    (∀ v, DeliversHashed lib resolution order p series v ↔ Delivers lib resolution order p series v) ∧
      ∀ out, ExplainsHashed lib resolution order p series out ↔ Explains lib resolution order p series out := by
  have hr : 0 < p.rate := by have := hp.1; have := hp.2; omega
  have hB : 88 * (9 * ((p.patternLength - p.latent : Nat) * p.latent * M)) < (2 : ℝ) ^ 63 := by linarith
  have h := fun pts mirrored h1 hm s (_ : s < p.rate) row hrow y hy =>
    C105_distances hqr hr hs hv hM (pts := pts) (mirrored := mirrored) h1 hm (s := s) (row := row) hrow (y := y) hy
  exact ⟨C101_no_difference lib hp hn hB h, C104_no_difference lib hp hn hB h⟩

/-! Instances. -/

theorem hLib_entries : ∀ A vs, hLib.svd A = some vs → ∀ v ∈ vs, ∀ i, |v i| ≤ 1 := by
  intro A vs h v hv i
  cases Option.some.inj h
  simp only [hComps, List.mem_cons, List.not_mem_nil, or_false] at hv
  rcases hv with rfl | rfl | rfl <;> fin_cases i <;> norm_num [third]

theorem hSeries_le : ∀ x ∈ hSeries, ∀ m, |x m| ≤ 3 := by
  intro x hx m
  simp only [hSeries, List.mem_cons, List.not_mem_nil, or_false] at hx
  rcases hx with rfl | rfl | rfl | rfl | rfl | rfl | rfl | rfl | rfl | rfl | rfl <;> norm_num

/-- The run of `HashedExample` with values up to three million millions. -/
example : (∃ v, DeliversHashed hLib 250 0 hP (hSeries.map ((10 ^ 12 : ℝ) • ·)) v) ∧
    ∃ rows, ExplainsHashed hLib 250 0 hP (hSeries.map ((10 ^ 12 : ℝ) • ·)) (some rows) := by
  have hp : hP.WellFormed := ⟨by decide, by decide⟩
  obtain ⟨v, hv⟩ := hDelivers (resolution := 250) (order := 0) (by omega) (by omega)
  obtain ⟨rows, hrows, _⟩ := hExplains
  have ha : (0 : ℝ) < 10 ^ 12 := by positivity
  have h := C105_no_difference (resolution := 250) (order := 0) hLib_gram hp rfl (series := hSeries.map ((10 ^ 12 : ℝ) • ·))
    (settled_scale hLib_settled ha (hPoints.scale hLib_gram hLib_settled ha)) hLib_entries (M := 3 * 10 ^ 12) (by
      intro x hx m
      obtain ⟨y, hy, rfl⟩ := List.mem_map.1 hx
      have := hSeries_le y hy m
      rw [Pi.smul_apply, smul_eq_mul, abs_mul, abs_of_pos ha]
      linarith) (by norm_num [hP])
  exact ⟨⟨v, (h.1 v).2 ((C70_scale hLib_gram 250 0 hLib_settled ha v).2 hv)⟩, rows,
    (h.2 _).2 ((C102_unit hLib_gram 250 0 hLib_settled ha _).2 hrows)⟩

/-- The bound for the crossings of the run. -/
example : ∀ m, hPts.mapM (mirrorPoint hP.rate) = some m → ∀ y ∈ ([2] : List ℝ), y ≤ 9 * ((hP.patternLength - hP.latent : Nat) * hP.latent * 3) :=
  fun m hm y hy => C105_distances hLib_gram (by decide) hLib_settled hLib_entries hSeries_le hPoints hm (s := 1)
    (by rw [(hData m).1]; simp) hy

/-- A step of half a turn which passes the origin on the wrong side: the result is on the step. -/
example : ∃ (t : (Fin 2 → ℝ) × (Fin 2 → ℝ)) (x : Fin 2 → ℝ) (a : ℝ), Geometry.intersectionPoint (m := 0) [t] 2 t 1 = some x ∧ 0 < x 0 ∧ 0 ≤ a ∧
    a ≤ 1 ∧ ∀ i, x i = t.1 i + a * (t.2 i - t.1 i) := by
  obtain ⟨t, h1, h2, h3, x, h4, h5, _⟩ := Geometry.C31_wrong_side_counterexample
  obtain ⟨a, ha, hb, hc⟩ := Geometry.C105_between (m := 0) (j := 1) h1 h2 (by omega) h3 le_rfl le_rfl h4
  refine ⟨t, x, a, h4, ?_, ha, hb, hc⟩
  have hang : Geometry.borderAngle 2 1 = Real.pi := by unfold Geometry.borderAngle; push_cast; ring
  rw [h5, hang]
  simp

end Whole
end S2G
