import Verif.Props.WholeHashed
import Verif.Props.KdeDensity
import Verif.Props.Geometry

/-!
# A run with two crossings per segment

Eleven values, windows of three, eight points which go round twice. Three of the four segments are crossed twice at different distances, so the
clustering has something to do. The run delivers a vector; in large units it does not.
-/

namespace S2G
namespace Whole

open Pca Rotation Points Pipeline

/-- Pattern length 4, latent 1, query length 1, four segments, one thread. -/
def hP : Parameters := ⟨4, 1, 1, 4, 1, 1, false⟩

/-- Two waves of different height; the eleventh value is not used. -/
def hSeries : List (Fin 1 → ℝ) := [fun _ => 1, fun _ => 0, fun _ => -1, fun _ => 0, fun _ => 3, fun _ => 0, fun _ => -2, fun _ => 0,
  fun _ => 1, fun _ => 0, fun _ => 0]

noncomputable def hComps : List (Row 3) := [![1, 0, -1], ![1, 0, 0], ![1, -1, 0]]

/-- A library which always answers with the same three directions. -/
noncomputable def hLib : Lib 2 where
  qr := id
  svd := fun _ => some hComps

theorem hLib_gram : ∀ A, gram (hLib.qr A) = gram A := fun _ => rfl

theorem hLib_settled (m : Fin 1) : Settled hLib (windows 2 hP hSeries m) := fun _ _ _ _ _ _ => rfl

theorem hWindows (m : Fin 1) : windows 2 hP hSeries m = [![1, 0, -1], ![0, -1, 0], ![-1, 0, 3], ![0, 3, 0], ![3, 0, -2], ![0, -2, 0],
    ![-2, 0, 1], ![0, 1, 0]] := by
  unfold windows column hSeries hP
  simp only [List.length_cons, List.length_nil, List.map_map]
  norm_num [List.range_succ, PhaseSpace.specPoint, PhaseSpace.series]
  refine ⟨?_, ?_, ?_, ?_, ?_, ?_, ?_, ?_⟩ <;> funext j <;> fin_cases j <;> simp

theorem hPca (m : Fin 1) : PcaOf hLib 1 (windows 2 hP hSeries m) hComps (fun _ => 1 / 8) := by
  refine (pcaOf_iff hLib_gram (hLib_settled m)).2 ⟨by rw [hWindows]; simp, .inl le_rfl, ?_, ?_⟩
  · rw [hWindows]
    funext j
    unfold mean
    fin_cases j <;> norm_num
  · show some (Pca.normalize _) = some hComps
    unfold Pca.normalize hComps
    simp [normalizeRow]

theorem third (a b c : ℝ) : ![a, b, c] 2 = c := rfl

def hR : Matrix (Fin 3) (Fin 3) ℝ := !![1, 0, 0; 0, 0, 1; 0, -1, 0]

theorem hRotation : rotationMatrix (reduced hComps (fun _ => 1 / 8) (fun _ => -2)) = some hR := by
  have hu : reduced hComps (fun _ => 1 / 8) (fun _ => -2) = ![0, -(17 / 8), 0] := by
    funext j
    unfold reduced reduceRow hComps
    fin_cases j <;> norm_num [List.finRange_succ, third]
  rw [hu]
  have hn : Rotation.norm ![0, -(17 / 8), 0] = 17 / 8 := by
    unfold Rotation.norm
    rw [Real.sqrt_eq_iff_mul_self_eq] <;> norm_num [third]
  unfold rotationMatrix
  rw [hn, if_neg (by norm_num)]
  have hv : cross (fun i => (![0, -(17 / 8), 0] : Vec) i / (17 / 8)) ![0, 0, 1] = ![-1, 0, 0] := by
    unfold cross
    funext j
    fin_cases j <;> norm_num [third]
  have hs : Rotation.norm ![-1, 0, 0] = 1 := by
    unfold Rotation.norm
    simp
  simp only [hv, hs]
  rw [if_neg (by norm_num)]
  congr 1
  unfold hR
  ext i j
  fin_cases i <;> fin_cases j <;> simp [skew]

theorem hCoords (m : Fin 1 → Vec) (a b : ℝ) (h0 : m 0 0 = a) (h1 : m 0 2 = b) :
    coordinates (fun _ => hR) m = [a, b] := by
  unfold coordinates rotateRow
  simp [List.finRange_succ, Matrix.vecMul, dotProduct, Fin.sum_univ_three, hR, ← h0, ← h1]

noncomputable def hPts : List Point := [⟨0, [2, 1], 0⟩, ⟨1, [0, 1], 1⟩, ⟨2, [-4, -1], 2⟩, ⟨3, [0, -3], 3⟩, ⟨4, [5, 3], 0⟩, ⟨5, [0, 2], 1⟩,
  ⟨6, [-3, -2], 2⟩, ⟨7, [0, -1], 3⟩]

theorem quadrant {x y : ℝ} (hx : 0 < x) (hy : 0 ≤ y) : ∃ r φ : ℝ, 0 < r ∧ x = r * Real.cos φ ∧ y = r * Real.sin φ ∧ 0 ≤ φ ∧
    φ < Real.pi / 2 := by
  have hz : (⟨x, y⟩ : ℂ) ≠ 0 := fun h => hx.ne' (congrArg Complex.re h)
  refine ⟨‖(⟨x, y⟩ : ℂ)‖, Complex.arg ⟨x, y⟩, norm_pos_iff.2 hz, (Complex.norm_mul_cos_arg ⟨x, y⟩).symm, (Complex.norm_mul_sin_arg ⟨x, y⟩).symm,
    Complex.arg_nonneg_iff.2 hy, ?_⟩
  have := Complex.abs_arg_lt_pi_div_two_iff.2 (.inl (show 0 < (⟨x, y⟩ : ℂ).re from hx))
  exact (abs_lt.1 this).2

theorem segment0 {x y : ℝ} (hx : 0 < x) (hy : 0 ≤ y) : SegmentId.pointSegment x y 4 = some 0 := by
  obtain ⟨r, φ, hr, h1, h2, h3, h4⟩ := quadrant hx hy
  refine (SegmentId.C25_polar (fun h => hx.ne' h.1) (by omega) 0).2 ⟨by omega, r, φ, hr, h1, h2, ?_, ?_⟩ <;> push_cast <;> linarith

theorem segment1 {x y : ℝ} (hy : 0 < y) (hx : x ≤ 0) : SegmentId.pointSegment x y 4 = some 1 := by
  obtain ⟨r, φ, hr, h1, h2, h3, h4⟩ := quadrant hy (neg_nonneg.2 hx)
  refine (SegmentId.C25_polar (fun h => hy.ne' h.2) (by omega) 1).2 ⟨by omega, r, φ + Real.pi / 2, hr, ?_, ?_, ?_, ?_⟩
  · rw [Real.cos_add_pi_div_two]; linarith
  · rw [Real.sin_add_pi_div_two]; exact h1
  all_goals push_cast; linarith

theorem segment2 {x y : ℝ} (hx : x < 0) (hy : y ≤ 0) : SegmentId.pointSegment x y 4 = some 2 := by
  obtain ⟨r, φ, hr, h1, h2, h3, h4⟩ := quadrant (neg_pos.2 hx) (neg_nonneg.2 hy)
  refine (SegmentId.C25_polar (fun h => hx.ne h.1) (by omega) 2).2 ⟨by omega, r, φ + Real.pi, hr, ?_, ?_, ?_, ?_⟩
  · rw [Real.cos_add_pi]; linarith
  · rw [Real.sin_add_pi]; linarith
  all_goals push_cast; linarith

theorem segment3 {x y : ℝ} (hy : y < 0) (hx : 0 ≤ x) : SegmentId.pointSegment x y 4 = some 3 := by
  obtain ⟨r, φ, hr, h1, h2, h3, h4⟩ := quadrant (neg_pos.2 hy) hx
  refine (SegmentId.C25_polar (fun h => hy.ne h.2) (by omega) 3).2 ⟨by omega, r, (φ + Real.pi / 2) + Real.pi, hr, ?_, ?_, ?_, ?_⟩
  · rw [Real.cos_add_pi, Real.cos_add_pi_div_two]; linarith
  · rw [Real.sin_add_pi, Real.sin_add_pi_div_two]; linarith
  all_goals push_cast; linarith

theorem hPoints : PointsOf hLib hP hSeries hPts := by
  have hw : checkedSub hP.patternLength hP.latent = some (2 + 1) := rfl
  obtain ⟨ref, h1, h2⟩ := reference_some hw (fun _ : Fin 1 => (-2 : ℝ)) (fun _ => 3)
  refine ⟨fun _ => -2, fun _ => 3, _, ref, fun _ => hComps, fun _ _ => 1 / 8, _, fun _ => hR, fun m => ⟨?_, ?_⟩, hw, h1,
    PhaseSpace.C14_windowed_sums hP hSeries (by decide) (by simp [hP, hSeries]), hPca, h2, fun m => ?_, ?_⟩
  · norm_num [columnMin, hSeries, Kde.colMin]
  · norm_num [columnMax, hSeries, Kde.colMax]
  · rw [← hRotation]
    have : (fun j : Fin 3 => (List.replicate (2 + 1) (fun _ : Fin 1 => (hP.latent : ℝ) * -2)).getD j 0 m) = fun _ => -2 := by
      funext j
      rw [getD_replicate_fin]
      simp [hP]
    rw [this]
  · have hwin := fun m => hWindows m
    unfold windows at hwin
    have hc : ∀ i : Fin 8, coordinates (fun _ => hR) (fun _ : Fin 1 => reduced hComps (fun _ => 1 / 8)
        (([![1, 0, -1], ![0, -1, 0], ![-1, 0, 3], ![0, 3, 0], ![3, 0, -2], ![0, -2, 0], ![-2, 0, 1], ![0, 1, 0]] : List (Row 3)).getD i 0)) =
          ([[2, 1], [0, 1], [-4, -1], [0, -3], [5, 3], [0, 2], [-3, -2], [0, -1]] : List (List ℝ)).getD i [] := by
      intro i
      fin_cases i <;> refine hCoords _ _ _ ?_ ?_ <;>
        norm_num [reduced, reduceRow, hComps, List.finRange_succ, third]
    have hlen : ((List.range (hSeries.length - (hP.patternLength - 1))).map (PhaseSpace.specPoint hP hSeries)).length = 8 := by
      simp [hP, hSeries]
    have hrows : (List.range 8).map (fun i (_ : Fin 1) => reduced hComps (fun _ => 1 / 8)
        (([![1, 0, -1], ![0, -1, 0], ![-1, 0, 3], ![0, 3, 0], ![3, 0, -2], ![0, -2, 0], ![-2, 0, 1], ![0, 1, 0]] : List (Row 3)).getD i 0)) =
        (List.range ((List.range (hSeries.length - (hP.patternLength - 1))).map (PhaseSpace.specPoint hP hSeries)).length).map
          (fun i m => reduced hComps (fun _ => 1 / 8) ((column ((List.range (hSeries.length - (hP.patternLength - 1))).map
            (PhaseSpace.specPoint hP hSeries)) m).getD i 0)) := by
      rw [hlen]
      apply List.map_congr_left
      intro i _
      funext m
      rw [hwin m]
    rw [← hrows]
    unfold applyRotation
    have hmap : ((List.range 8).map (fun i (_ : Fin 1) => reduced hComps (fun _ => 1 / 8)
        (([![1, 0, -1], ![0, -1, 0], ![-1, 0, 3], ![0, 3, 0], ![3, 0, -2], ![0, -2, 0], ![-2, 0, 1], ![0, 1, 0]] : List (Row 3)).getD i 0))).map
          (coordinates (fun _ => hR)) = [[2, 1], [0, 1], [-4, -1], [0, -3], [5, 3], [0, 2], [-3, -2], [0, -1]] := by
      rw [List.map_map]
      apply List.ext_getElem
      · simp
      · intro i hi _
        simp only [List.length_map, List.length_range] at hi
        rw [List.getElem_map, List.getElem_range]
        rw [Function.comp, hc ⟨i, hi⟩, List.getD_eq_getElem]
    rw [if_neg (by omega), hmap]
    have s0 := segment0 (x := 2) (y := 1) (by norm_num) (by norm_num)
    have s1 := segment1 (x := 0) (y := 1) (by norm_num) (by norm_num)
    have s2 := segment2 (x := -4) (y := -1) (by norm_num) (by norm_num)
    have s3 := segment3 (x := 0) (y := -3) (by norm_num) (by norm_num)
    have s4 := segment0 (x := 5) (y := 3) (by norm_num) (by norm_num)
    have s5 := segment1 (x := 0) (y := 2) (by norm_num) (by norm_num)
    have s6 := segment2 (x := -3) (y := -2) (by norm_num) (by norm_num)
    have s7 := segment3 (x := 0) (y := -1) (by norm_num) (by norm_num)
    simp [checkedDiv, addPoints, newPoint, hP, s0, s1, s2, s3, s4, s5, s6, s7, hPts]

/-- The steps of the example. -/
def hTs : List Trans := [⟨⟨0, 0⟩, ⟨1, 1⟩⟩, ⟨⟨1, 1⟩, ⟨2, 2⟩⟩, ⟨⟨2, 2⟩, ⟨3, 3⟩⟩, ⟨⟨3, 3⟩, ⟨4, 0⟩⟩, ⟨⟨4, 0⟩, ⟨5, 1⟩⟩, ⟨⟨5, 1⟩, ⟨6, 2⟩⟩,
  ⟨⟨6, 2⟩, ⟨7, 3⟩⟩]

theorem hTrack (mirrored : List Point) : track hP mirrored hPts = hTs := by
  unfold track effective
  rw [if_neg (by simp [hP])]
  rfl

theorem hCorrected (mirrored : List Point) : corrected hP mirrored hPts = hPts := by
  unfold corrected
  rw [if_neg (by simp [hP])]

/-- A step to the next segment crosses its border where the line does. -/
theorem hCrossing {t : Trans} (ht : t ∈ hTs) {x0 y0 x1 y1 : ℝ} (h0 : coordsOf hPts t.src.id = [x0, y0])
    (h1 : coordsOf hPts t.dst.id = [x1, y1]) {f d : Nat} (hf : SegmentId.pointSegment x0 y0 4 = some f)
    (hd : SegmentId.pointSegment x1 y1 4 = some d) (hn0 : ¬(x0 = 0 ∧ y0 = 0)) (hn1 : ¬(x1 = 0 ∧ y1 = 0))
    (hk : Trans.ForwardBy 4 f d 1) {r : ℝ} (hr : ∀ a ρ : ℝ, x0 + a * (x1 - x0) = ρ * Real.cos (Geometry.borderAngle 4 ((f + 1) % 4)) →
      y0 + a * (y1 - y0) = ρ * Real.sin (Geometry.borderAngle 4 ((f + 1) % 4)) → ρ = r) (m : List Point) :
    place hP 0 m hPts (t, (f + 1) % 4) = some [r] := by
  unfold place interCoord
  rw [hTrack, hCorrected]
  have e0 : (ends (e := 0) hPts t).1 = ![x0, y0] := by
    funext j
    simp only [ends, vec, h0]
    fin_cases j <;> rfl
  have e1 : (ends (e := 0) hPts t).2 = ![x1, y1] := by
    funext j
    simp only [ends, vec, h1]
    fin_cases j <;> rfl
  obtain ⟨x, hx, a, ρ, _, _, hxa, hρ, hx0, hx1⟩ := Geometry.C31_crossing_below_half_turn (m := 0) (ts := hTs.map (ends (e := 0) hPts))
    (t := ends (e := 0) hPts t) (List.mem_map_of_mem ht) (rate := 4) (f := f) (d := d) (k := 1) (j := 1)
    (by rw [e0]; simpa using hn0) (by rw [e1]; simpa using hn1) (by rw [e0]; simpa using hf) (by rw [e1]; simpa using hd) hk
    (by omega) le_rfl le_rfl
  have hx' : Geometry.intersectionPoint (m := 2 * 0) (hTs.map (ends (e := 0) hPts)) hP.rate (ends (e := 0) hPts t) ((f + 1) % 4) = some x := hx
  rw [hx', Option.map_some]
  have hρr : ρ = r := by
    apply hr a ρ
    · rw [← hx0, hxa 0, e0, e1]
      simp
    · rw [← hx1, hxa 1, e0, e1]
      simp
  subst hρr
  have := Geometry.C31_distance (x := fun i => x (Fin.cast (by omega) i)) hρ.le hx0 hx1
  simp only [List.ofFn_succ, List.ofFn_zero]
  congr 2

theorem hAngles : Geometry.borderAngle 4 1 = Real.pi / 2 ∧ Geometry.borderAngle 4 2 = Real.pi ∧
    Geometry.borderAngle 4 3 = Real.pi / 2 + Real.pi ∧ Geometry.borderAngle 4 0 = 0 := by
  unfold Geometry.borderAngle
  refine ⟨?_, ?_, ?_, ?_⟩ <;> push_cast <;> ring

/-- The distances of the crossings. -/
theorem hPlaces (m : List Point) : place hP 0 m hPts (⟨⟨0, 0⟩, ⟨1, 1⟩⟩, 1) = some [1] ∧ place hP 0 m hPts (⟨⟨1, 1⟩, ⟨2, 2⟩⟩, 2) = some [2] ∧
    place hP 0 m hPts (⟨⟨2, 2⟩, ⟨3, 3⟩⟩, 3) = some [3] ∧ place hP 0 m hPts (⟨⟨3, 3⟩, ⟨4, 0⟩⟩, 0) = some [5 / 2] ∧
    place hP 0 m hPts (⟨⟨4, 0⟩, ⟨5, 1⟩⟩, 1) = some [2] ∧ place hP 0 m hPts (⟨⟨5, 1⟩, ⟨6, 2⟩⟩, 2) = some [3 / 2] ∧
    place hP 0 m hPts (⟨⟨6, 2⟩, ⟨7, 3⟩⟩, 3) = some [1] := by
  obtain ⟨a1, a2, a3, a0⟩ := hAngles
  have s0 := segment0 (x := 2) (y := 1) (by norm_num) (by norm_num)
  have s1 := segment1 (x := 0) (y := 1) (by norm_num) (by norm_num)
  have s2 := segment2 (x := -4) (y := -1) (by norm_num) (by norm_num)
  have s3 := segment3 (x := 0) (y := -3) (by norm_num) (by norm_num)
  have s4 := segment0 (x := 5) (y := 3) (by norm_num) (by norm_num)
  have s5 := segment1 (x := 0) (y := 2) (by norm_num) (by norm_num)
  have s6 := segment2 (x := -3) (y := -2) (by norm_num) (by norm_num)
  have s7 := segment3 (x := 0) (y := -1) (by norm_num) (by norm_num)
  refine ⟨?_, ?_, ?_, ?_, ?_, ?_, ?_⟩
  · refine hCrossing (by simp [hTs]) (by simp [coordsOf, hPts]) (by simp [coordsOf, hPts]) s0 s1 (by norm_num) (by norm_num)
      ⟨by omega, by omega, rfl⟩ ?_ m
    intro a ρ h1 h2
    rw [a1] at h1 h2
    simp at h1 h2
    linarith
  · refine hCrossing (by simp [hTs]) (by simp [coordsOf, hPts]) (by simp [coordsOf, hPts]) s1 s2 (by norm_num) (by norm_num)
      ⟨by omega, by omega, rfl⟩ ?_ m
    intro a ρ h1 h2
    rw [a2] at h1 h2
    simp at h1 h2
    linarith
  · refine hCrossing (by simp [hTs]) (by simp [coordsOf, hPts]) (by simp [coordsOf, hPts]) s2 s3 (by norm_num) (by norm_num)
      ⟨by omega, by omega, rfl⟩ ?_ m
    intro a ρ h1 h2
    rw [a3] at h1 h2
    simp [Real.cos_add, Real.sin_add] at h1 h2
    linarith
  · refine hCrossing (by simp [hTs]) (by simp [coordsOf, hPts]) (by simp [coordsOf, hPts]) s3 s4 (by norm_num) (by norm_num)
      ⟨by omega, by omega, rfl⟩ ?_ m
    intro a ρ h1 h2
    rw [a0] at h1 h2
    simp at h1 h2
    linarith
  · refine hCrossing (by simp [hTs]) (by simp [coordsOf, hPts]) (by simp [coordsOf, hPts]) s4 s5 (by norm_num) (by norm_num)
      ⟨by omega, by omega, rfl⟩ ?_ m
    intro a ρ h1 h2
    rw [a1] at h1 h2
    simp at h1 h2
    linarith
  · refine hCrossing (by simp [hTs]) (by simp [coordsOf, hPts]) (by simp [coordsOf, hPts]) s5 s6 (by norm_num) (by norm_num)
      ⟨by omega, by omega, rfl⟩ ?_ m
    intro a ρ h1 h2
    rw [a2] at h1 h2
    simp at h1 h2
    linarith
  · refine hCrossing (by simp [hTs]) (by simp [coordsOf, hPts]) (by simp [coordsOf, hPts]) s6 s7 (by norm_num) (by norm_num)
      ⟨by omega, by omega, rfl⟩ ?_ m
    intro a ρ h1 h2
    rw [a3] at h1 h2
    simp [Real.cos_add, Real.sin_add] at h1 h2
    linarith

theorem hData (m : List Point) : segmentData hP 0 m hPts 1 = [[2], [1]] ∧ segmentData hP 0 m hPts 2 = [[3 / 2], [2]] ∧
    segmentData hP 0 m hPts 3 = [[1], [3]] := by
  obtain ⟨p1, p2, p3, _, p5, p6, p7⟩ := hPlaces m
  unfold segmentData
  rw [hTrack]
  have c1 : crossings hP.rate hTs 1 = [(⟨⟨0, 0⟩, ⟨1, 1⟩⟩, 1), (⟨⟨4, 0⟩, ⟨5, 1⟩⟩, 1)] := by decide
  have c2 : crossings hP.rate hTs 2 = [(⟨⟨1, 1⟩, ⟨2, 2⟩⟩, 2), (⟨⟨5, 1⟩, ⟨6, 2⟩⟩, 2)] := by decide
  have c3 : crossings hP.rate hTs 3 = [(⟨⟨2, 2⟩, ⟨3, 3⟩⟩, 3), (⟨⟨6, 2⟩, ⟨7, 3⟩⟩, 3)] := by decide
  rw [c1, c2, c3]
  simp [p1, p2, p3, p5, p6, p7]

theorem cluster_two {resolution order : Nat} (hr : 1 ≤ resolution) (ho : order ≤ resolution) {x y : ℝ} (h : x ≠ y) :
    Kde.cluster 1 resolution order 1 [[x], [y]] ≠ none := by
  intro hc
  obtain ⟨c, hc, hab⟩ := (Kde.C38_crash_iff (t := 1) (dims := 1) (data := [[x], [y]]) le_rfl hr ho (by simp) (by simp)).1.1 hc
  have : c = 0 := by omega
  subst this
  have := hab [x] (by simp) [y] (by simp)
  simp [h] at this

/-- The run delivers a vector. -/
theorem hDelivers {resolution order : Nat} (hr : 1 ≤ resolution) (ho : order ≤ resolution) :
    ∃ v, Delivers hLib resolution order hP hSeries v := by
  have hp : hP.WellFormed := ⟨by decide, by decide⟩
  have hpts := hPoints
  obtain ⟨hl, _, hnum⟩ := hpts.numbered (by decide)
  obtain ⟨m, hm, _⟩ := mirrored_some (rate := hP.rate) (by decide) hnum.coords
  obtain ⟨p1, p2, p3, p4, p5, p6, p7⟩ := hPlaces m
  obtain ⟨d1, d2, d3⟩ := hData m
  have hsc := C72_scores (len := 11) hp rfl resolution order hm hnum (by simp [hPts]) (by decide) (by decide) (by decide)
  have hne : score resolution order hP 0 11 hPts ≠ none := by
    intro h
    rcases hsc.1.1 h with ⟨t, ht, s, hs, h0⟩ | ⟨s, hs, h2, h3⟩ | ⟨t, ht, h1, h2⟩
    · rw [hTrack] at ht
      simp only [hTs, List.mem_cons, List.not_mem_nil, or_false] at ht
      have key : ∀ k, t.intersectionSegments hP.rate = [k] → s = k := fun k hk => by rw [hk] at hs; simpa using hs
      rcases ht with rfl | rfl | rfl | rfl | rfl | rfl | rfl
      · cases key 1 (by decide); rw [p1] at h0; cases h0
      · cases key 2 (by decide); rw [p2] at h0; cases h0
      · cases key 3 (by decide); rw [p3] at h0; cases h0
      · cases key 0 (by decide); rw [p4] at h0; cases h0
      · cases key 1 (by decide); rw [p5] at h0; cases h0
      · cases key 2 (by decide); rw [p6] at h0; cases h0
      · cases key 3 (by decide); rw [p7] at h0; cases h0
    · have h3 : Kde.cluster 1 resolution order 1 (segmentData hP 0 m hPts s) = none := Option.map_eq_none_iff.1 h3
      have hs' : s = 0 ∨ s = 1 ∨ s = 2 ∨ s = 3 := by simp [hP] at hs; omega
      rcases hs' with rfl | rfl | rfl | rfl
      · rw [hTrack] at h2
        revert h2
        decide
      · rw [d1] at h3; exact cluster_two hr ho (by norm_num) h3
      · rw [d2] at h3; exact cluster_two hr ho (by norm_num) h3
      · rw [d3] at h3; exact cluster_two hr ho (by norm_num) h3
    · rw [hTrack] at ht
      simp [hTs] at ht
      subst ht
      simp at h2
  obtain ⟨s0, hs0⟩ := Option.ne_none_iff_exists'.1 hne
  obtain ⟨lab, hlab, h⟩ := hsc.2 s0 hs0
  exact ⟨_, (C72_result resolution order hp rfl (by decide) (by decide) (by simp [hP, hSeries]) _).2
    ⟨hPts, hPoints, hne, m, lab, hm, hlab, rfl⟩⟩

/-- It also delivers it with the hash. -/
theorem hDeliversHashed {resolution order : Nat} (hr : 1 ≤ resolution) (ho : order ≤ resolution) :
    ∃ v, DeliversHashed hLib resolution order hP hSeries v := by
  obtain ⟨v, hv⟩ := hDelivers hr ho
  refine ⟨v, (C101_no_difference hLib ⟨by decide, by decide⟩ rfl (B := 3) (by norm_num) ?_ v).2 hv⟩
  intro pts m h1 hm s hs row hrow x hx
  have := PointsOf.unique hLib_gram hLib_settled h1 (t := 1) hPoints
  subst this
  obtain ⟨d1, d2, d3⟩ := hData m
  have hs' : s = 0 ∨ s = 1 ∨ s = 2 ∨ s = 3 := by simp [hP] at hs; omega
  rcases hs' with rfl | rfl | rfl | rfl
  · unfold segmentData at hrow
    rw [hTrack, show crossings hP.rate hTs 0 = [(⟨⟨3, 3⟩, ⟨4, 0⟩⟩, 0)] by decide] at hrow
    simp [(hPlaces m).2.2.2.1] at hrow
    subst hrow
    simp at hx
    subst hx
    norm_num
  · rw [d1] at hrow; simp at hrow; rcases hrow with rfl | rfl <;> simp at hx <;> subst hx <;> norm_num
  · rw [d2] at hrow; simp at hrow; rcases hrow with rfl | rfl <;> simp at hx <;> subst hx <;> norm_num
  · rw [d3] at hrow; simp at hrow; rcases hrow with rfl | rfl <;> simp at hx <;> subst hx <;> norm_num

/-- With order 0 every place of the grid is a peak, so that the centres of two distances are positive. -/
theorem centres_two {resolution : Nat} (hr : 1 ≤ resolution) : ∃ labels table c x, Kde.cluster 1 resolution 0 1 [[(2 : ℝ)], [1]] =
    some (labels, table) ∧ c ∈ table ∧ x ∈ c ∧ 0 < x := by
  classical
  obtain ⟨⟨labels, table⟩, hcl⟩ := Option.ne_none_iff_exists'.1 (cluster_two hr (Nat.zero_le resolution) (x := 2) (y := 1) (by norm_num))
  obtain ⟨rows, h1, h2⟩ := (Kde.cluster_rows _ _ _ _ _ _).1 hcl
  have hmem := (Contribution.extractLabels_eq h2).2.1
  unfold Kde.centerRows at h1
  obtain ⟨cols, h3, h1⟩ := Option.bind_eq_some_iff.1 h1
  obtain ⟨centers, h4, h5⟩ := Option.bind_eq_some_iff.1 h1
  have hcols : cols = [[2, 1]] := by
    simpa [List.range_succ] using h3.symm
  subst hcols
  rw [List.mapM_cons] at h4
  obtain ⟨cs, hcs, h4⟩ := Option.bind_eq_some_iff.1 h4
  have hcen : centers = [cs] := by simpa using h4.symm
  subst hcen
  obtain ⟨dens, _, hcs⟩ := Option.bind_eq_some_iff.1 hcs
  have hall : ∀ y ∈ cs, 0 < y := by
    intro y hy
    unfold Kde.columnCenters at hcs
    simp only [Kde.colMin, Kde.colMax, Option.bind_eq_bind, Option.bind_some, List.foldl_cons, List.foldl_nil] at hcs
    obtain ⟨idx, hidx, hcs⟩ := Option.bind_eq_some_iff.1 hcs
    have hi : idx = List.range resolution := by
      unfold Kde.findPeakIndex Kde.peakLoop at hidx
      simp at hidx
      rw [← hidx]
      rw [List.filter_eq_self]
      intro i hi
      simp [List.mem_range.1 hi]
    subst hi
    rw [if_neg (by simp; omega)] at hcs
    obtain ⟨z, _, hz⟩ := Kde.mapM_mem hcs hy
    obtain ⟨i, _, rfl⟩ := List.mem_map.1 (Kde.closestPeak_mem hz)
    unfold Kde.gridAt
    have h12 : min (2 : ℝ) 1 = 1 ∧ max (2 : ℝ) 1 = 2 := by norm_num
    rw [h12.1, h12.2]
    have : (0 : ℝ) ≤ (i : ℝ) * ((2 + (2 - 1) * 0.1 - (1 - (2 - 1) * 0.1)) / ((resolution - 1 : Nat) : ℝ)) :=
      mul_nonneg (Nat.cast_nonneg _) (div_nonneg (by norm_num) (Nat.cast_nonneg _))
    simp only
    linarith
  obtain ⟨row, hrow⟩ : ∃ row, row ∈ rows := by
    cases rows with
    | nil => exact absurd rfl (Contribution.extractLabels_eq h2).2.2.2
    | cons a _ => exact ⟨a, List.mem_cons_self ..⟩
  obtain ⟨i, _, hi⟩ := Kde.mapM_mem h5 hrow
  rw [List.mapM_cons] at hi
  obtain ⟨x, hx, hi⟩ := Option.bind_eq_some_iff.1 hi
  have hrx : row = [x] := by simpa using hi.symm
  subst hrx
  exact ⟨labels, table, [x], x, hcl, (hmem _).2 hrow, List.mem_singleton_self x, hall x (List.mem_of_getElem? hx)⟩

/-- Instance of C101_larger: in large units the run delivers nothing, although it does in the given one. -/
theorem C101_limit_counterexample : (∃ v, DeliversHashed hLib 250 0 hP hSeries v) ∧ ∃ A : ℝ, 0 < A ∧ ∀ a, A ≤ a → ∀ v,
    (¬ DeliversHashed hLib 250 0 hP (hSeries.map (a • ·)) v) ∧
    (Delivers hLib 250 0 hP (hSeries.map (a • ·)) v ↔ Delivers hLib 250 0 hP hSeries v) := by
  refine ⟨hDeliversHashed (by omega) (by omega), ?_⟩
  obtain ⟨hl, _, hnum⟩ := hPoints.numbered (by decide)
  obtain ⟨m, hm, _⟩ := mirrored_some (rate := hP.rate) (by decide) hnum.coords
  obtain ⟨labels, table, c, x, hcl, hc, hx, hpos⟩ := centres_two (resolution := 250) (by omega)
  have hA : 0 < ((2 : ℝ) ^ 63 + 1) / (80 * x) := by positivity
  refine ⟨_, hA, fun a ha v => ⟨?_, C70_scale hLib_gram 250 0 hLib_settled (hA.trans_le ha) v⟩⟩
  refine C101_larger hLib_gram ⟨by decide, by decide⟩ rfl hLib_settled hPoints hm (s := 1) (by decide) ?_ (labels := labels) (table := table)
    ?_ hc hx hpos.ne' ?_ v
  · rw [hTrack]
    decide
  · rw [(hData m).1]
    exact hcl
  · rw [abs_of_pos hpos]
    rw [div_le_iff₀ (by positivity)] at ha
    linarith

/-! Instances of the other theorems. -/
example : ∃ v, DeliversHashed hLib 250 1 hP (hSeries.map ((1 / 1000 : ℝ) • ·)) v := by
  obtain ⟨v, hv⟩ := hDeliversHashed (resolution := 250) (order := 1) (by omega) (by omega)
  exact ⟨v, C101_smaller hLib_gram ⟨by decide, by decide⟩ rfl hLib_settled (by norm_num) (by norm_num) hv⟩
example : Kde.clusterHashed 1 250 1 1 [[1], [2]] = Kde.cluster 1 250 1 1 [[1], [2]] :=
  Kde.C101_small (B := 2) (by norm_num) (by simp)
example : Kde.approximate (1 / 2) = some 40 ∧ Kde.approximate (-1 / 50) = some (-1) ∧ Kde.approximate (2 ^ 60) = none := by
  refine ⟨?_, ?_, ?_⟩
  · have : Kde.trunc (80 * (1 / 2)) = 40 := by
      unfold Kde.trunc
      rw [if_pos (by norm_num)]
      norm_num
    unfold Kde.approximate
    rw [this]
    norm_num
  · have : Kde.trunc (80 * (-1 / 50)) = -1 := by
      unfold Kde.trunc
      rw [if_neg (by norm_num), Int.ceil_eq_iff]
      norm_num
    unfold Kde.approximate
    rw [this]
    norm_num
  · rw [← Option.not_isSome_iff_eq_none, Kde.approximate_isSome]
    unfold Kde.Fits
    norm_num

end Whole
end S2G
