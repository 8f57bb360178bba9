import Verif.Props.WholeRun
import Verif.Props.Geometry

/-!
# A run on one node in numbers

The hypotheses of C69-C72 hold for a wave of seven values, windows of three, and the exact singular vectors.
-/

namespace S2G
namespace Whole

open Pca Rotation Points Pipeline

/-- Pattern length 4, latent 1, query length 1, four segments, one thread. -/
def exP : Parameters := ⟨4, 1, 1, 4, 1, 1, false⟩

/-- A wave. -/
def exSeries : List (Fin 1 → ℝ) := [fun _ => 1, fun _ => 0, fun _ => -1, fun _ => 0, fun _ => 1, fun _ => 0, fun _ => -1]

/-- The singular vectors of the windows (singular values 2, `√2` and 0). -/
noncomputable def exLib : Lib 2 where
  qr := id
  svd := fun _ => some [![(√2)⁻¹, 0, -(√2)⁻¹], ![0, 1, 0], ![(√2)⁻¹, 0, (√2)⁻¹]]

noncomputable def exComps : List (Row 3) := [![(√2)⁻¹, 0, -(√2)⁻¹], ![0, 1, 0], ![(√2)⁻¹, 0, (√2)⁻¹]]

theorem exLib_gram : ∀ A, gram (exLib.qr A) = gram A := fun _ => rfl

theorem exLib_settled (m : Fin 1) : Settled exLib (windows 2 exP exSeries m) := fun _ _ _ _ _ _ => rfl

theorem exWindows (m : Fin 1) : windows 2 exP exSeries m = [![1, 0, -1], ![0, -1, 0], ![-1, 0, 1], ![0, 1, 0]] := by
  unfold windows column exSeries exP
  simp only [List.length_cons, List.length_nil, List.map_map]
  norm_num [List.range_succ, PhaseSpace.specPoint, PhaseSpace.series]
  refine ⟨?_, ?_, ?_, ?_⟩ <;> funext j <;> fin_cases j <;> simp

/-- The singular vectors are those of the Gram matrix: the example is not about a made-up library. -/
theorem exLib_exact : ∀ v ∈ exComps, ∃ l : ℝ, (gram (windows 2 exP exSeries 0)).mulVec v = l • v := by
  have hg : gram (windows 2 exP exSeries 0) = !![2, 0, -2; 0, 2, 0; -2, 0, 2] := by
    rw [exWindows]
    ext i j
    unfold gram
    fin_cases i <;> fin_cases j <;> norm_num
  rw [hg]
  intro v hv
  simp only [exComps, List.mem_cons, List.not_mem_nil, or_false] at hv
  rcases hv with rfl | rfl | rfl
  · refine ⟨4, ?_⟩
    funext j
    fin_cases j <;> simp [Matrix.mulVec, dotProduct, Fin.sum_univ_three] <;> ring
  · refine ⟨2, ?_⟩
    funext j
    fin_cases j <;> simp [Matrix.mulVec, dotProduct, Fin.sum_univ_three]
  · refine ⟨0, ?_⟩
    funext j
    fin_cases j <;> simp [Matrix.mulVec, dotProduct, Fin.sum_univ_three]

theorem exPca (m : Fin 1) : PcaOf exLib 1 (windows 2 exP exSeries m) exComps 0 := by
  refine (pcaOf_iff exLib_gram (exLib_settled m)).2 ⟨by rw [exWindows]; simp, .inl le_rfl, ?_, ?_⟩
  · rw [exWindows]
    funext j
    unfold mean
    fin_cases j <;> simp
  · show some (Pca.normalize _) = some exComps
    have h2 : 0 ≤ (√2)⁻¹ := by positivity
    unfold Pca.normalize exComps
    simp [normalizeRow, h2]

/-- The rotation matrix of the example. -/
noncomputable def exR : Matrix (Fin 3) (Fin 3) ℝ := !![1, 0, 0; 0, -(√2 / √3), (√3)⁻¹; 0, -(√3)⁻¹, -(√2 / √3)]

theorem exRotation : rotationMatrix (reduced exComps 0 (fun _ => -1)) = some exR := by
  have hu : reduced exComps 0 (fun _ => -1) = ![0, -1, -√2] := by
    have h2 : √2 * √2 = 2 := Real.mul_self_sqrt (by norm_num)
    funext j
    unfold reduced reduceRow exComps
    fin_cases j <;> simp [List.finRange_succ]
    field_simp
    nlinarith
  rw [hu]
  have h2 : √2 * √2 = 2 := Real.mul_self_sqrt (by norm_num)
  have h3 : √3 * √3 = 3 := Real.mul_self_sqrt (by norm_num)
  have h3' : 0 < √3 := by positivity
  have hn : Rotation.norm ![0, -1, -√2] = √3 := by
    unfold Rotation.norm
    congr 1
    simp
    norm_num
  unfold rotationMatrix
  rw [hn, if_neg h3'.ne']
  have hv : cross (fun i => (![0, -1, -√2] : Vec) i / √3) ![0, 0, 1] = ![-(√3)⁻¹, 0, 0] := by
    unfold cross
    funext j
    fin_cases j <;> simp [neg_div]
  have hs : Rotation.norm ![-(√3)⁻¹, 0, 0] = (√3)⁻¹ := by
    unfold Rotation.norm
    simp
  simp only [hv, hs]
  rw [if_neg (by positivity)]
  congr 1
  have h9 : (√3)⁻¹ * (√3)⁻¹ = 3⁻¹ := by rw [← mul_inv, h3]
  rw [h9]
  unfold exR
  ext i j
  fin_cases i <;> fin_cases j <;> simp [skew, h9] <;> ring

/-- Two rows of coordinates per point. -/
theorem exCoords (m : Fin 1 → Vec) (a b : ℝ) (h0 : m 0 0 = a) (h1 : -(√2 / √3) * m 0 1 + (√3)⁻¹ * m 0 2 = b) :
    coordinates (fun _ => exR) m = [a, b] := by
  unfold coordinates rotateRow
  simp [List.finRange_succ, Matrix.vecMul, dotProduct, Fin.sum_univ_three, exR, ← h0, ← h1]
  ring

/-- Distance of the two points on the vertical axis. -/
noncomputable def exH : ℝ := √2 / √3

noncomputable def exPts : List Point := [⟨0, [√2, 0], 0⟩, ⟨1, [0, exH], 1⟩, ⟨2, [-√2, 0], 2⟩, ⟨3, [0, -exH], 3⟩]

theorem exSegments : SegmentId.pointSegment (√2) 0 4 = some 0 ∧ SegmentId.pointSegment 0 exH 4 = some 1 ∧
    SegmentId.pointSegment (-√2) 0 4 = some 2 ∧ SegmentId.pointSegment 0 (-exH) 4 = some 3 := by
  have hpi := Real.pi_pos
  have h2 : (0 : ℝ) < √2 := by positivity
  have hh : 0 < exH := by unfold exH; positivity
  refine ⟨(SegmentId.C25_polar (by simp) (by omega) 0).2 ⟨by omega, √2, 0, h2, by simp, by simp, ?_, ?_⟩,
    (SegmentId.C25_polar (by simp [hh.ne']) (by omega) 1).2 ⟨by omega, exH, Real.pi / 2, hh, by simp, by simp, ?_, ?_⟩,
    (SegmentId.C25_polar (by simp) (by omega) 2).2 ⟨by omega, √2, Real.pi, h2, by simp, by simp, ?_, ?_⟩,
    (SegmentId.C25_polar (by simp [hh.ne']) (by omega) 3).2
      ⟨by omega, exH, Real.pi / 2 + Real.pi, hh, by simp [Real.cos_add], by simp [Real.sin_add], ?_, ?_⟩⟩ <;>
    push_cast <;> linarith

theorem exPoints : PointsOf exLib exP exSeries exPts := by
  have hw : checkedSub exP.patternLength exP.latent = some (2 + 1) := rfl
  obtain ⟨ref, h1, h2⟩ := reference_some hw (fun _ : Fin 1 => (-1 : ℝ)) (fun _ => 1)
  refine ⟨fun _ => -1, fun _ => 1, _, ref, fun _ => exComps, fun _ => 0, _, fun _ => exR, fun m => ⟨?_, ?_⟩, hw, h1,
    PhaseSpace.C14_windowed_sums exP exSeries (by decide) (by simp [exP, exSeries]), exPca, h2, fun m => ?_, ?_⟩
  · simp [columnMin, exSeries, Kde.colMin]
  · simp [columnMax, exSeries, Kde.colMax]
  · rw [← exRotation]
    have : (fun j : Fin 3 => (List.replicate (2 + 1) (fun _ : Fin 1 => (exP.latent : ℝ) * -1)).getD j 0 m) = fun _ => -1 := by
      funext j
      rw [getD_replicate_fin]
      simp [exP]
    rw [this]
  · have hwin := fun m => exWindows m
    unfold windows at hwin
    obtain ⟨s0, s1, s2, s3⟩ := exSegments
    have hc : ∀ i : Fin 4, coordinates (fun _ => exR) (fun _ : Fin 1 => reduced exComps 0
        (([![1, 0, -1], ![0, -1, 0], ![-1, 0, 1], ![0, 1, 0]] : List (Row 3)).getD i 0)) =
          ([[√2, 0], [0, exH], [-√2, 0], [0, -exH]] : List (List ℝ)).getD i [] := by
      have h2 : √2 * √2 = 2 := Real.mul_self_sqrt (by norm_num)
      have h2' : 0 < √2 := by positivity
      intro i
      fin_cases i <;> refine exCoords _ _ _ ?_ ?_ <;>
        simp [reduced, reduceRow, exComps, List.finRange_succ, exH] <;> field_simp <;> nlinarith
    have hlen : ((List.range (exSeries.length - (exP.patternLength - 1))).map (PhaseSpace.specPoint exP exSeries)).length = 4 := by
      simp [exP, exSeries]
    have hrows : (List.range 4).map (fun i (_ : Fin 1) => reduced exComps 0
        (([![1, 0, -1], ![0, -1, 0], ![-1, 0, 1], ![0, 1, 0]] : List (Row 3)).getD i 0)) =
        (List.range ((List.range (exSeries.length - (exP.patternLength - 1))).map (PhaseSpace.specPoint exP exSeries)).length).map
          (fun i m => reduced exComps 0 ((column ((List.range (exSeries.length - (exP.patternLength - 1))).map
            (PhaseSpace.specPoint exP exSeries)) m).getD i 0)) := by
      rw [hlen]
      apply List.map_congr_left
      intro i _
      funext m
      rw [hwin m]
    rw [← hrows]
    unfold applyRotation
    have hmap : ((List.range 4).map (fun i (_ : Fin 1) => reduced exComps 0
        (([![1, 0, -1], ![0, -1, 0], ![-1, 0, 1], ![0, 1, 0]] : List (Row 3)).getD i 0))).map (coordinates (fun _ => exR)) =
        [[√2, 0], [0, exH], [-√2, 0], [0, -exH]] := by
      rw [List.map_map]
      apply List.ext_getElem
      · simp
      · intro i hi _
        simp only [List.length_map, List.length_range] at hi
        rw [List.getElem_map, List.getElem_range]
        rw [Function.comp, hc ⟨i, hi⟩, List.getD_eq_getElem]
    rw [if_neg (by omega), hmap]
    simp [checkedDiv, addPoints, newPoint, exP, s0, s1, s2, s3, exPts]

theorem exTrack (mirrored : List Point) : track exP mirrored exPts = [⟨⟨0, 0⟩, ⟨1, 1⟩⟩, ⟨⟨1, 1⟩, ⟨2, 2⟩⟩, ⟨⟨2, 2⟩, ⟨3, 3⟩⟩] := by
  unfold track effective
  rw [if_neg (by simp [exP])]
  rfl

/-- The steps of the example. -/
def exTs : List Trans := [⟨⟨0, 0⟩, ⟨1, 1⟩⟩, ⟨⟨1, 1⟩, ⟨2, 2⟩⟩, ⟨⟨2, 2⟩, ⟨3, 3⟩⟩]

theorem exMax_pos : 0 < Geometry.maxValue (n := 1) (exTs.map (ends (e := 0) exPts)) := by
  have h2 : (0 : ℝ) < √2 := by positivity
  have h := (Geometry.maxValue_ge (ts := exTs.map (ends (e := 0) exPts)) (t := ends (e := 0) exPts ⟨⟨0, 0⟩, ⟨1, 1⟩⟩)
    (List.mem_map_of_mem (by simp [exTs])) 0).1
  have h1 : (ends (e := 0) exPts ⟨⟨0, 0⟩, ⟨1, 1⟩⟩).1 0 = √2 := by simp [ends, vec, coordsOf, exPts]
  rw [h1, abs_of_pos h2] at h
  exact h2.trans_le h

theorem exCrossing {x0 y0 x1 y1 : ℝ} {t : Trans} {s : Nat} (h0 : coordsOf exPts t.src.id = [x0, y0])
    (h1 : coordsOf exPts t.dst.id = [x1, y1])
    (h : (x1 - x0) * Real.sin (2 * Real.pi * s / 4) ≠ (y1 - y0) * Real.cos (2 * Real.pi * s / 4)) :
    interCoord 0 exPts exTs 4 (t, s) ≠ none := by
  unfold interCoord Geometry.intersectionPoint
  intro hc
  rw [Option.map_eq_none_iff, Geometry.C31_border_none_iff] at hc
  rcases hc with hc | hc
  · exact exMax_pos.ne' hc
  · apply h
    simpa [ends, vec, h0, h1, Geometry.borderAngle] using hc

theorem exPlaces {m : List Point} {t : Trans} (ht : t ∈ exTs) {s : Nat} (hs : s ∈ t.intersectionSegments 4) :
    place exP 0 m exPts (t, s) ≠ none := by
  have h2 : (0 : ℝ) < √2 := by positivity
  have hh : 0 < exH := by unfold exH; positivity
  unfold place
  rw [exTrack, corrected, if_neg (by simp [exP])]
  have h3 : 2 * Real.pi * 3 / 4 = Real.pi / 2 + Real.pi := by ring
  have h1 : 2 * Real.pi * 1 / 4 = Real.pi / 2 := by ring
  have h22 : 2 * Real.pi * 2 / 4 = Real.pi := by ring
  simp only [exTs, List.mem_cons, List.not_mem_nil, or_false] at ht
  rcases ht with rfl | rfl | rfl
  · have : s = 1 := by revert hs; simp [Trans.intersectionSegments, Trans.intersectionCount, Trans.segmentDiff, Trans.rawDiff]
    subst this
    refine exCrossing (x0 := √2) (y0 := 0) (x1 := 0) (y1 := exH) (by simp [coordsOf, exPts]) (by simp [coordsOf, exPts]) ?_
    push_cast
    rw [h1]
    simp
  · have : s = 2 := by revert hs; simp [Trans.intersectionSegments, Trans.intersectionCount, Trans.segmentDiff, Trans.rawDiff]
    subst this
    refine exCrossing (x0 := 0) (y0 := exH) (x1 := -√2) (y1 := 0) (by simp [coordsOf, exPts]) (by simp [coordsOf, exPts]) ?_
    push_cast
    rw [h22]
    simp [hh.ne]
  · have : s = 3 := by revert hs; simp [Trans.intersectionSegments, Trans.intersectionCount, Trans.segmentDiff, Trans.rawDiff]
    subst this
    refine exCrossing (x0 := -√2) (y0 := 0) (x1 := 0) (y1 := -exH) (by simp [coordsOf, exPts]) (by simp [coordsOf, exPts]) ?_
    push_cast
    rw [h3]
    simp [Real.sin_add, Real.cos_add]

/-- The run delivers a vector. -/
theorem exDelivers (resolution order : Nat) : ∃ v, Delivers exLib resolution order exP exSeries v := by
  have hp : exP.WellFormed := ⟨by decide, by decide⟩
  have hpts := exPoints
  obtain ⟨hl, _, hnum⟩ := hpts.numbered (by decide)
  obtain ⟨m, hm, _⟩ := mirrored_some (rate := exP.rate) (by decide) hnum.coords
  have hsc := C72_scores (len := 7) hp rfl resolution order hm hnum (by simp [exPts]) (by decide) (by decide) (by decide)
  rw [exTrack] at hsc
  have hne : score resolution order exP 0 7 exPts ≠ none := by
    intro h
    rcases hsc.1.1 h with ⟨t, ht, s, hs, h0⟩ | ⟨s, hs, h2, _⟩ | ⟨t, ht, h1, h2⟩
    · exact exPlaces ht hs h0
    · have hs' : s = 0 ∨ s = 1 ∨ s = 2 ∨ s = 3 := by simp [exP] at hs; omega
      rcases hs' with rfl | rfl | rfl | rfl <;> revert h2 <;> decide
    · simp at ht
      subst ht
      simp at h2
  obtain ⟨s0, hs0⟩ := Option.ne_none_iff_exists'.1 hne
  obtain ⟨lab, hlab, h⟩ := hsc.2 s0 hs0
  refine ⟨_, (C72_result resolution order hp rfl (by decide) (by decide) (by simp [exP, exSeries]) _).2
    ⟨exPts, hpts, hne, m, lab, hm, by rw [exTrack]; exact hlab, rfl⟩⟩

/-- It has three entries, with any clustering constants. -/
theorem exDelivers_length (resolution order : Nat) : ∃ l, Delivers exLib resolution order exP exSeries (some l) ∧ l.length = 3 := by
  obtain ⟨v, hv⟩ := exDelivers resolution order
  obtain ⟨l, rfl, hl, _⟩ := C72_length resolution order ⟨by decide, by decide⟩ rfl (by decide) (by decide)
    (by simp [exP, exSeries]) hv
  exact ⟨l, hv, by simpa [exP, exSeries] using hl⟩

/-! The theorems about whole runs on this series: two threads, a shifted and a scaled series, another last row. -/
example (v) (h : Delivers exLib 10 3 exP exSeries v) : Delivers exLib 10 3 { exP with nThreads := 2 } exSeries v :=
  (C72_threads exLib_gram 10 3 ⟨by decide, by decide⟩ rfl exLib_settled (by decide) (by decide) (by simp [exP, exSeries])
    (t := 2) (by decide) (by simp [exP, exSeries]) h).2 (by simp [Chunked, exP, exSeries, divCeil])
example : ∃ v, Delivers exLib 10 3 exP (exSeries.map (· + fun _ => 7)) v := by
  obtain ⟨v, hv⟩ := exDelivers 10 3
  exact ⟨v, (C69_shift exLib 10 3 exP exSeries (fun _ => 7) v).2 hv⟩
example : ∃ v, Delivers exLib 10 3 exP (exSeries.map ((3 : ℝ) • ·)) v := by
  obtain ⟨v, hv⟩ := exDelivers 10 3
  exact ⟨v, (C70_scale exLib_gram 10 3 exLib_settled (by norm_num) v).2 hv⟩
example : ∃ v, Delivers (e := 0) exLib 10 3 exP ([fun _ => 1, fun _ => 0, fun _ => -1, fun _ => 0, fun _ => 1, fun _ => 0] ++
    [fun _ => 1000]) v := by
  obtain ⟨v, hv⟩ := exDelivers 10 3
  exact ⟨v, (C71_no_minimum exLib 10 3 exP (y := fun _ => 1000) (x := fun _ => -1) (fun m => ⟨fun _ => -1, by simp, by simp⟩)
    (fun m => ⟨fun _ => -1, by simp, by norm_num⟩) v).1 hv⟩

end Whole
end S2G
