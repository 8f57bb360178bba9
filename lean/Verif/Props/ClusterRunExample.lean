import Verif.Props.ClusterRun
import Verif.Props.WholeExample
import Mathlib.Analysis.SpecialFunctions.Trigonometric.Arctan

/-!
# A run on two nodes from the series to the scores in numbers

The hypotheses of C75 hold for nine values of a wave with period six, windows of three, the exact singular vectors, four segments and
two nodes; and the run delivers a vector.
-/

namespace S2G
namespace Cluster

open Pca Rotation Points Whole Pipeline Edges SegState

/-- Pattern length 4, latent 1, query length 1, four segments, one thread, two nodes. -/
def hP : Parameters := ⟨4, 1, 1, 4, 1, 2, false⟩

/-- One and a half turns. -/
def hSeries : List (Fin 1 → ℝ) := [fun _ => 2, fun _ => 1, fun _ => -1, fun _ => -2, fun _ => -1, fun _ => 1, fun _ => 2, fun _ => 1,
  fun _ => -1]

/-- The windows. -/
def hRows : List (Row 3) := [![2, 1, -1], ![1, -1, -2], ![-1, -2, -1], ![-2, -1, 1], ![-1, 1, 2], ![1, 2, 1]]

noncomputable def hComps : List (Row 3) :=
  [![(√2)⁻¹, 0, -(√2)⁻¹], ![(√6)⁻¹, 2 * (√6)⁻¹, (√6)⁻¹], ![(√3)⁻¹, -(√3)⁻¹, (√3)⁻¹]]

/-- The singular vectors of the windows. -/
noncomputable def hLib : Lib 2 where
  qr := id
  svd := fun _ => some hComps

theorem hLib_gram : ∀ A, gram (hLib.qr A) = gram A := fun _ => rfl

theorem hLib_settled (m : Fin 1) : Settled hLib (windows 2 hP hSeries m) := fun _ _ _ _ _ _ => rfl

theorem hWindows (m : Fin 1) : windows 2 hP hSeries m = hRows := by
  unfold windows column hSeries hP hRows
  simp only [List.length_cons, List.length_nil, List.map_map]
  norm_num [List.range_succ, PhaseSpace.specPoint, PhaseSpace.series]
  refine ⟨?_, ?_, ?_, ?_, ?_, ?_⟩ <;> funext j <;> fin_cases j <;> simp

/-- The singular vectors are those of the Gram matrix: the example is not about a made-up library. -/
theorem hLib_exact : ∀ v ∈ hComps, ∃ l : ℝ, (gram (windows 2 hP hSeries 0)).mulVec v = l • v := by
  have hg : gram (windows 2 hP hSeries 0) = !![12, 6, -6; 6, 12, 6; -6, 6, 12] := by
    rw [hWindows]
    ext i j
    unfold gram hRows
    fin_cases i <;> fin_cases j <;> norm_num
  rw [hg]
  intro v hv
  simp only [hComps, List.mem_cons, List.not_mem_nil, or_false] at hv
  rcases hv with rfl | rfl | rfl
  · refine ⟨18, ?_⟩
    funext j
    fin_cases j <;> simp [Matrix.mulVec, dotProduct, Fin.sum_univ_three] <;> ring
  · refine ⟨18, ?_⟩
    funext j
    fin_cases j <;> simp [Matrix.mulVec, dotProduct, Fin.sum_univ_three] <;> ring
  · refine ⟨0, ?_⟩
    funext j
    fin_cases j <;> simp [Matrix.mulVec, dotProduct, Fin.sum_univ_three] <;> ring

theorem hPca (m : Fin 1) : PcaOf hLib 1 (windows 2 hP hSeries m) hComps 0 := by
  refine (pcaOf_iff hLib_gram (hLib_settled m)).2 ⟨by rw [hWindows]; simp [hRows], .inl le_rfl, ?_, ?_⟩
  · rw [hWindows]
    funext j
    unfold mean hRows
    fin_cases j <;> simp
  · show some (Pca.normalize _) = some hComps
    have h2 : 0 ≤ (√2)⁻¹ := by positivity
    have h6 : 0 ≤ (√6)⁻¹ := by positivity
    have h3 : 0 ≤ (√3)⁻¹ := by positivity
    unfold Pca.normalize hComps
    simp [normalizeRow, h2, h3, h6]

/-- The rotation matrix of the example. -/
noncomputable def hR : Matrix (Fin 3) (Fin 3) ℝ := !![1, 0, 0; 0, -(1 / 3), 2 * √2 / 3; 0, -(2 * √2 / 3), -(1 / 3)]

theorem hRotation : rotationMatrix (reduced hComps 0 (fun _ => -2)) = some hR := by
  have h2 : √2 * √2 = 2 := Real.mul_self_sqrt (by norm_num)
  have h3 : √3 * √3 = 3 := Real.mul_self_sqrt (by norm_num)
  have h2' : 0 < √2 := by positivity
  have h3' : 0 < √3 := by positivity
  have h6 : √6 = √2 * √3 := by rw [← Real.sqrt_mul (by norm_num)]; norm_num
  have hu : reduced hComps 0 (fun _ => -2) = ![0, -(4 * √2 / √3), -(2 / √3)] := by
    funext j
    unfold reduced reduceRow hComps
    rw [h6]
    fin_cases j <;> simp [List.finRange_succ]
    · field_simp
      nlinarith
    · field_simp
  rw [hu]
  have hn : Rotation.norm ![0, -(4 * √2 / √3), -(2 / √3)] = 2 * √3 := by
    unfold Rotation.norm
    rw [Real.sqrt_eq_iff_mul_self_eq (by positivity) (by positivity)]
    simp
    field_simp
    nlinarith
  unfold rotationMatrix
  rw [hn, if_neg (by positivity)]
  have hv : cross (fun i => (![0, -(4 * √2 / √3), -(2 / √3)] : Vec) i / (2 * √3)) ![0, 0, 1] = ![-(2 * √2 / 3), 0, 0] := by
    unfold cross
    funext j
    fin_cases j <;> simp
    field_simp
    nlinarith
  have hs : Rotation.norm ![-(2 * √2 / 3), 0, 0] = 2 * √2 / 3 := by
    unfold Rotation.norm
    simp
    exact Real.sqrt_sq (by positivity)
  simp only [hv, hs]
  rw [if_neg (by positivity)]
  congr 1
  have h9 : 2 * √2 / 3 * (2 * √2 / 3) = 8 / 9 := by nlinarith
  have h7 : -(2 / √3) / (2 * √3) = -(1 / 3) := by field_simp; nlinarith
  rw [h9]
  unfold hR
  ext i j
  fin_cases i <;> fin_cases j <;> simp [skew, h9, h7]

theorem hCoords (m : Fin 1 → Vec) (a b : ℝ) (h0 : m 0 0 = a) (h1 : -(1 / 3) * m 0 1 + 2 * √2 / 3 * m 0 2 = b) :
    coordinates (fun _ => hR) m = [a, b] := by
  unfold coordinates rotateRow
  simp [List.finRange_succ, Matrix.vecMul, dotProduct, Fin.sum_univ_three, hR, ← h0, ← h1]
  ring

noncomputable def hA : ℝ := 3 * (√2)⁻¹
noncomputable def hB : ℝ := (√6)⁻¹

theorem hA_pos : 0 < hA := by unfold hA; positivity
theorem hB_pos : 0 < hB := by unfold hB; positivity

noncomputable def hPts : List Point := [⟨0, [hA, -hB], 3⟩, ⟨1, [hA, hB], 0⟩, ⟨2, [0, 2 * hB], 1⟩, ⟨3, [-hA, hB], 1⟩, ⟨4, [-hA, -hB], 2⟩,
  ⟨5, [0, -(2 * hB)], 3⟩]

/-- The quadrants are the segments. -/
theorem quadrants {a b : ℝ} (ha : 0 < a) (hb : 0 < b) : SegmentId.pointSegment a b 4 = some 0 ∧ SegmentId.pointSegment (-a) b 4 = some 1 ∧
    SegmentId.pointSegment (-a) (-b) 4 = some 2 ∧ SegmentId.pointSegment a (-b) 4 = some 3 := by
  have hpi := Real.pi_pos
  obtain ⟨r, t, hr, h1, h2, ht, ht'⟩ : ∃ r t : ℝ, 0 < r ∧ a = r * Real.cos t ∧ b = r * Real.sin t ∧ 0 < t ∧ t < Real.pi / 2 := by
    have hc := Real.cos_arctan_pos (b / a)
    refine ⟨a / Real.cos (Real.arctan (b / a)), Real.arctan (b / a), by positivity, by field_simp, ?_, ?_, Real.arctan_lt_pi_div_two _⟩
    · rw [div_mul_eq_mul_div, mul_div_assoc, ← Real.tan_eq_sin_div_cos, Real.tan_arctan]
      field_simp
    · rw [Real.arctan_pos]
      positivity
  refine ⟨(SegmentId.C25_polar (by simp [ha.ne']) (by omega) 0).2 ⟨by omega, r, t, hr, h1, h2, ?_, ?_⟩,
    (SegmentId.C25_polar (by simp [ha.ne']) (by omega) 1).2 ⟨by omega, r, Real.pi - t, hr, ?_, ?_, ?_, ?_⟩,
    (SegmentId.C25_polar (by simp [ha.ne']) (by omega) 2).2 ⟨by omega, r, t + Real.pi, hr, ?_, ?_, ?_, ?_⟩,
    (SegmentId.C25_polar (by simp [ha.ne']) (by omega) 3).2 ⟨by omega, r, 2 * Real.pi - t, hr, ?_, ?_, ?_, ?_⟩⟩
  all_goals first
    | (push_cast; linarith)
    | simp [h1, h2, Real.cos_two_pi_sub, Real.sin_two_pi_sub, Real.cos_pi_sub, Real.sin_pi_sub, Real.cos_add_pi, Real.sin_add_pi]

theorem axis {b : ℝ} (hb : 0 < b) : SegmentId.pointSegment 0 b 4 = some 1 ∧ SegmentId.pointSegment 0 (-b) 4 = some 3 := by
  have hpi := Real.pi_pos
  refine ⟨(SegmentId.C25_polar (by simp [hb.ne']) (by omega) 1).2 ⟨by omega, b, Real.pi / 2, hb, by simp, by simp, ?_, ?_⟩,
    (SegmentId.C25_polar (by simp [hb.ne']) (by omega) 3).2
      ⟨by omega, b, Real.pi / 2 + Real.pi, hb, by simp [Real.cos_add], by simp [Real.sin_add], ?_, ?_⟩⟩ <;>
    push_cast <;> linarith

theorem hCoordsAll : (hRows.map (fun x (_ : Fin 1) => reduced hComps 0 x)).map (coordinates (fun _ => hR)) = hPts.map Point.coordinates := by
  have h2 : √2 * √2 = 2 := Real.mul_self_sqrt (by norm_num)
  have h2' : 0 < √2 := by positivity
  have h6' : 0 < √6 := by positivity
  have h3' : 0 < √3 := by positivity
  simp only [hRows, hPts, List.map_cons, List.map_nil]
  refine List.cons_eq_cons.2 ⟨?_, List.cons_eq_cons.2 ⟨?_, List.cons_eq_cons.2 ⟨?_, List.cons_eq_cons.2 ⟨?_, List.cons_eq_cons.2 ⟨?_,
    List.cons_eq_cons.2 ⟨?_, rfl⟩⟩⟩⟩⟩⟩ <;> refine hCoords _ _ _ ?_ ?_ <;>
    simp [reduced, reduceRow, hComps, List.finRange_succ, hA, hB] <;> ring

theorem hPoints : PointsOf hLib hP hSeries hPts := by
  have hw : checkedSub hP.patternLength hP.latent = some (2 + 1) := rfl
  obtain ⟨ref, h1, h2⟩ := reference_some hw (fun _ : Fin 1 => (-2 : ℝ)) (fun _ => 2)
  have hwin := fun m => hWindows m
  unfold windows at hwin
  have hrows := rows_map (w := 2) (fun _ => (hComps, 0)) ((List.range (hSeries.length - (hP.patternLength - 1))).map
    (PhaseSpace.specPoint hP hSeries))
  have hrows' : ((List.range (hSeries.length - (hP.patternLength - 1))).map (PhaseSpace.specPoint hP hSeries)).map
      (fun row (m : Fin 1) => reduced hComps 0 (fun j : Fin 3 => row.getD j 0 m)) = hRows.map (fun x (_ : Fin 1) => reduced hComps 0 x) := by
    rw [← hwin 0]
    unfold column
    rw [List.map_map (l := List.map _ _)]
    apply List.map_congr_left
    intro row _
    funext m
    rw [Subsingleton.elim m 0]
    rfl
  refine ⟨fun _ => -2, fun _ => 2, _, ref, fun _ => hComps, fun _ => 0, _, fun _ => hR, fun m => ⟨?_, ?_⟩, hw, h1,
    PhaseSpace.C14_windowed_sums hP hSeries (by decide) (by simp [hP, hSeries]), hPca, h2, fun m => ?_, ?_⟩
  · simp [columnMin, hSeries, Kde.colMin]
    norm_num
  · simp [columnMax, hSeries, Kde.colMax]
    norm_num
  · rw [← hRotation]
    have : (fun j : Fin 3 => (List.replicate (2 + 1) (fun _ : Fin 1 => (hP.latent : ℝ) * -2)).getD j 0 m) = fun _ => -2 := by
      funext j
      rw [getD_replicate_fin]
      simp [hP]
    rw [this]
  · rw [hrows, hrows']
    unfold applyRotation
    rw [if_neg (by omega), hCoordsAll]
    obtain ⟨s0, s1, s2, s3⟩ := quadrants hA_pos hB_pos
    obtain ⟨s4, s5⟩ := axis (b := 2 * hB) (by have := hB_pos; positivity)
    simp [checkedDiv, addPoints, newPoint, hP, s0, s1, s2, s3, s4, s5, hPts]

/-- The steps. -/
def hTs : List Trans := [⟨⟨0, 3⟩, ⟨1, 0⟩⟩, ⟨⟨1, 0⟩, ⟨2, 1⟩⟩, ⟨⟨3, 1⟩, ⟨4, 2⟩⟩, ⟨⟨4, 2⟩, ⟨5, 3⟩⟩]

theorem hTrack (p : Parameters) (hp : p.selfCorrection = false) (hr : p.rate = 4) (mirrored : List Point) : track p mirrored hPts = hTs := by
  unfold track effective
  rw [if_neg (by simp [hp]), hr]
  rfl

theorem hMax_pos : 0 < Geometry.maxValue (n := 1) (hTs.map (ends (e := 0) hPts)) := by
  have h := (Geometry.maxValue_ge (ts := hTs.map (ends (e := 0) hPts)) (t := ends (e := 0) hPts ⟨⟨0, 3⟩, ⟨1, 0⟩⟩)
    (List.mem_map_of_mem (by simp [hTs])) 0).1
  have h1 : (ends (e := 0) hPts ⟨⟨0, 3⟩, ⟨1, 0⟩⟩).1 0 = hA := by simp [Whole.ends, vec, coordsOf, hPts]
  rw [h1, abs_of_pos hA_pos] at h
  exact hA_pos.trans_le h

theorem hCrossing {x0 y0 x1 y1 : ℝ} {t : Trans} {s : Nat} (h0 : coordsOf hPts t.src.id = [x0, y0])
    (h1 : coordsOf hPts t.dst.id = [x1, y1])
    (h : (x1 - x0) * Real.sin (2 * Real.pi * s / 4) ≠ (y1 - y0) * Real.cos (2 * Real.pi * s / 4)) :
    interCoord 0 hPts hTs 4 (t, s) ≠ none := by
  unfold interCoord Geometry.intersectionPoint
  intro hc
  rw [Option.map_eq_none_iff, Geometry.C31_border_none_iff] at hc
  rcases hc with hc | hc
  · exact hMax_pos.ne' hc
  · apply h
    simpa [Whole.ends, vec, h0, h1, Geometry.borderAngle] using hc

theorem hPlaces {p : Parameters} (hp : p.selfCorrection = false) (hr : p.rate = 4) {m : List Point} {t : Trans} (ht : t ∈ hTs) {s : Nat}
    (hs : s ∈ t.intersectionSegments 4) : place p 0 m hPts (t, s) ≠ none := by
  have ha := hA_pos
  have hb := hB_pos
  unfold place
  rw [hTrack p hp hr, Whole.corrected, if_neg (by simp [hp]), hr]
  have h3 : 2 * Real.pi * 3 / 4 = Real.pi / 2 + Real.pi := by ring
  have h1 : 2 * Real.pi * 1 / 4 = Real.pi / 2 := by ring
  have h22 : 2 * Real.pi * 2 / 4 = Real.pi := by ring
  simp only [hTs, List.mem_cons, List.not_mem_nil, or_false] at ht
  rcases ht with rfl | rfl | rfl | rfl
  · have : s = 0 := by revert hs; simp [Trans.intersectionSegments, Trans.intersectionCount, Trans.segmentDiff, Trans.rawDiff]
    subst this
    refine hCrossing (x0 := hA) (y0 := -hB) (x1 := hA) (y1 := hB) (by simp [coordsOf, hPts]) (by simp [coordsOf, hPts]) ?_
    simp
    linarith
  · have : s = 1 := by revert hs; simp [Trans.intersectionSegments, Trans.intersectionCount, Trans.segmentDiff, Trans.rawDiff]
    subst this
    refine hCrossing (x0 := hA) (y0 := hB) (x1 := 0) (y1 := 2 * hB) (by simp [coordsOf, hPts]) (by simp [coordsOf, hPts]) ?_
    push_cast
    rw [h1]
    simp [ha.ne']
  · have : s = 2 := by revert hs; simp [Trans.intersectionSegments, Trans.intersectionCount, Trans.segmentDiff, Trans.rawDiff]
    subst this
    refine hCrossing (x0 := -hA) (y0 := hB) (x1 := -hA) (y1 := -hB) (by simp [coordsOf, hPts]) (by simp [coordsOf, hPts]) ?_
    push_cast
    rw [h22]
    simp
    linarith
  · have : s = 3 := by revert hs; simp [Trans.intersectionSegments, Trans.intersectionCount, Trans.segmentDiff, Trans.rawDiff]
    subst this
    refine hCrossing (x0 := -hA) (y0 := -hB) (x1 := 0) (y1 := -(2 * hB)) (by simp [coordsOf, hPts]) (by simp [coordsOf, hPts]) ?_
    push_cast
    rw [h3]
    simp [Real.sin_add, Real.cos_add, ha.ne']

/-- The run on one node delivers a vector. -/
theorem hDelivers (resolution order : Nat) : ∃ v, Whole.Delivers hLib resolution order { hP with nClusterNodes := 1 } hSeries v := by
  have hp : ({ hP with nClusterNodes := 1 } : Parameters).WellFormed := ⟨by decide, by decide⟩
  have hpts : PointsOf hLib { hP with nClusterNodes := 1 } hSeries hPts := hPoints
  obtain ⟨hl, _, hnum⟩ := hpts.numbered (by decide)
  obtain ⟨m, hm, _⟩ := mirrored_some (rate := hP.rate) (by decide) hnum.coords
  have hsc := C72_scores (p := { hP with nClusterNodes := 1 }) (len := 9) hp rfl resolution order hm hnum (by simp [hPts]) (by decide)
    (by decide) (by decide)
  rw [hTrack _ rfl rfl] at hsc
  have hne : score resolution order { hP with nClusterNodes := 1 } 0 9 hPts ≠ none := by
    intro h
    rcases hsc.1.1 h with ⟨t, ht, s, hs, h0⟩ | ⟨s, hs, h2, _⟩ | ⟨t, ht, h1, h2⟩
    · exact hPlaces (p := { hP with nClusterNodes := 1 }) rfl rfl ht hs h0
    · have hs' : s = 0 ∨ s = 1 ∨ s = 2 ∨ s = 3 := by simp [hP] at hs; omega
      rcases hs' with rfl | rfl | rfl | rfl <;> revert h2 <;> decide
    · simp [hTs] at ht
      subst ht
      simp [hP] at h1
  obtain ⟨s0, hs0⟩ := Option.ne_none_iff_exists'.1 hne
  obtain ⟨lab, hlab, h⟩ := hsc.2 s0 hs0
  refine ⟨_, (C72_result resolution order hp rfl (by decide) (by decide) (by simp [hP, hSeries]) _).2
    ⟨hPts, hpts, hne, m, lab, hm, by rw [hTrack _ rfl rfl]; exact hlab, rfl⟩⟩

/-- Segments of the two parts. -/
def hParts (i : Nat) : List Pt :=
  ([⟨0, 3⟩, ⟨1, 0⟩, ⟨2, 1⟩, ⟨3, 1⟩, ⟨4, 2⟩, ⟨5, 3⟩].drop (4 * i)).take (if i = 1 then 2 else 4)

theorem hParts_eq (m : List Point) : parts hP 9 hPts m = hParts := by
  funext i
  unfold parts Whole.corrected
  rw [if_neg (by simp [hP])]
  rfl

theorem hGood : Good hP 9 hParts where
  valid := by decide
  borders := by
    intro i hi
    obtain rfl : i = 0 := by simp [hP] at hi; omega
    intro pr hpr f hf
    have h1 : (part hP hParts 0).getLast? = some ⟨⟨3, 1⟩, ⟨4, 2⟩⟩ := by decide
    have h2 : (part hP hParts (0 + 1)).head? = some ⟨⟨4, 2⟩, ⟨5, 3⟩⟩ := by decide
    cases h1.symm.trans hpr
    cases h2.symm.trans hf
    intro h
    exact absurd h (by decide)
  overlaps := by
    intro i hi
    obtain rfl : i = 0 := by simp [hP] at hi; omega
    decide
  inner := by decide
  query := by decide
  threads := by decide
  positions := by decide
  lastPart := by decide
  first := by
    intro k hk e he
    have hE : pairs (walk hP.rate (fun _ _ => 0) (allSteps hP hParts)) =
        [⟨⟨0, 0, 0⟩, ⟨1, 0, 1⟩⟩, ⟨⟨1, 0, 1⟩, ⟨2, 0, 3⟩⟩, ⟨⟨2, 0, 3⟩, ⟨3, 0, 4⟩⟩] := by decide
    rw [hE] at he ⊢
    by_cases h8 : 6 ≤ k
    · exfalso
      rw [List.filter_eq_nil_iff.2] at he
      · cases he
      · intro x hx hk
        have : x.toId < 6 := by
          clear hk
          revert x
          decide
        simp at hk
        omega
    · obtain ⟨j, rfl⟩ : ∃ j : Fin 6, k = j.val := ⟨⟨k, by omega⟩, rfl⟩
      revert e
      revert j
      decide
  start := by decide

theorem hFits : Fits hP hSeries.length := .inr ⟨by simp [hP], by simp [hP, hSeries], by simp [hP, hSeries]⟩

/-- C75 about the wave: the two nodes deliver the vector of one node, and they deliver one. -/
theorem hCluster (resolution order : Nat) {i : Nat} (hi : i < 2) (v : Option (List (Option ℚ))) :
    Delivers hLib resolution order hP hSeries i v ↔ Whole.Delivers hLib resolution order { hP with nClusterNodes := 1 } hSeries v := by
  obtain ⟨m, hm, _⟩ := mirrored_some (rate := hP.rate) (by decide) (hPoints.numbered (by decide)).2.2.coords
  refine C75_exact hLib_gram hLib_settled ⟨by decide, by decide⟩ (by decide) (by decide) hFits ?_ hPoints hm ?_ ?_ hi v
  · intro i _
    refine ⟨?_, .inl le_rfl⟩
    unfold count
    split <;> simp [hP, hSeries]
  · intro h
    cases h
  · show Good hP 9 (parts hP 9 hPts m)
    rw [hParts_eq]
    exact hGood

example (resolution order : Nat) : ∃ l, l.length = 5 ∧ Delivers hLib resolution order hP hSeries 0 (some l) ∧
    Delivers hLib resolution order hP hSeries 1 (some l) := by
  obtain ⟨v, hv⟩ := hDelivers resolution order
  obtain ⟨l, rfl, hl, _⟩ := C72_length resolution order ⟨by decide, by decide⟩ rfl (by decide) (by decide)
    (by simp [hP, hSeries]) hv
  exact ⟨l, by simpa [hP, hSeries] using hl, (hCluster resolution order (by omega) _).2 hv, (hCluster resolution order (by omega) _).2 hv⟩

end Cluster
end S2G
