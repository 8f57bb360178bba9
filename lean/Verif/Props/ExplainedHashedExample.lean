import Verif.Props.ExplainedHashed
import Verif.Props.ExplainedExample

/-!
# Runs with `explainability` and the hash

The run of `HashedExample` is explained with the hash as well. If its first direction is ten times as long, the crossing which is alone in its
segment is farther out than the centres of all other segments: there is a unit in which the scores are delivered but the explanation panics.
-/

namespace S2G
namespace Whole

open Pca Rotation Points Pipeline Contribution SegState

noncomputable def kComps : List (Row 3) := [![10, 0, -10], ![1, 0, 0], ![1, -1, 0]]

/-- A library which always answers with the same three directions. -/
noncomputable def kLib : Lib 2 where
  qr := id
  svd := fun _ => some kComps

theorem kLib_gram : ∀ A, gram (kLib.qr A) = gram A := fun _ => rfl

theorem kLib_settled (m : Fin 1) : Settled kLib (windows 2 hP hSeries m) := fun _ _ _ _ _ _ => rfl

theorem kPca (m : Fin 1) : PcaOf kLib 1 (windows 2 hP hSeries m) kComps (fun _ => 1 / 8) := by
  refine (pcaOf_iff kLib_gram (kLib_settled m)).2 ⟨by rw [hWindows]; simp, .inl le_rfl, ?_, ?_⟩
  · rw [hWindows]
    funext j
    unfold mean
    fin_cases j <;> norm_num
  · show some (Pca.normalize _) = some kComps
    unfold Pca.normalize kComps
    simp [normalizeRow]

theorem kRotation : rotationMatrix (reduced kComps (fun _ => 1 / 8) (fun _ => -2)) = some hR := by
  have hu : reduced kComps (fun _ => 1 / 8) (fun _ => -2) = ![0, -(17 / 8), 0] := by
    funext j
    unfold reduced reduceRow kComps
    fin_cases j <;> norm_num [List.finRange_succ, third]
  rw [hu]
  have hn : Rotation.norm ![0, -(17 / 8), 0] = 17 / 8 := by
    unfold Rotation.norm
    rw [Real.sqrt_eq_iff_mul_self_eq] <;> norm_num [third]
  unfold rotationMatrix
  rw [hn, if_neg (by norm_num)]
  have hv : cross (fun i => (![0, -(17 / 8), 0] : Vec) i / (17 / 8)) ![0, 0, 1] = ![-1, 0, 0] := by
    unfold cross
    funext j
    fin_cases j <;> norm_num [third]
  have hs : Rotation.norm ![-1, 0, 0] = 1 := by
    unfold Rotation.norm
    simp
  simp only [hv, hs]
  rw [if_neg (by norm_num)]
  congr 1
  unfold hR
  ext i j
  fin_cases i <;> fin_cases j <;> simp [skew]

noncomputable def kPts : List Point := [⟨0, [20, 1], 0⟩, ⟨1, [0, 1], 1⟩, ⟨2, [-40, -1], 2⟩, ⟨3, [0, -3], 3⟩, ⟨4, [50, 3], 0⟩, ⟨5, [0, 2], 1⟩,
  ⟨6, [-30, -2], 2⟩, ⟨7, [0, -1], 3⟩]

theorem kPoints : PointsOf kLib hP hSeries kPts := by
  have hw : checkedSub hP.patternLength hP.latent = some (2 + 1) := rfl
  obtain ⟨ref, h1, h2⟩ := reference_some hw (fun _ : Fin 1 => (-2 : ℝ)) (fun _ => 3)
  refine ⟨fun _ => -2, fun _ => 3, _, ref, fun _ => kComps, fun _ _ => 1 / 8, _, fun _ => hR, fun m => ⟨?_, ?_⟩, hw, h1,
    PhaseSpace.C14_windowed_sums hP hSeries (by decide) (by simp [hP, hSeries]), kPca, h2, fun m => ?_, ?_⟩
  · norm_num [columnMin, hSeries, Kde.colMin]
  · norm_num [columnMax, hSeries, Kde.colMax]
  · rw [← kRotation]
    have : (fun j : Fin 3 => (List.replicate (2 + 1) (fun _ : Fin 1 => (hP.latent : ℝ) * -2)).getD j 0 m) = fun _ => -2 := by
      funext j
      rw [getD_replicate_fin]
      simp [hP]
    rw [this]
  · have hwin := fun m => hWindows m
    unfold windows at hwin
    have hc : ∀ i : Fin 8, coordinates (fun _ => hR) (fun _ : Fin 1 => reduced kComps (fun _ => 1 / 8)
        (([![1, 0, -1], ![0, -1, 0], ![-1, 0, 3], ![0, 3, 0], ![3, 0, -2], ![0, -2, 0], ![-2, 0, 1], ![0, 1, 0]] : List (Row 3)).getD i 0)) =
          ([[20, 1], [0, 1], [-40, -1], [0, -3], [50, 3], [0, 2], [-30, -2], [0, -1]] : List (List ℝ)).getD i [] := by
      intro i
      fin_cases i <;> refine hCoords _ _ _ ?_ ?_ <;>
        norm_num [reduced, reduceRow, kComps, List.finRange_succ, third]
    have hlen : ((List.range (hSeries.length - (hP.patternLength - 1))).map (PhaseSpace.specPoint hP hSeries)).length = 8 := by
      simp [hP, hSeries]
    have hrows : (List.range 8).map (fun i (_ : Fin 1) => reduced kComps (fun _ => 1 / 8)
        (([![1, 0, -1], ![0, -1, 0], ![-1, 0, 3], ![0, 3, 0], ![3, 0, -2], ![0, -2, 0], ![-2, 0, 1], ![0, 1, 0]] : List (Row 3)).getD i 0)) =
        (List.range ((List.range (hSeries.length - (hP.patternLength - 1))).map (PhaseSpace.specPoint hP hSeries)).length).map
          (fun i m => reduced kComps (fun _ => 1 / 8) ((column ((List.range (hSeries.length - (hP.patternLength - 1))).map
            (PhaseSpace.specPoint hP hSeries)) m).getD i 0)) := by
      rw [hlen]
      apply List.map_congr_left
      intro i _
      funext m
      rw [hwin m]
    rw [← hrows]
    unfold applyRotation
    have hmap : ((List.range 8).map (fun i (_ : Fin 1) => reduced kComps (fun _ => 1 / 8)
        (([![1, 0, -1], ![0, -1, 0], ![-1, 0, 3], ![0, 3, 0], ![3, 0, -2], ![0, -2, 0], ![-2, 0, 1], ![0, 1, 0]] : List (Row 3)).getD i 0))).map
          (coordinates (fun _ => hR)) = [[20, 1], [0, 1], [-40, -1], [0, -3], [50, 3], [0, 2], [-30, -2], [0, -1]] := by
      rw [List.map_map]
      apply List.ext_getElem
      · simp
      · intro i hi _
        simp only [List.length_map, List.length_range] at hi
        rw [List.getElem_map, List.getElem_range]
        rw [Function.comp, hc ⟨i, hi⟩, List.getD_eq_getElem]
    rw [if_neg (by omega), hmap]
    have s0 := segment0 (x := 20) (y := 1) (by norm_num) (by norm_num)
    have s1 := segment1 (x := 0) (y := 1) (by norm_num) (by norm_num)
    have s2 := segment2 (x := -40) (y := -1) (by norm_num) (by norm_num)
    have s3 := segment3 (x := 0) (y := -3) (by norm_num) (by norm_num)
    have s4 := segment0 (x := 50) (y := 3) (by norm_num) (by norm_num)
    have s5 := segment1 (x := 0) (y := 2) (by norm_num) (by norm_num)
    have s6 := segment2 (x := -30) (y := -2) (by norm_num) (by norm_num)
    have s7 := segment3 (x := 0) (y := -1) (by norm_num) (by norm_num)
    simp [checkedDiv, addPoints, newPoint, hP, s0, s1, s2, s3, s4, s5, s6, s7, kPts]

theorem kTrack (mirrored : List Point) : track hP mirrored kPts = hTs := by
  unfold track effective
  rw [if_neg (by simp [hP])]
  rfl

theorem kCorrected (mirrored : List Point) : corrected hP mirrored kPts = kPts := by
  unfold corrected
  rw [if_neg (by simp [hP])]

/-- A step to the next segment crosses its border where the line does. -/
theorem kCrossing {t : Trans} (ht : t ∈ hTs) {x0 y0 x1 y1 : ℝ} (h0 : coordsOf kPts t.src.id = [x0, y0])
    (h1 : coordsOf kPts t.dst.id = [x1, y1]) {f d : Nat} (hf : SegmentId.pointSegment x0 y0 4 = some f)
    (hd : SegmentId.pointSegment x1 y1 4 = some d) (hn0 : ¬(x0 = 0 ∧ y0 = 0)) (hn1 : ¬(x1 = 0 ∧ y1 = 0))
    (hk : Trans.ForwardBy 4 f d 1) {r : ℝ} (hr : ∀ a ρ : ℝ, x0 + a * (x1 - x0) = ρ * Real.cos (Geometry.borderAngle 4 ((f + 1) % 4)) →
      y0 + a * (y1 - y0) = ρ * Real.sin (Geometry.borderAngle 4 ((f + 1) % 4)) → ρ = r) (m : List Point) :
    place hP 0 m kPts (t, (f + 1) % 4) = some [r] := by
  unfold place interCoord
  rw [kTrack, kCorrected]
  have e0 : (ends (e := 0) kPts t).1 = ![x0, y0] := by
    funext j
    simp only [ends, vec, h0]
    fin_cases j <;> rfl
  have e1 : (ends (e := 0) kPts t).2 = ![x1, y1] := by
    funext j
    simp only [ends, vec, h1]
    fin_cases j <;> rfl
  obtain ⟨x, hx, a, ρ, _, _, hxa, hρ, hx0, hx1⟩ := Geometry.C31_crossing_below_half_turn (m := 0) (ts := hTs.map (ends (e := 0) kPts))
    (t := ends (e := 0) kPts t) (List.mem_map_of_mem ht) (rate := 4) (f := f) (d := d) (k := 1) (j := 1)
    (by rw [e0]; simpa using hn0) (by rw [e1]; simpa using hn1) (by rw [e0]; simpa using hf) (by rw [e1]; simpa using hd) hk
    (by omega) le_rfl le_rfl
  have hx' : Geometry.intersectionPoint (m := 2 * 0) (hTs.map (ends (e := 0) kPts)) hP.rate (ends (e := 0) kPts t) ((f + 1) % 4) = some x := hx
  rw [hx', Option.map_some]
  have hρr : ρ = r := by
    apply hr a ρ
    · rw [← hx0, hxa 0, e0, e1]
      simp
    · rw [← hx1, hxa 1, e0, e1]
      simp
  subst hρr
  have := Geometry.C31_distance (x := fun i => x (Fin.cast (by omega) i)) hρ.le hx0 hx1
  simp only [List.ofFn_succ, List.ofFn_zero]
  congr 2

/-- The distances of the crossings. -/
theorem kPlaces (m : List Point) : place hP 0 m kPts (⟨⟨0, 0⟩, ⟨1, 1⟩⟩, 1) = some [1] ∧ place hP 0 m kPts (⟨⟨1, 1⟩, ⟨2, 2⟩⟩, 2) = some [20] ∧
    place hP 0 m kPts (⟨⟨2, 2⟩, ⟨3, 3⟩⟩, 3) = some [3] ∧ place hP 0 m kPts (⟨⟨3, 3⟩, ⟨4, 0⟩⟩, 0) = some [25] ∧
    place hP 0 m kPts (⟨⟨4, 0⟩, ⟨5, 1⟩⟩, 1) = some [2] ∧ place hP 0 m kPts (⟨⟨5, 1⟩, ⟨6, 2⟩⟩, 2) = some [15] ∧
    place hP 0 m kPts (⟨⟨6, 2⟩, ⟨7, 3⟩⟩, 3) = some [1] := by
  obtain ⟨a1, a2, a3, a0⟩ := hAngles
  have s0 := segment0 (x := 20) (y := 1) (by norm_num) (by norm_num)
  have s1 := segment1 (x := 0) (y := 1) (by norm_num) (by norm_num)
  have s2 := segment2 (x := -40) (y := -1) (by norm_num) (by norm_num)
  have s3 := segment3 (x := 0) (y := -3) (by norm_num) (by norm_num)
  have s4 := segment0 (x := 50) (y := 3) (by norm_num) (by norm_num)
  have s5 := segment1 (x := 0) (y := 2) (by norm_num) (by norm_num)
  have s6 := segment2 (x := -30) (y := -2) (by norm_num) (by norm_num)
  have s7 := segment3 (x := 0) (y := -1) (by norm_num) (by norm_num)
  refine ⟨?_, ?_, ?_, ?_, ?_, ?_, ?_⟩
  · refine kCrossing (by simp [hTs]) (by simp [coordsOf, kPts]) (by simp [coordsOf, kPts]) s0 s1 (by norm_num) (by norm_num)
      ⟨by omega, by omega, rfl⟩ ?_ m
    intro a ρ h1 h2
    rw [a1] at h1 h2
    simp at h1 h2
    linarith
  · refine kCrossing (by simp [hTs]) (by simp [coordsOf, kPts]) (by simp [coordsOf, kPts]) s1 s2 (by norm_num) (by norm_num)
      ⟨by omega, by omega, rfl⟩ ?_ m
    intro a ρ h1 h2
    rw [a2] at h1 h2
    simp at h1 h2
    linarith
  · refine kCrossing (by simp [hTs]) (by simp [coordsOf, kPts]) (by simp [coordsOf, kPts]) s2 s3 (by norm_num) (by norm_num)
      ⟨by omega, by omega, rfl⟩ ?_ m
    intro a ρ h1 h2
    rw [a3] at h1 h2
    simp [Real.cos_add, Real.sin_add] at h1 h2
    linarith
  · refine kCrossing (by simp [hTs]) (by simp [coordsOf, kPts]) (by simp [coordsOf, kPts]) s3 s4 (by norm_num) (by norm_num)
      ⟨by omega, by omega, rfl⟩ ?_ m
    intro a ρ h1 h2
    rw [a0] at h1 h2
    simp at h1 h2
    linarith
  · refine kCrossing (by simp [hTs]) (by simp [coordsOf, kPts]) (by simp [coordsOf, kPts]) s4 s5 (by norm_num) (by norm_num)
      ⟨by omega, by omega, rfl⟩ ?_ m
    intro a ρ h1 h2
    rw [a1] at h1 h2
    simp at h1 h2
    linarith
  · refine kCrossing (by simp [hTs]) (by simp [coordsOf, kPts]) (by simp [coordsOf, kPts]) s5 s6 (by norm_num) (by norm_num)
      ⟨by omega, by omega, rfl⟩ ?_ m
    intro a ρ h1 h2
    rw [a2] at h1 h2
    simp at h1 h2
    linarith
  · refine kCrossing (by simp [hTs]) (by simp [coordsOf, kPts]) (by simp [coordsOf, kPts]) s6 s7 (by norm_num) (by norm_num)
      ⟨by omega, by omega, rfl⟩ ?_ m
    intro a ρ h1 h2
    rw [a3] at h1 h2
    simp [Real.cos_add, Real.sin_add] at h1 h2
    linarith

theorem kData (m : List Point) : segmentData hP 0 m kPts 1 = [[2], [1]] ∧ segmentData hP 0 m kPts 2 = [[15], [20]] ∧
    segmentData hP 0 m kPts 3 = [[1], [3]] := by
  obtain ⟨p1, p2, p3, _, p5, p6, p7⟩ := kPlaces m
  unfold segmentData
  rw [kTrack]
  have c1 : crossings hP.rate hTs 1 = [(⟨⟨0, 0⟩, ⟨1, 1⟩⟩, 1), (⟨⟨4, 0⟩, ⟨5, 1⟩⟩, 1)] := by decide
  have c2 : crossings hP.rate hTs 2 = [(⟨⟨1, 1⟩, ⟨2, 2⟩⟩, 2), (⟨⟨5, 1⟩, ⟨6, 2⟩⟩, 2)] := by decide
  have c3 : crossings hP.rate hTs 3 = [(⟨⟨2, 2⟩, ⟨3, 3⟩⟩, 3), (⟨⟨6, 2⟩, ⟨7, 3⟩⟩, 3)] := by decide
  rw [c1, c2, c3]
  simp [p1, p2, p3, p5, p6, p7]

/-- The run has scores. -/
theorem kDelivers {resolution order : Nat} (hr : 1 ≤ resolution) (ho : order ≤ resolution) :
    ∃ v, Delivers kLib resolution order hP hSeries v := by
  have hp : hP.WellFormed := ⟨by decide, by decide⟩
  have hpts := kPoints
  obtain ⟨hl, _, hnum⟩ := hpts.numbered (by decide)
  obtain ⟨m, hm, _⟩ := mirrored_some (rate := hP.rate) (by decide) hnum.coords
  obtain ⟨p1, p2, p3, p4, p5, p6, p7⟩ := kPlaces m
  obtain ⟨d1, d2, d3⟩ := kData m
  have hsc := C72_scores (len := 11) hp rfl resolution order hm hnum (by simp [kPts]) (by decide) (by decide) (by decide)
  have hne : score resolution order hP 0 11 kPts ≠ none := by
    intro h
    rcases hsc.1.1 h with ⟨t, ht, s, hs, h0⟩ | ⟨s, hs, h2, h3⟩ | ⟨t, ht, h1, h2⟩
    · rw [kTrack] at ht
      simp only [hTs, List.mem_cons, List.not_mem_nil, or_false] at ht
      have key : ∀ k, t.intersectionSegments hP.rate = [k] → s = k := fun k hk => by rw [hk] at hs; simpa using hs
      rcases ht with rfl | rfl | rfl | rfl | rfl | rfl | rfl
      · cases key 1 (by decide); rw [p1] at h0; cases h0
      · cases key 2 (by decide); rw [p2] at h0; cases h0
      · cases key 3 (by decide); rw [p3] at h0; cases h0
      · cases key 0 (by decide); rw [p4] at h0; cases h0
      · cases key 1 (by decide); rw [p5] at h0; cases h0
      · cases key 2 (by decide); rw [p6] at h0; cases h0
      · cases key 3 (by decide); rw [p7] at h0; cases h0
    · have h3 : Kde.cluster 1 resolution order 1 (segmentData hP 0 m kPts s) = none := Option.map_eq_none_iff.1 h3
      have hs' : s = 0 ∨ s = 1 ∨ s = 2 ∨ s = 3 := by simp [hP] at hs; omega
      rcases hs' with rfl | rfl | rfl | rfl
      · rw [kTrack] at h2
        revert h2
        decide
      · rw [d1] at h3; exact cluster_two hr ho (by norm_num) h3
      · rw [d2] at h3; exact cluster_two hr ho (by norm_num) h3
      · rw [d3] at h3; exact cluster_two hr ho (by norm_num) h3
    · rw [kTrack] at ht
      simp [hTs] at ht
      subst ht
      simp at h2
  obtain ⟨s0, hs0⟩ := Option.ne_none_iff_exists'.1 hne
  obtain ⟨lab, hlab, h⟩ := hsc.2 s0 hs0
  exact ⟨_, (C72_result resolution order hp rfl (by decide) (by decide) (by simp [hP, hSeries]) _).2
    ⟨kPts, kPoints, hne, m, lab, hm, hlab, rfl⟩⟩

/-- The run is explained, if there is no hash. -/
theorem kExplains : ∃ rows, Explains kLib 250 0 hP hSeries (some rows) ∧ rows.length = 7 := by
  have hp : hP.WellFormed := ⟨by decide, by decide⟩
  obtain ⟨v, h1⟩ := kDelivers (resolution := 250) (order := 0) (by omega) (by omega)
  obtain ⟨pts, h3, h4, _⟩ := (C72_result 250 0 hp rfl (by decide) (by decide) (by simp [hP, hSeries]) _).1 h1
  have := PointsOf.unique kLib_gram kLib_settled h3 (t := 1) kPoints
  subst this
  obtain ⟨hl, _, hnum⟩ := h3.numbered (by decide)
  obtain ⟨m, hm, _⟩ := mirrored_some (rate := hP.rate) (by decide) hnum.coords
  obtain ⟨lab, cen, b1, _, _, b2, b3⟩ := C102_points hp rfl 250 0 hm hnum (len := hSeries.length) (by simp [kPts, hSeries]) (by decide)
    (by simp [kPts, hP]) h4
  have hne : explanation 250 0 hP 0 hSeries.length kPts ≠ none := by
    intro h
    have h5 := b2.1 h ⟨⟨1, lab 0 1, 0⟩, ⟨2, lab 1 2, 1⟩⟩ (by
      rw [kTrack]
      unfold queryWindow
      rw [if_neg (fun hh => absurd (hh ⟨⟨1, lab 0 1, 0⟩, ⟨2, lab 1 2, 1⟩⟩ (List.mem_cons_self ..)) Nat.one_ne_zero)]
      exact List.mem_cons_self ..) (⟨⟨4, 0⟩, ⟨5, 1⟩⟩, 1) (by
      rw [kTrack]
      change _ ∈ crossings hP.rate hTs 1
      decide)
    have h6 := b1 1 (by decide) (by rw [kTrack]; decide)
    have h7 : clustering 250 0 hP 0 (segmentData hP 0 m kPts 1) = some [lab 4 1, lab 0 1] := by
      have : (crossings hP.rate (track hP m kPts) 1).reverse.map (fun x => lab x.1.src.id 1) = [lab 4 1, lab 0 1] := by
        rw [kTrack]
        rfl
      rw [← this]
      exact h6
    rw [(kData m).1] at h7
    obtain ⟨a, b, hab, hne⟩ := labels_two (by omega) h7
    simp at hab
    obtain ⟨rfl, rfl⟩ := hab
    exact hne h5
  obtain ⟨rows, hrows⟩ := Option.ne_none_iff_exists'.1 hne
  exact ⟨rows, ⟨kPts, h3, h4, hrows⟩, by simpa [kPts, hP] using b3 rows hrows⟩


/-- **C104.** There is a unit in which the run has scores with the hash, and an explanation without it, but with the hash there is a panic. -/
theorem C104_limit_counterexample : ∃ a : ℝ, 0 < a ∧ (∃ v, DeliversHashed kLib 250 0 hP (hSeries.map (a • ·)) v) ∧
    ExplainsHashed kLib 250 0 hP (hSeries.map (a • ·)) none ∧ ∃ rows, Explains kLib 250 0 hP (hSeries.map (a • ·)) (some rows) := by
  have hp : hP.WellFormed := ⟨by decide, by decide⟩
  have ha : (0 : ℝ) < 2 ^ 63 / 2000 := by positivity
  obtain ⟨hl, _, hnum⟩ := kPoints.numbered (by decide)
  obtain ⟨m, hm, _⟩ := mirrored_some (rate := hP.rate) (by decide) hnum.coords
  obtain ⟨d1, d2, d3⟩ := kData m
  have hfit : CentresFitIn (2 ^ 63 / 2000) 250 0 hP 0 m kPts := by
    intro s hs h2 labels table hcl c hc x hx
    have hb : ∀ row ∈ segmentData hP 0 m kPts s, ∀ x ∈ row, 0 ≤ x ∧ x ≤ 20 := by
      have hs' : s = 0 ∨ s = 1 ∨ s = 2 ∨ s = 3 := by simp [hP] at hs; omega
      intro row hrow x hx
      rcases hs' with rfl | rfl | rfl | rfl
      · rw [kTrack] at h2
        exact absurd h2 (by decide)
      · rw [d1] at hrow; simp at hrow; rcases hrow with rfl | rfl <;> simp at hx <;> subst hx <;> norm_num
      · rw [d2] at hrow; simp at hrow; rcases hrow with rfl | rfl <;> simp at hx <;> subst hx <;> norm_num
      · rw [d3] at hrow; simp at hrow; rcases hrow with rfl | rfl <;> simp at hx <;> subst hx <;> norm_num
    have h3 := Kde.C101_centres hcl hb hc hx
    refine Kde.Fits.of_abs ?_
    rw [abs_mul, abs_of_pos ha]
    have : 80 * (2 ^ 63 / 2000 * |x|) ≤ 80 * (2 ^ 63 / 2000 * (1.1 * 20)) := by gcongr
    refine this.trans_lt ?_
    norm_num
  have hbig : ¬ SinglesFitIn (2 ^ 63 / 2000) hP 0 m kPts := by
    intro h
    have := (h 0 (by decide) (⟨⟨3, 3⟩, ⟨4, 0⟩⟩, 0) (by rw [kTrack]; decide) [25] (kPlaces m).2.2.2.1 25 (List.mem_singleton_self _)).2
    norm_num at this
  obtain ⟨v, hv⟩ := kDelivers (resolution := 250) (order := 0) (by omega) (by omega)
  obtain ⟨rows, ⟨pts, h3, h4, h5⟩, _⟩ := kExplains
  have := PointsOf.unique kLib_gram kLib_settled h3 (t := 1) kPoints
  subst this
  refine ⟨2 ^ 63 / 2000, ha, ⟨v, ?_⟩, ?_, rows, (C102_unit kLib_gram 250 0 kLib_settled ha _).2 ⟨kPts, h3, h4, h5⟩⟩
  · refine (C101_unit kLib_gram 250 0 hp rfl kLib_settled ha v).2 ⟨hv, ?_⟩
    intro pts m' h6 hm'
    have := PointsOf.unique kLib_gram kLib_settled h6 (t := 1) kPoints
    subst this
    cases Option.some.inj (hm.symm.trans hm')
    exact hfit
  · exact (C104_unit kLib_gram 250 0 hp rfl kLib_settled ha none).2 ⟨kPts, m, h3, hm, hfit, h4, fun h => absurd h hbig, fun _ => rfl⟩

/-- In the given unit the hash makes no difference for this run. -/
theorem kExplainsHashed : ∃ rows, ExplainsHashed kLib 250 0 hP hSeries (some rows) ∧ rows.length = 7 := by
  obtain ⟨rows, h, hl⟩ := kExplains
  refine ⟨rows, (C104_no_difference kLib ⟨by decide, by decide⟩ rfl (B := 25) (by norm_num) ?_ _).2 h, hl⟩
  intro pts m h1 hm s hs row hrow x hx
  have := PointsOf.unique kLib_gram kLib_settled h1 (t := 1) kPoints
  subst this
  obtain ⟨d1, d2, d3⟩ := kData m
  have hs' : s = 0 ∨ s = 1 ∨ s = 2 ∨ s = 3 := by simp [hP] at hs; omega
  rcases hs' with rfl | rfl | rfl | rfl
  · unfold segmentData at hrow
    rw [kTrack, show crossings hP.rate hTs 0 = [(⟨⟨3, 3⟩, ⟨4, 0⟩⟩, 0)] by decide] at hrow
    simp [(kPlaces m).2.2.2.1] at hrow
    subst hrow
    simp at hx
    subst hx
    norm_num
  · rw [d1] at hrow; simp at hrow; rcases hrow with rfl | rfl <;> simp at hx <;> subst hx <;> norm_num
  · rw [d2] at hrow; simp at hrow; rcases hrow with rfl | rfl <;> simp at hx <;> subst hx <;> norm_num
  · rw [d3] at hrow; simp at hrow; rcases hrow with rfl | rfl <;> simp at hx <;> subst hx <;> norm_num

/-! Instances. -/
example : ∃ rows, Explains kLib 250 0 hP hSeries (some rows) := by
  obtain ⟨rows, h, _⟩ := kExplainsHashed
  exact ⟨rows, C104_sound kLib ⟨by decide, by decide⟩ rfl h⟩
example : ∃ rows pts mirrored, PointsOf kLib hP hSeries pts ∧ pts.mapM (mirrorPoint hP.rate) = some mirrored ∧
    CentresFit 250 0 hP 0 mirrored pts ∧ SinglesFit hP 0 mirrored pts ∧ explanation 250 0 hP 0 hSeries.length pts = some rows := by
  obtain ⟨rows, h, _⟩ := kExplainsHashed
  obtain ⟨pts, m, h1, hm, h2, h3, h4, h5⟩ := (C104_explains kLib ⟨by decide, by decide⟩ rfl 250 0 hSeries _).1 h
  have h6 : SinglesFit hP 0 m pts := by
    by_contra hh
    cases h5 hh
  exact ⟨rows, pts, m, h1, hm, h2, h6, (h4 h6).symm⟩

end Whole
end S2G
