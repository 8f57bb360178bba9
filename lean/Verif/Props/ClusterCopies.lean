import Verif.Props.WholeCopies
import Verif.Props.WholeOrderExample
import Verif.Props.ClusterInvariance

/-!
# C100 in a cluster, and in numbers

Copies and units of columns in a cluster, and a series of two columns for which the conditions of C75, C98 and C100 hold.
-/

namespace S2G
namespace Joint
open Stage Cluster Whole Points Pca Rotation LoadNet Manager

variable {e f w : Nat} {lib : Lib w} {resolution order : Nat} {p : Parameters} {q m q' m' : List Point}

local notation "N" => Parameters.nClusterNodes p

/-- Another series, perhaps with another number of columns, whose points have the same ids and lie in the same segments. -/
theorem Suited.congr_columns {series : List (Fin (e + 1) → ℝ)} {series' : List (Fin (f + 1) → ℝ)} (h : Suited lib p series q m)
    (hl : series'.length = series.length) (hs : ∀ m, Settled lib (windows w p series' m))
    (hq : PointsOf lib p series' q') (hm : q'.mapM (mirrorPoint p.rate) = some m') (e1 : q'.map toPt = q.map toPt)
    (e2 : p.selfCorrection = true → m'.map toPt = m.map toPt) : Suited lib p series' q' m' where
  settled := hs
  wf := h.wf
  two := h.two
  three := h.three
  fits := hl ▸ h.fits
  thread := h.thread
  chunks := hl ▸ h.chunks
  points := hq
  mirrored := hm
  decision := by
    have := h.decision
    unfold SameDecision at this ⊢
    rw [e1, hl]
    exact this
  good := by
    have : Cluster.parts p series'.length q' m' = Cluster.parts p series.length q m := by
      funext i
      unfold Cluster.parts Whole.corrected
      rw [hl, e1]
      split
      · rename_i h
        rw [e2 h.1]
      · rw [e1]
    rw [this, hl]
    exact h.good

theorem Suited.copy {series : List (Fin (e + 2) → ℝ)} {σ : Fin (f + 2) → Fin (e + 2)} {a : Fin (f + 2) → ℝ}
    (hqr : ∀ A, gram (lib.qr A) = gram A) (h : Suited lib p series q m) (hc : Copies σ a) :
    Suited lib p (copyColumns σ a series) (q.map (copyPt σ (Geometry.units a))) (m.map (copyPt σ (Whole.flip σ (Geometry.units a)))) := by
  have hr : 0 < p.rate := by have := h.wf.1; have := h.wf.2; omega
  have hl := (h.points.numbered hr).2.2.coords
  obtain ⟨hw, hN⟩ := PointsOf.sizes h.points
  refine h.congr_columns (by simp [copyColumns]) (fun k => ?_) (h.points.copy hqr h.settled hc) ?_ (toPt_copy _) (fun _ => toPt_copy _)
  · rw [windows_copy hw hN]
    exact (h.settled _).scale (hc.pos k)
  · rw [mapM_mirror_copy hc (factors_units hc) _ hl, h.mirrored]
    rfl

/-- **C100.** Copies and units of columns in a cluster: exactly the same vectors can be delivered by every node. -/
theorem C100_cluster {series : List (Fin (e + 2) → ℝ)} {σ : Fin (f + 2) → Fin (e + 2)} {a : Fin (f + 2) → ℝ}
    (hqr : ∀ A, gram (lib.qr A) = gram A) (h : Suited lib p series q m) (hc : Copies σ a) {i : Nat} (hi : i < N) (v : Option (List (Option ℚ))) :
    FileDelivers lib resolution order p (copyColumns σ a series) i v ↔ FileDelivers lib resolution order p series i v := by
  have hr : 0 < p.rate := by have := h.wf.1; have := h.wf.2; omega
  rw [(h.copy hqr hc).one_node hqr hi, h.one_node hqr hi]
  exact C100_copies (p := { p with nClusterNodes := 1 }) hqr _ _ hr h.settled hc _

/-! ### Two columns on two nodes -/

/-- The wave of `hSeries`, and the same wave later. -/
def twoWaves : List (ℝ × ℝ) := [(2, 0), (1, 1), (-1, 1), (-2, 0), (-1, -1), (1, -1), (2, 0), (1, 1), (-1, 1)]

def twoSeries : List (Fin 2 → ℝ) := twoWaves.map (fun x => ![x.1, x.2])

theorem two_settled (m : Fin 2) : Settled hLib (windows 2 hP twoSeries m) := fun _ _ _ _ _ _ => rfl

def twoRows (m : Fin 2) : List (Row 3) :=
  if m = 0 then hRows else [![0, 1, 1], ![1, 1, 0], ![1, 0, -1], ![0, -1, -1], ![-1, -1, 0], ![-1, 0, 1]]

theorem two_windows (m : Fin 2) : windows 2 hP twoSeries m = twoRows m := by
  unfold windows column twoSeries twoWaves hP twoRows hRows
  simp only [List.length_cons, List.length_nil, List.map_map, List.length_map]
  fin_cases m
  · norm_num [List.range_succ, PhaseSpace.specPoint, PhaseSpace.series]
    refine ⟨?_, ?_, ?_, ?_, ?_, ?_⟩ <;> funext j <;> fin_cases j <;> simp
  · norm_num [List.range_succ, PhaseSpace.specPoint, PhaseSpace.series]
    refine ⟨?_, ?_, ?_, ?_, ?_, ?_⟩ <;> funext j <;> fin_cases j <;> simp

/-- The singular vectors are exact for both columns. -/
theorem two_exact (m : Fin 2) : ∀ v ∈ hComps, ∃ l : ℝ, (gram (windows 2 hP twoSeries m)).mulVec v = l • v := by
  have hg : gram (windows 2 hP twoSeries m) = (if m = 0 then 3 else 1 : ℝ) • !![4, 2, -2; 2, 4, 2; -2, 2, 4] := by
    rw [two_windows]
    unfold twoRows hRows
    ext i j
    unfold gram
    fin_cases m <;> fin_cases i <;> fin_cases j <;> norm_num
  rw [hg]
  intro v hv
  simp only [hComps, List.mem_cons, List.not_mem_nil, or_false] at hv
  rcases hv with rfl | rfl | rfl
  · refine ⟨(if m = 0 then 3 else 1 : ℝ) * 6, ?_⟩
    rw [Matrix.smul_mulVec, mul_smul]
    congr 1
    funext j
    fin_cases j <;> simp [Matrix.mulVec, dotProduct, Fin.sum_univ_three] <;> ring
  · refine ⟨(if m = 0 then 3 else 1 : ℝ) * 6, ?_⟩
    rw [Matrix.smul_mulVec, mul_smul]
    congr 1
    funext j
    fin_cases j <;> simp [Matrix.mulVec, dotProduct, Fin.sum_univ_three] <;> ring
  · refine ⟨(if m = 0 then 3 else 1 : ℝ) * 0, ?_⟩
    rw [Matrix.smul_mulVec, mul_smul]
    congr 1
    funext j
    fin_cases j <;> simp [Matrix.mulVec, dotProduct, Fin.sum_univ_three] <;> ring

theorem two_pca (m : Fin 2) : PcaOf hLib 1 (windows 2 hP twoSeries m) hComps 0 := by
  refine (pcaOf_iff hLib_gram (two_settled m)).2 ⟨by rw [two_windows]; unfold twoRows hRows; split <;> simp, .inl le_rfl, ?_, ?_⟩
  · rw [two_windows]
    funext j
    unfold mean twoRows hRows
    split <;> fin_cases j <;> simp
  · show some (Pca.normalize _) = some hComps
    have h2 : 0 ≤ (√2)⁻¹ := by positivity
    have h6 : 0 ≤ (√6)⁻¹ := by positivity
    have h3 : 0 ≤ (√3)⁻¹ := by positivity
    unfold Pca.normalize hComps
    simp [normalizeRow, h2, h3, h6]

/-- First coordinate of both dimensions at the six points. -/
noncomputable def twoFirst (m : Fin 2) (i : Nat) : ℝ :=
  (√2)⁻¹ * (if m = 0 then [3, 3, 0, -3, -3, 0] else [-1, 1, 2, 1, -1, -2] : List ℝ).getD i 0

theorem two_points : ∃ pts, PointsOf hLib hP twoSeries pts ∧ pts.length = 6 ∧
    ∀ i x, pts[i]? = some x → x.id = i ∧ x.coordinates.length = 4 ∧ x.coordinates[0]? = some (twoFirst 0 i) ∧
      x.coordinates[1]? = some (twoFirst 1 i) ∧ SegmentId.pointSegment (twoFirst 0 i) (twoFirst 1 i) 4 = some x.segment := by
  have hw : checkedSub hP.patternLength hP.latent = some (2 + 1) := rfl
  have hl : twoSeries.length = 9 := by simp [twoSeries, twoWaves]
  obtain ⟨pts, h1, h2, h3⟩ := C67_points (fun _ : Fin 2 => hR) ((List.range (twoSeries.length - (hP.patternLength - 1))).map
    (fun i m => reduced hComps 0 ((windows 2 hP twoSeries m).getD i 0))) (n := twoSeries.length) (k := 1) (i := 0) (rate := hP.rate)
    (by omega) (by omega) (by decide)
  have h4 : pts.length = 6 := by
    rw [h2, List.length_map, List.length_range, hl]
    rfl
  refine ⟨pts, pointsOf_iff.2 ⟨hw, by rw [hl]; decide, fun m => if m = 0 then -2 else -1, fun _ => hComps, fun _ => 0, fun _ => hR, fun m => ?_,
    two_pca, fun m => ?_, h1⟩, h4, fun i x hx => ?_⟩
  · unfold columnMin twoSeries twoWaves
    fin_cases m <;> norm_num [Kde.colMin]
  · fin_cases m
    · rw [← hRotation]
      congr 2
      funext j
      simp [hP]
    · rw [← hRotation, ← rotationMatrix_scale _ (show (0 : ℝ) < 2 by norm_num), ← reduced_scale]
      congr 2
      · simp
      · funext j
        simp [hP]
  · obtain ⟨row, hrow, hid, hcl, hco, y, z, hy, hz, hseg⟩ := h3 i x hx
    have hi : i < 6 := by
      rw [← h4]
      exact (List.getElem?_eq_some_iff.1 hx).1
    rw [List.getElem?_map, List.getElem?_range (by rw [hl]; exact hi)] at hrow
    simp only [Option.map_some, Option.some.injEq] at hrow
    have hfirst : ∀ m, (planar (fun _ => hR) row m).1 = twoFirst m i := by
      intro m
      have h2 : √2 * √2 = 2 := Real.mul_self_sqrt (by norm_num)
      have h2' : 0 < √2 := by positivity
      have hi4 : i = 0 ∨ i = 1 ∨ i = 2 ∨ i = 3 ∨ i = 4 ∨ i = 5 := by omega
      unfold planar
      rw [← hrow]
      simp only
      rw [two_windows]
      unfold twoFirst twoRows hRows
      fin_cases m <;> rcases hi4 with rfl | rfl | rfl | rfl | rfl | rfl <;>
        simp [reduced, reduceRow, hComps, List.finRange_succ, Matrix.mulVec, dotProduct, Fin.sum_univ_three, hR] <;> ring
    have a0 : x.coordinates[0]? = some (twoFirst 0 i) := by
      rw [← hfirst 0]
      exact (hco 0).1
    have a1 : x.coordinates[1]? = some (twoFirst 1 i) := by
      rw [← hfirst 1]
      exact (hco 1).1
    refine ⟨by omega, hcl, a0, a1, ?_⟩
    rw [Option.some.inj (a0.symm.trans hy), Option.some.inj (a1.symm.trans hz)]
    exact hseg

theorem two_toPt {pts : List Point} (h2 : pts.length = 6) (h3 : ∀ i x, pts[i]? = some x → x.id = i ∧ x.coordinates.length = 4 ∧
      x.coordinates[0]? = some (twoFirst 0 i) ∧ x.coordinates[1]? = some (twoFirst 1 i) ∧
      SegmentId.pointSegment (twoFirst 0 i) (twoFirst 1 i) 4 = some x.segment) : pts.map toPt = hPts.map toPt := by
  match pts, h2 with
  | [p0, p1, p2, p3, p4, p5], _ =>
    have hA : (0 : ℝ) < (√2)⁻¹ * 3 := by positivity
    have hB : (0 : ℝ) < (√2)⁻¹ := by positivity
    obtain ⟨s0, s1, s2, s3⟩ := quadrants hA hB
    obtain ⟨s4, s5⟩ := axis (b := (√2)⁻¹ * 2) (by positivity)
    obtain ⟨i0, _, _, _, g0⟩ := h3 0 p0 rfl
    obtain ⟨i1, _, _, _, g1⟩ := h3 1 p1 rfl
    obtain ⟨i2, _, _, _, g2⟩ := h3 2 p2 rfl
    obtain ⟨i3, _, _, _, g3⟩ := h3 3 p3 rfl
    obtain ⟨i4, _, _, _, g4⟩ := h3 4 p4 rfl
    obtain ⟨i5, _, _, _, g5⟩ := h3 5 p5 rfl
    simp [twoFirst, s0, s1, s2, s3, s4, s5] at g0 g1 g2 g3 g4 g5
    simp [toPt, hPts, i0, i1, i2, i3, i4, i5, ← g0, ← g1, ← g2, ← g3, ← g4, ← g5]

/-- The two columns are suited for C98 and C100. -/
theorem two_suited : ∃ q m, Suited hLib hP twoSeries q m ∧ q.map toPt = hPts.map toPt := by
  obtain ⟨pts, h1, h2, h3⟩ := two_points
  obtain ⟨m, hm, _⟩ := mirrored_some (rate := hP.rate) (by decide) (hPoints.numbered (by decide)).2.2.coords
  have h : Suited hLib hP hSeries hPts m := ⟨hLib_settled, ⟨by decide, by decide⟩, by decide, by decide, hFits, by decide, hCount, hPoints, hm,
    fun h => (by cases h), by
      show Good hP 9 (Cluster.parts hP 9 hPts m)
      rw [hParts_eq]
      exact hGood⟩
  obtain ⟨m', hm', _⟩ := mirrored_some (rate := hP.rate) (by decide) (h1.numbered (by decide)).2.2.coords
  exact ⟨pts, m', h.congr_columns (by simp [twoSeries, twoWaves, hSeries]) two_settled h1 hm' (two_toPt h2 h3) (fun h => by cases h), two_toPt h2 h3⟩

theorem two_crossing {pts : List Point} (h2 : pts.length = 6) (h3 : ∀ i x, pts[i]? = some x → x.id = i ∧ x.coordinates.length = 4 ∧
      x.coordinates[0]? = some (twoFirst 0 i) ∧ x.coordinates[1]? = some (twoFirst 1 i) ∧
      SegmentId.pointSegment (twoFirst 0 i) (twoFirst 1 i) 4 = some x.segment) {i j : Nat} (hi : i < 6) (hj : j < 6) (a b s : Nat)
    (hne : (twoFirst 0 j - twoFirst 0 i) * Real.sin (2 * Real.pi * s / 4) ≠ (twoFirst 1 j - twoFirst 1 i) * Real.cos (2 * Real.pi * s / 4)) :
    interCoord 1 pts hTs 4 (⟨⟨i, a⟩, ⟨j, b⟩⟩, s) ≠ none := by
  have hv : ∀ (i : Nat) (hi : i < 6), vec (2 * 1 + 2) (coordsOf pts i) 0 = twoFirst 0 i ∧
      vec (2 * 1 + 2) (coordsOf pts i) 1 = twoFirst 1 i := by
    intro i hi
    obtain ⟨x, hx⟩ : ∃ x, pts[i]? = some x := ⟨_, List.getElem?_eq_getElem (by omega)⟩
    have hfind : pts.find? (fun x => x.id = i) = some x := by
      rw [List.find?_eq_some_iff_getElem]
      obtain ⟨hi', hpi⟩ := List.getElem?_eq_some_iff.1 hx
      refine ⟨by simpa using (h3 i x hx).1, i, hi', hpi, fun j hj => ?_⟩
      have := (h3 j pts[j] (List.getElem?_eq_getElem (by omega))).1
      simp only [this, Bool.not_eq_eq_eq_not, Bool.not_true, decide_eq_false_iff_not]
      omega
    obtain ⟨_, _, g0, g1, _⟩ := h3 i x hx
    unfold vec coordsOf
    rw [hfind]
    simp only [Option.map_some, Option.getD_some, List.getD_eq_getElem?_getD, Fin.val_zero, Fin.val_one]
    rw [g0, g1]
    exact ⟨rfl, rfl⟩
  have hmx : 0 < Geometry.maxValue (n := 2 * 1 + 1) (hTs.map (ends (e := 1) pts)) := by
    have h := (Geometry.maxValue_ge (ts := hTs.map (ends (e := 1) pts)) (t := ends (e := 1) pts ⟨⟨0, 3⟩, ⟨1, 0⟩⟩)
      (List.mem_map_of_mem (by simp [hTs])) 0).1
    have h1 : (ends (e := 1) pts ⟨⟨0, 3⟩, ⟨1, 0⟩⟩).1 0 = (√2)⁻¹ * 3 := by
      refine (hv 0 (by omega)).1.trans ?_
      simp [twoFirst]
    have h2 : (0 : ℝ) < (√2)⁻¹ * 3 := by positivity
    rw [h1, abs_of_pos h2] at h
    exact h2.trans_le h
  unfold interCoord Geometry.intersectionPoint
  intro hc
  rw [Option.map_eq_none_iff, Geometry.C31_border_none_iff] at hc
  rcases hc with hc | hc
  · exact hmx.ne' hc
  · apply hne
    have g1 := hv i hi
    have g2 := hv j hj
    unfold ends at hc
    simp only at hc
    rw [g1.1, g1.2, g2.1, g2.2] at hc
    simpa [Geometry.borderAngle] using hc

/-- One node delivers a vector for the two columns. -/
theorem two_delivers (resolution order : Nat) :
    ∃ v, Whole.Delivers hLib resolution order { hP with nClusterNodes := 1 } twoSeries v := by
  have hp : ({ hP with nClusterNodes := 1 } : Parameters).WellFormed := ⟨by decide, by decide⟩
  obtain ⟨pts, h1, h2, h3⟩ := two_points
  have hpts : PointsOf hLib { hP with nClusterNodes := 1 } twoSeries pts := h1
  have hl9 : twoSeries.length = 9 := by simp [twoSeries, twoWaves]
  obtain ⟨hl, _, hnum⟩ := hpts.numbered (by decide)
  obtain ⟨m, hm, _⟩ := mirrored_some (rate := hP.rate) (by decide) hnum.coords
  have htr : track { hP with nClusterNodes := 1 } m pts = hTs := by
    unfold track Pipeline.effective
    rw [if_neg (by simp [hP]), two_toPt h2 h3]
    rfl
  have hsc := C72_scores (p := { hP with nClusterNodes := 1 }) (len := 9) hp rfl resolution order hm hnum (by omega) (by decide)
    (by decide) (by rw [h2]; decide)
  rw [htr] at hsc
  have hne : score resolution order { hP with nClusterNodes := 1 } 1 9 pts ≠ none := by
    intro h
    rcases hsc.1.1 h with ⟨t, ht, s, hs, h0⟩ | ⟨s, hs, h2, _⟩ | ⟨t, ht, h1, h2⟩
    · have h2' : 0 < √2 := by positivity
      have e3 : 2 * Real.pi * 3 / 4 = Real.pi / 2 + Real.pi := by ring
      have e1 : 2 * Real.pi * 1 / 4 = Real.pi / 2 := by ring
      have e2 : 2 * Real.pi * 2 / 4 = Real.pi := by ring
      have hs : s ∈ t.intersectionSegments 4 := hs
      revert h0
      show place { hP with nClusterNodes := 1 } 1 m pts (t, s) = none → False
      unfold place
      rw [htr, Whole.corrected, if_neg (by simp [hP])]
      show interCoord 1 pts hTs 4 (t, s) = none → False
      simp only [hTs, List.mem_cons, List.not_mem_nil, or_false] at ht
      rcases ht with rfl | rfl | rfl | rfl
      · have : s = 0 := by revert hs; simp [Trans.intersectionSegments, Trans.intersectionCount, Trans.segmentDiff, Trans.rawDiff]
        subst this
        refine two_crossing h2 h3 (by omega) (by omega) _ _ _ ?_
        simp [twoFirst]
        field_simp
        norm_num
      · have : s = 1 := by revert hs; simp [Trans.intersectionSegments, Trans.intersectionCount, Trans.segmentDiff, Trans.rawDiff]
        subst this
        refine two_crossing h2 h3 (by omega) (by omega) _ _ _ ?_
        push_cast
        rw [e1]
        simp [twoFirst]
      · have : s = 2 := by revert hs; simp [Trans.intersectionSegments, Trans.intersectionCount, Trans.segmentDiff, Trans.rawDiff]
        subst this
        refine two_crossing h2 h3 (by omega) (by omega) _ _ _ ?_
        push_cast
        rw [e2]
        simp [twoFirst]
        field_simp
        norm_num
      · have : s = 3 := by revert hs; simp [Trans.intersectionSegments, Trans.intersectionCount, Trans.segmentDiff, Trans.rawDiff]
        subst this
        refine two_crossing h2 h3 (by omega) (by omega) _ _ _ ?_
        push_cast
        rw [e3]
        simp [twoFirst, Real.sin_add, Real.cos_add]
    · have hs' : s = 0 ∨ s = 1 ∨ s = 2 ∨ s = 3 := by simp [hP] at hs; omega
      rcases hs' with rfl | rfl | rfl | rfl <;> revert h2 <;> decide
    · simp [hTs] at ht
      subst ht
      simp [hP] at h1
  obtain ⟨s0, hs0⟩ := Option.ne_none_iff_exists'.1 hne
  obtain ⟨lab, hlab, h⟩ := hsc.2 s0 hs0
  refine ⟨_, (C72_result resolution order hp rfl (by decide) (by decide) (by rw [hl9]; decide) _).2
    ⟨pts, hpts, by rw [hl9]; exact hne, m, lab, hm, by rw [htr]; exact hlab, rfl⟩⟩

/-- Columns: the two waves, the first wave in other units, and the second one again. -/
theorem two_copies : Copies (f := 2) (e := 0) ![0, 1, 0, 1] ![1, 1, 1000, 1 / 7] where
  surj := by decide
  first := rfl
  second := rfl
  pos := by intro m; fin_cases m <;> norm_num
  unit_first := rfl
  unit_second := rfl

/-- The nodes deliver a vector for the two columns, and the same vector when copies of both columns are appended. -/
example (resolution order : Nat) : ∃ v, ∀ i < 2, FileDelivers hLib resolution order hP twoSeries i v ∧
    FileDelivers hLib resolution order hP (copyColumns (f := 2) ![0, 1, 0, 1] ![1, 1, 1000, 1 / 7] twoSeries) i v := by
  obtain ⟨q, m, h, _⟩ := two_suited
  obtain ⟨v, hv⟩ := two_delivers resolution order
  refine ⟨v, fun i hi => ?_⟩
  have h1 := (h.one_node hLib_gram (i := i) hi v).2 hv
  exact ⟨h1, (C100_cluster hLib_gram h two_copies hi v).2 h1⟩

/-- C98 about these four columns: the third and the fourth are exchanged. -/
example (resolution order : Nat) : ∃ v, ∀ i < 2, FileDelivers hLib resolution order hP
    ((copyColumns (f := 2) ![0, 1, 0, 1] ![1, 1, 1000, 1 / 7] twoSeries).map (· ∘ Equiv.swap 2 3)) i v := by
  obtain ⟨q, m, h, _⟩ := two_suited
  obtain ⟨v, hv⟩ := two_delivers resolution order
  refine ⟨v, fun i hi => ?_⟩
  have h1 := (h.one_node hLib_gram (i := i) hi v).2 hv
  exact (C98_reorder hLib_gram (h.copy hLib_gram two_copies) (Equiv.swap 2 3) (by decide) (by decide) hi v).2
    ((C100_cluster hLib_gram h two_copies hi v).2 h1)

end Joint

namespace Whole
open Pca Rotation Points

/-- One node: three columns of which the third is the first one in other units and with an offset. -/
example (resolution order : Nat) (v : Option (List (Option ℚ))) :
    Delivers exLib resolution order exP ((exCols (e := 0) (fun m => m = 1)).map
      (fun x (m : Fin 3) => (![9 / 5, 9 / 5, 1000] : Fin 3 → ℝ) m * x ((![0, 1, 0] : Fin 3 → Fin 2) m) + (![32, 0, -273] : Fin 3 → ℝ) m)) v ↔
      v = some [some 1, some 0, some 0] :=
  (C100_affine (f := 1) exLib_gram resolution order (by decide) (exCols_settled _) (by decide) rfl rfl
    (by intro m; fin_cases m <;> norm_num) rfl _ v).trans (exCols_delivers resolution order (by decide) (by decide) v)

/-- The same wave as the first and as the second column: the hypotheses of `C100_second_column` hold, and there are points. -/
example : ∃ pts, PointsOf exLib exP (exCols (e := 0) (fun _ => false)) pts ∧ pts.length = 4 ∧
    ∀ x ∈ pts, some x.segment = SegmentId.pointSegment 1 1 exP.rate ∨ some x.segment = SegmentId.pointSegment (-1) (-1) exP.rate ∨
      (some x.segment = SegmentId.pointSegment 0 0 exP.rate ∧ x.coordinates[0]? = some 0 ∧ x.coordinates[1]? = some 0) := by
  obtain ⟨pts, h1, h2, _⟩ := exCols_points (e := 0) (fun _ => false)
  refine ⟨pts, h1, h2, C100_second_column exLib_gram (by decide) (exCols_settled _) one_pos (fun x hx => ?_) h1⟩
  obtain ⟨y, _, rfl⟩ := List.mem_map.1 hx
  simp

end Whole
end S2G
