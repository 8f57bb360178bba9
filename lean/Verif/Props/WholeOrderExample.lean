import Verif.Props.WholeOrder
import Verif.Props.WholeExample

/-!
# C84, C85 in numbers: several waves

Series whose columns are one wave or the same wave a quarter of a period later.
-/

namespace S2G
namespace Whole

open Pca Rotation Points Pipeline NodeEst Edges

variable {e : Nat}

/-- The wave of `exSeries` and the same wave a quarter of a period later. -/
def waves : List (ℝ × ℝ) := [(1, 0), (0, 1), (-1, 0), (0, -1), (1, 0), (0, 1), (-1, 0)]

/-- Columns which are the later wave where `c` holds. -/
def exCols (c : Fin (e + 2) → Bool) : List (Fin (e + 2) → ℝ) := waves.map (fun x m => if c m then x.2 else x.1)

theorem exCols_settled (c : Fin (e + 2) → Bool) (m : Fin (e + 2)) : Settled exLib (windows 2 exP (exCols c) m) := fun _ _ _ _ _ _ => rfl

theorem exCols_windows (c : Fin (e + 2) → Bool) (m : Fin (e + 2)) : windows 2 exP (exCols c) m =
    if c m then [![0, 1, 0], ![1, 0, -1], ![0, -1, 0], ![-1, 0, 1]] else [![1, 0, -1], ![0, -1, 0], ![-1, 0, 1], ![0, 1, 0]] := by
  unfold windows column exCols waves exP
  simp only [List.length_cons, List.length_nil, List.map_map, List.length_map]
  by_cases hc : c m = true
  · norm_num [List.range_succ, PhaseSpace.specPoint, PhaseSpace.series, hc]
    refine ⟨?_, ?_, ?_, ?_⟩ <;> funext j <;> fin_cases j <;> simp [hc]
  · norm_num [List.range_succ, PhaseSpace.specPoint, PhaseSpace.series, hc]
    refine ⟨?_, ?_, ?_, ?_⟩ <;> funext j <;> fin_cases j <;> simp [hc]

theorem exCols_pca (c : Fin (e + 2) → Bool) (m : Fin (e + 2)) : PcaOf exLib 1 (windows 2 exP (exCols c) m) exComps 0 := by
  refine (pcaOf_iff exLib_gram (exCols_settled c m)).2 ⟨by rw [exCols_windows]; split <;> simp, .inl le_rfl, ?_, ?_⟩
  · rw [exCols_windows]
    funext j
    unfold mean
    split <;> fin_cases j <;> simp
  · show some (Pca.normalize _) = some exComps
    have h2 : 0 ≤ (√2)⁻¹ := by positivity
    unfold Pca.normalize exComps
    simp [normalizeRow, h2]

/-- The singular vectors are exact for these series, too. -/
theorem exCols_exact (c : Fin (e + 2) → Bool) (m : Fin (e + 2)) : ∀ v ∈ exComps, ∃ l : ℝ, (gram (windows 2 exP (exCols c) m)).mulVec v = l • v := by
  have hg : gram (windows 2 exP (exCols c) m) = gram (windows 2 exP exSeries 0) := by
    rw [exCols_windows, exWindows]
    ext i j
    unfold gram
    split <;> fin_cases i <;> fin_cases j <;> norm_num
  rw [hg]
  exact exLib_exact

/-- First coordinate of a dimension at the four points. -/
noncomputable def exFirst (b : Bool) (i : Nat) : ℝ := if b then [0, √2, 0, -√2].getD i 0 else [√2, 0, -√2, 0].getD i 0

theorem exCols_points (c : Fin (e + 2) → Bool) : ∃ pts, PointsOf exLib exP (exCols c) pts ∧ pts.length = 4 ∧
    ∀ i p, pts[i]? = some p → p.id = i ∧ p.coordinates.length = 2 * (e + 2) ∧ p.coordinates[0]? = some (exFirst (c 0) i) ∧
      p.coordinates[1]? = some (exFirst (c 1) i) ∧ SegmentId.pointSegment (exFirst (c 0) i) (exFirst (c 1) i) 4 = some p.segment := by
  have hw : checkedSub exP.patternLength exP.latent = some (2 + 1) := rfl
  have hl : (exCols c).length = 7 := by simp [exCols, waves]
  obtain ⟨pts, h1, h2, h3⟩ := C67_points (fun _ : Fin (e + 2) => exR) ((List.range ((exCols c).length - (exP.patternLength - 1))).map
    (fun i m => reduced exComps 0 ((windows 2 exP (exCols c) m).getD i 0))) (n := (exCols c).length) (k := 1) (i := 0) (rate := exP.rate)
    (by omega) (by omega) (by decide)
  have h4 : pts.length = 4 := by
    rw [h2, List.length_map, List.length_range, hl]
    rfl
  refine ⟨pts, pointsOf_iff.2 ⟨hw, by rw [hl]; decide, fun _ => -1, fun _ => exComps, fun _ => 0, fun _ => exR, fun m => ?_, exCols_pca c,
    fun m => ?_, h1⟩, h4, fun i p hp => ?_⟩
  · unfold columnMin exCols waves
    by_cases hc : c m = true <;> simp [Kde.colMin, hc]
  · rw [← exRotation]
    congr 2
    funext j
    simp [exP]
  · obtain ⟨row, hrow, hid, hcl, hco, x, y, hx, hy, hseg⟩ := h3 i p hp
    have hi : i < 4 := by
      rw [← h4]
      exact (List.getElem?_eq_some_iff.1 hp).1
    rw [List.getElem?_map, List.getElem?_range (by rw [hl]; exact hi)] at hrow
    simp only [Option.map_some, Option.some.injEq] at hrow
    have hfirst : ∀ m, (planar (fun _ => exR) row m).1 = exFirst (c m) i := by
      intro m
      have h2 : √2 * √2 = 2 := Real.mul_self_sqrt (by norm_num)
      have h2' : 0 < √2 := by positivity
      have hi4 : i = 0 ∨ i = 1 ∨ i = 2 ∨ i = 3 := by omega
      unfold planar
      rw [← hrow]
      simp only
      rw [exCols_windows]
      unfold exFirst
      by_cases hc : c m = true <;> rcases hi4 with rfl | rfl | rfl | rfl <;>
        simp [hc, reduced, reduceRow, exComps, List.finRange_succ, Matrix.mulVec, dotProduct, Fin.sum_univ_three, exR] <;> field_simp <;>
        nlinarith
    have a0 : p.coordinates[0]? = some (exFirst (c 0) i) := by
      rw [← hfirst 0]
      exact (hco 0).1
    have a1 : p.coordinates[1]? = some (exFirst (c 1) i) := by
      rw [← hfirst 1]
      exact (hco 1).1
    refine ⟨by omega, hcl, a0, a1, ?_⟩
    rw [Option.some.inj (a0.symm.trans hx), Option.some.inj (a1.symm.trans hy)]
    exact hseg

theorem quarter {r : ℝ} (hr : 0 < r) : SegmentId.pointSegment r 0 4 = some 0 ∧ SegmentId.pointSegment 0 r 4 = some 1 ∧
    SegmentId.pointSegment (-r) 0 4 = some 2 ∧ SegmentId.pointSegment 0 (-r) 4 = some 3 := by
  have hpi := Real.pi_pos
  refine ⟨(SegmentId.C25_polar (by simp [hr.ne']) (by omega) 0).2 ⟨by omega, r, 0, hr, by simp, by simp, ?_, ?_⟩,
    (SegmentId.C25_polar (by simp [hr.ne']) (by omega) 1).2 ⟨by omega, r, Real.pi / 2, hr, by simp, by simp, ?_, ?_⟩,
    (SegmentId.C25_polar (by simp [hr.ne']) (by omega) 2).2 ⟨by omega, r, Real.pi, hr, by simp, by simp, ?_, ?_⟩,
    (SegmentId.C25_polar (by simp [hr.ne']) (by omega) 3).2
      ⟨by omega, r, Real.pi / 2 + Real.pi, hr, by simp [Real.cos_add], by simp [Real.sin_add], ?_, ?_⟩⟩ <;>
    push_cast <;> linarith

/-- Ids and segments of the points: one turn in the positive direction if the later wave is the second column, in the negative direction if it is
the first. -/
theorem exCols_toPt {c : Fin (e + 2) → Bool} {pts : List Point} (h : PointsOf exLib exP (exCols c) pts) :
    (c 0 = false → c 1 = true → pts.map toPt = [⟨0, 0⟩, ⟨1, 1⟩, ⟨2, 2⟩, ⟨3, 3⟩]) ∧
    (c 0 = true → c 1 = false → pts.map toPt = [⟨0, 1⟩, ⟨1, 0⟩, ⟨2, 3⟩, ⟨3, 2⟩]) := by
  obtain ⟨pts', h1, h2, h3⟩ := exCols_points c
  cases h1.unique exLib_gram (exCols_settled c) (t := 1) h
  match pts, h2 with
  | [p0, p1, p2, p3], _ =>
    obtain ⟨s0, s1, s2, s3⟩ := quarter (r := √2) (by positivity)
    obtain ⟨i0, _, _, _, g0⟩ := h3 0 p0 rfl
    obtain ⟨i1, _, _, _, g1⟩ := h3 1 p1 rfl
    obtain ⟨i2, _, _, _, g2⟩ := h3 2 p2 rfl
    obtain ⟨i3, _, _, _, g3⟩ := h3 3 p3 rfl
    constructor
    · intro c0 c1
      simp only [c0, c1, exFirst, List.getD_cons_zero, List.getD_cons_succ, if_true, Bool.false_eq_true, if_false] at g0 g1 g2 g3
      rw [s0] at g0
      rw [s1] at g1
      rw [s2] at g2
      rw [s3] at g3
      simp only [List.map_cons, List.map_nil, toPt, i0, i1, i2, i3, ← Option.some.inj g0, ← Option.some.inj g1, ← Option.some.inj g2,
        ← Option.some.inj g3]
    · intro c0 c1
      simp only [c0, c1, exFirst, List.getD_cons_zero, List.getD_cons_succ, if_true, Bool.false_eq_true, if_false] at g0 g1 g2 g3
      rw [s1] at g0
      rw [s0] at g1
      rw [s3] at g2
      rw [s2] at g3
      simp only [List.map_cons, List.map_nil, toPt, i0, i1, i2, i3, ← Option.some.inj g0, ← Option.some.inj g1, ← Option.some.inj g2,
        ← Option.some.inj g3]

theorem exCols_track {pts m : List Point} {l : List Pt} (h : pts.map toPt = l) : track exP m pts = validSteps 4 l := by
  unfold track effective
  rw [if_neg (by simp [exP]), h]
  rfl

/-- The crossings of the turn in the positive direction have coordinates. -/
theorem exCols_places {c : Fin (e + 2) → Bool} {pts : List Point} (h : PointsOf exLib exP (exCols c) pts) (c0 : c 0 = false) (c1 : c 1 = true)
    {m : List Point} {t : Trans} (ht : t ∈ exTs) {s : Nat} (hs : s ∈ t.intersectionSegments 4) : place exP (e + 1) m pts (t, s) ≠ none := by
  have htr : track exP m pts = exTs := by
    rw [exCols_track ((exCols_toPt h).1 c0 c1)]
    rfl
  have h2 : (0 : ℝ) < √2 := by positivity
  obtain ⟨pts', h1, hl, h3⟩ := exCols_points c
  cases h1.unique exLib_gram (exCols_settled c) (t := 1) h
  unfold place
  rw [htr, corrected, if_neg (by simp [exP])]
  have hv : ∀ (i : Nat) (hi : i < 4), vec (2 * (e + 1) + 2) (coordsOf pts i) 0 = exFirst false i ∧
      vec (2 * (e + 1) + 2) (coordsOf pts i) 1 = exFirst true i := by
    intro i hi
    obtain ⟨p, hp⟩ : ∃ p, pts[i]? = some p := ⟨_, List.getElem?_eq_getElem (by omega)⟩
    have hfind : pts.find? (fun x => x.id = i) = some p := by
      rw [List.find?_eq_some_iff_getElem]
      obtain ⟨hi', hpi⟩ := List.getElem?_eq_some_iff.1 hp
      refine ⟨by simpa using (h3 i p hp).1, i, hi', hpi, fun j hj => ?_⟩
      have := (h3 j pts[j] (List.getElem?_eq_getElem (by omega))).1
      simp only [this, Bool.not_eq_eq_eq_not, Bool.not_true, decide_eq_false_iff_not]
      omega
    obtain ⟨_, _, g0, g1, _⟩ := h3 i p hp
    unfold vec coordsOf
    rw [hfind]
    simp only [Option.map_some, Option.getD_some, List.getD_eq_getElem?_getD, Fin.val_zero, Fin.val_one]
    rw [g0, g1, c0, c1]
    exact ⟨rfl, rfl⟩
  have hmx : 0 < Geometry.maxValue (n := 2 * (e + 1) + 1) (exTs.map (ends (e := e + 1) pts)) := by
    have h := (Geometry.maxValue_ge (ts := exTs.map (ends (e := e + 1) pts)) (t := ends (e := e + 1) pts ⟨⟨0, 0⟩, ⟨1, 1⟩⟩)
      (List.mem_map_of_mem (by simp [exTs])) 0).1
    have h1 : (ends (e := e + 1) pts ⟨⟨0, 0⟩, ⟨1, 1⟩⟩).1 0 = √2 := (hv 0 (by omega)).1
    rw [h1, abs_of_pos h2] at h
    exact h2.trans_le h
  have key : ∀ (i j : Nat) (_ : i < 4) (_ : j < 4) (a b s : Nat),
      (exFirst false j - exFirst false i) * Real.sin (2 * Real.pi * s / 4) ≠ (exFirst true j - exFirst true i) * Real.cos (2 * Real.pi * s / 4) →
      interCoord (e + 1) pts exTs 4 (⟨⟨i, a⟩, ⟨j, b⟩⟩, s) ≠ none := by
    intro i j hi hj a b s hne
    unfold interCoord Geometry.intersectionPoint
    intro hc
    rw [Option.map_eq_none_iff, Geometry.C31_border_none_iff] at hc
    rcases hc with hc | hc
    · exact hmx.ne' hc
    · apply hne
      have g1 := hv i hi
      have g2 := hv j hj
      unfold ends at hc
      simp only at hc
      rw [g1.1, g1.2, g2.1, g2.2] at hc
      exact hc
  have h3' : 2 * Real.pi * 3 / 4 = Real.pi / 2 + Real.pi := by ring
  have h1' : 2 * Real.pi * 1 / 4 = Real.pi / 2 := by ring
  have h22 : 2 * Real.pi * 2 / 4 = Real.pi := by ring
  simp only [exTs, List.mem_cons, List.not_mem_nil, or_false] at ht
  rcases ht with rfl | rfl | rfl
  · have : s = 1 := by revert hs; simp [Trans.intersectionSegments, Trans.intersectionCount, Trans.segmentDiff, Trans.rawDiff]
    subst this
    refine key 0 1 (by omega) (by omega) _ _ _ ?_
    push_cast
    rw [h1']
    simp [exFirst]
  · have : s = 2 := by revert hs; simp [Trans.intersectionSegments, Trans.intersectionCount, Trans.segmentDiff, Trans.rawDiff]
    subst this
    refine key 1 2 (by omega) (by omega) _ _ _ ?_
    push_cast
    rw [h22]
    simp [exFirst, h2.ne]
  · have : s = 3 := by revert hs; simp [Trans.intersectionSegments, Trans.intersectionCount, Trans.segmentDiff, Trans.rawDiff]
    subst this
    refine key 2 3 (by omega) (by omega) _ _ _ ?_
    push_cast
    rw [h3']
    simp [exFirst, Real.sin_add, Real.cos_add]

theorem exVector (lab : Nat → Nat → Nat) :
    Scoring.normalize (vector (pairs (walk 4 lab exTs)) 1 3) = some [some 1, some 0, some 0] := by
  have hg : SameGroups 4 exTs (fun _ _ => 0) lab := by
    intro s a b ha hb
    have : keysOf 4 exTs = [(0, 1), (1, 2), (2, 3)] := by decide
    rw [this] at ha hb
    simp at ha hb
    have : a = b := by omega
    rw [this]
    simp
  rw [vector_sameGroups hg]
  decide +kernel

/-- With the later wave in the second column exactly this vector is delivered, whatever the further columns are. -/
theorem exCols_delivers (resolution order : Nat) {c : Fin (e + 2) → Bool} (c0 : c 0 = false) (c1 : c 1 = true) (v : Option (List (Option ℚ))) :
    Delivers exLib resolution order exP (exCols c) v ↔ v = some [some 1, some 0, some 0] := by
  have hp : exP.WellFormed := ⟨by decide, by decide⟩
  have hlen : (exCols c).length = 7 := by simp [exCols, waves]
  rw [C72_result resolution order hp rfl (by decide) (by decide) (by rw [hlen]; decide)]
  have htr : ∀ {pts : List Point} (_ : PointsOf exLib exP (exCols c) pts) (m : List Point), track exP m pts = exTs := by
    intro pts h m
    rw [exCols_track ((exCols_toPt h).1 c0 c1)]
    rfl
  have hl4 : ∀ {pts : List Point} (_ : PointsOf exLib exP (exCols c) pts), pts.length = 4 := by
    intro pts h
    have := congrArg List.length ((exCols_toPt h).1 c0 c1)
    simpa using this
  constructor
  · rintro ⟨pts, h1, _, m, lab, hm, _, rfl⟩
    rw [htr h1, hl4 h1]
    exact exVector lab
  · rintro rfl
    obtain ⟨pts, hpts, _⟩ := exCols_points c
    obtain ⟨hl, _, hnum⟩ := hpts.numbered (by decide)
    obtain ⟨m, hm, _⟩ := mirrored_some (rate := exP.rate) (by decide) hnum.coords
    have hsc := C72_scores (len := 7) hp rfl resolution order hm hnum (by rw [hl4 hpts]; decide) (by decide) (by decide)
      (by rw [hl4 hpts]; decide)
    rw [htr hpts] at hsc
    have hne : score resolution order exP (e + 1) 7 pts ≠ none := by
      intro h
      rcases hsc.1.1 h with ⟨t, ht, s, hs, h0⟩ | ⟨s, hs, h2, _⟩ | ⟨t, ht, h1, h2⟩
      · exact exCols_places hpts c0 c1 ht hs h0
      · have hs' : s = 0 ∨ s = 1 ∨ s = 2 ∨ s = 3 := by simp [exP] at hs; omega
        rcases hs' with rfl | rfl | rfl | rfl <;> revert h2 <;> decide
      · simp [exTs] at ht
        subst ht
        simp at h2
    obtain ⟨s0, hs0⟩ := Option.ne_none_iff_exists'.1 hne
    obtain ⟨lab, hlab, _⟩ := hsc.2 s0 hs0
    rw [hlen]
    refine ⟨pts, hpts, hne, m, lab, hm, by rw [htr hpts]; exact hlab, ?_⟩
    rw [htr hpts, hl4 hpts]
    exact (exVector lab).symm

/-- With the later wave in the first column there is no valid step, and only NaN is delivered. -/
theorem exCols_delivers_nan (resolution order : Nat) {c : Fin (e + 2) → Bool} (c0 : c 0 = true) (c1 : c 1 = false)
    (v : Option (List (Option ℚ))) :
    Delivers exLib resolution order exP (exCols c) v ↔ v = some [none, none, none] := by
  have hp : exP.WellFormed := ⟨by decide, by decide⟩
  have hlen : (exCols c).length = 7 := by simp [exCols, waves]
  rw [C72_result resolution order hp rfl (by decide) (by decide) (by rw [hlen]; decide)]
  have htr : ∀ {pts : List Point} (_ : PointsOf exLib exP (exCols c) pts) (m : List Point), track exP m pts = [] := by
    intro pts h m
    rw [exCols_track ((exCols_toPt h).2 c0 c1)]
    decide
  have hl4 : ∀ {pts : List Point} (_ : PointsOf exLib exP (exCols c) pts), pts.length = 4 := by
    intro pts h
    have := congrArg List.length ((exCols_toPt h).2 c0 c1)
    simpa using this
  have hvec : Scoring.normalize (vector (pairs (walk 4 (fun _ _ => 0) [])) 1 3) = some [none, none, none] := by decide +kernel
  constructor
  · rintro ⟨pts, h1, _, m, lab, hm, _, rfl⟩
    rw [htr h1, hl4 h1]
    exact hvec
  · rintro rfl
    obtain ⟨pts, hpts, _⟩ := exCols_points c
    obtain ⟨hl, _, hnum⟩ := hpts.numbered (by decide)
    obtain ⟨m, hm, _⟩ := mirrored_some (rate := exP.rate) (by decide) hnum.coords
    have hsc := C72_scores (len := 7) hp rfl resolution order hm hnum (by rw [hl4 hpts]; decide) (by decide) (by decide)
      (by rw [hl4 hpts]; decide)
    rw [htr hpts] at hsc
    have hne : score resolution order exP (e + 1) 7 pts ≠ none := by
      intro h
      rcases hsc.1.1 h with ⟨t, ht, _⟩ | ⟨s, hs, h2, _⟩ | ⟨t, ht, _⟩
      · cases ht
      · simp [crossings] at h2
      · cases ht
    rw [hlen]
    refine ⟨pts, hpts, hne, m, fun _ _ => 0, hm, ?_, ?_⟩
    · rw [htr hpts]
      intro s _ h2
      simp [crossings] at h2
    · rw [htr hpts, hl4 hpts]
      exact hvec.symm

/-- C85: the order of the first two columns matters: there is a series with two columns (and exact singular vectors) for which every run delivers
`[1, 0, 0]`, while with the two columns exchanged every run delivers NaN only. -/
theorem C85_first_columns (resolution order : Nat) : ∃ (series : List (Fin 2 → ℝ)),
    (∀ m, ∀ v ∈ exComps, ∃ l : ℝ, (gram (windows 2 exP series m)).mulVec v = l • v) ∧
    (∀ v, Delivers exLib resolution order exP series v ↔ v = some [some 1, some 0, some 0]) ∧
    ∀ v, Delivers exLib resolution order exP (series.map (· ∘ Equiv.swap 0 1)) v ↔ v = some [none, none, none] := by
  refine ⟨exCols (e := 0) (fun m => m = 1), exCols_exact _, exCols_delivers resolution order (by decide) (by decide), ?_⟩
  have : (exCols (e := 0) (fun m => m = 1)).map (· ∘ Equiv.swap 0 1) = exCols (e := 0) (fun m => m = 0) := by
    unfold exCols
    rw [List.map_map]
    apply List.map_congr_left
    intro x _
    funext m
    fin_cases m <;> simp
  rw [this]
  exact exCols_delivers_nan resolution order (by decide) (by decide)

/-- C85: neither may the first of three columns be moved to the end. -/
theorem C85_later_column (resolution order : Nat) : ∃ (series : List (Fin 3 → ℝ)),
    (∀ m, ∀ v ∈ exComps, ∃ l : ℝ, (gram (windows 2 exP series m)).mulVec v = l • v) ∧
    (∀ v, Delivers exLib resolution order exP series v ↔ v = some [some 1, some 0, some 0]) ∧
    ∀ v, Delivers exLib resolution order exP (series.map (fun r => ![r 1, r 2, r 0])) v ↔ v = some [none, none, none] := by
  refine ⟨exCols (e := 1) (fun m => m = 1), exCols_exact _, exCols_delivers resolution order (by decide) (by decide), ?_⟩
  have : (exCols (e := 1) (fun m => m = 1)).map (fun r => ![r 1, r 2, r 0]) = exCols (e := 1) (fun m => m = 0) := by
    unfold exCols
    rw [List.map_map]
    apply List.map_congr_left
    intro x _
    funext m
    fin_cases m <;> simp
  rw [this]
  exact exCols_delivers_nan resolution order (by decide) (by decide)

/-! The hypotheses hold: four columns of which the last two are exchanged, and two series of three and five columns which agree in the first two. -/
example : ∃ σ : Equiv.Perm (Fin 4), σ 0 = 0 ∧ σ 1 = 1 ∧ σ ≠ 1 ∧
    ∀ v, Delivers exLib 10 3 exP ((exCols (e := 2) (fun m => m.val % 2 = 1)).map (· ∘ σ)) v ↔ v = some [some 1, some 0, some 0] :=
  ⟨Equiv.swap 2 3, by decide, by decide, by decide, fun v =>
    (C85_reorder exLib 10 3 (by decide) _ _ (by decide) (by decide) v).trans (exCols_delivers 10 3 (by decide) (by decide) v)⟩

example : ∃ (s1 : List (Fin 3 → ℝ)) (s2 : List (Fin 5 → ℝ)) (v1 v2 : Option (List (Option ℚ))), s1.map (· 0) = s2.map (· 0) ∧
    s1.map (· 1) = s2.map (· 1) ∧ s1.map (· 2) ≠ s2.map (· 2) ∧ Settled exLib (windows 2 exP s1 0) ∧ Settled exLib (windows 2 exP s1 1) ∧
    Delivers exLib 10 3 exP s1 v1 ∧ Delivers exLib 10 3 exP s2 v2 := by
  refine ⟨exCols (e := 1) (fun m => m = 1), exCols (e := 3) (fun m => m = 1 ∨ m = 2), _, _, ?_, ?_, ?_, exCols_settled _ _, exCols_settled _ _,
    (exCols_delivers 10 3 (by decide) (by decide) _).2 rfl, (exCols_delivers 10 3 (by decide) (by decide) _).2 rfl⟩
  · simp [exCols]
  · simp [exCols]
  · simp [exCols, waves]

end Whole
end S2G
