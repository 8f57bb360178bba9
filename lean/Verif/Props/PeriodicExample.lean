import Verif.Props.Periodic
import Verif.Props.ClusterExample

/-!
# The wave crashes

The theorems of `Verif/Props/Periodic.lean` about the wave of `Verif/Props/ClusterExample.lean`: fifteen values, period four, four
segments, one node. Each border is crossed once in each period, all crossings of a border coincide, and nothing is delivered.
-/

namespace S2G
namespace Whole

open Pca Rotation Points Pipeline Edges SegState Cluster

theorem wave_repeats : Repeats 4 wave := by
  intro j hj
  have hj : j + 4 < 15 := hj
  have hj : j < 11 := by omega
  interval_cases j <;> rfl

/-- Segment of a list of coordinates. -/
noncomputable def segOf (rate : Nat) (c : List ℝ) : Nat := (SegmentId.pointSegment (c.getD 0 0) (c.getD 1 0) rate).getD 0

theorem newPoint_seg {i r : Nat} {c : List ℝ} {x : Point} (h : newPoint i c r = some x) : x.segment = segOf r c := by
  simp only [newPoint, Option.bind_eq_bind, Option.bind_eq_some_iff] at h
  obtain ⟨a, ha, b, hb, s, hs, h⟩ := h
  cases h
  unfold segOf
  rw [List.getD_eq_getElem?_getD, List.getD_eq_getElem?_getD, ha, hb]
  simp only [Option.getD_some]
  rw [hs]
  rfl

theorem wave_pts {q : List Point} (hq : PointsOf exLib (wP 4 1) wave q) : q.map toPt =
    [⟨0, 0⟩, ⟨1, 1⟩, ⟨2, 2⟩, ⟨3, 3⟩, ⟨4, 0⟩, ⟨5, 1⟩, ⟨6, 2⟩, ⟨7, 3⟩, ⟨8, 0⟩, ⟨9, 1⟩, ⟨10, 2⟩, ⟨11, 3⟩] := by
  obtain ⟨q', hq', hc⟩ := wave_points (rate := 4) (by omega) 1
  cases PointsOf.unique exLib_gram (wave_settled 4 1) (t := 1) hq' hq
  obtain ⟨hl, _, hnum⟩ := hq.numbered (by simp [wP])
  have hnew := (hq.repeats (by simp [wP]) wave_repeats).2
  have hl : q.length = 12 := by rw [hl]; rfl
  obtain ⟨s0, s1, s2, s3⟩ := exSegments
  have hseg : q.map Point.segment = [0, 1, 2, 3, 0, 1, 2, 3, 0, 1, 2, 3] := by
    have h1 : q.map Point.segment = (q.map Point.coordinates).map (segOf 4) := by
      rw [List.map_map]
      exact List.map_congr_left (fun x hx => newPoint_seg (hnew x hx))
    rw [h1, hc]
    simp [waveCoords, segOf, s0, s1, s2, s3]
  have hid : q.map Point.id = [0, 1, 2, 3, 4, 5, 6, 7, 8, 9, 10, 11] := by rw [hnum.ids, hl]; rfl
  have : q.map toPt = ((q.map Point.id).zip (q.map Point.segment)).map (fun x => ⟨x.1, x.2⟩) := by
    rw [List.zip_map', List.map_map]
    rfl
  rw [this, hid, hseg]
  rfl

/-- The wave delivers nothing, whatever the constants of the clustering. -/
theorem wave_crashes {resolution order : Nat} (hres : 1 ≤ resolution) (hord : order ≤ resolution) (v : Option (List (Option ℚ))) :
    ¬ Delivers exLib resolution order (wP 4 1) wave v := by
  refine C76_nothing (T := 4) (by simp [Parameters.WellFormed, wP]) rfl hres hord (by simp [wP]) (by simp [wP]) (by simp [wP])
    (by simp [wP, wave]) wave_repeats (by simp [wP, wave]) (fun q m hq hm => ⟨1, by simp [wP], ?_⟩) v
  have htr : track (wP 4 1) m q = validSteps 4 (q.map toPt) := by
    unfold track effective
    rw [if_neg (by simp [wP])]
    rfl
  rw [htr, wave_pts hq]
  decide

/-- The hypotheses of C76 about single points: the wave has points, and its crossings of border 1 coincide. -/
example : ∃ q m, PointsOf exLib (wP 4 1) wave q ∧ q.mapM (mirrorPoint 4) = some m ∧ score 10 3 (wP 4 1) 0 15 q = none := by
  obtain ⟨q, hq, _⟩ := wave_points (rate := 4) (by omega) 1
  obtain ⟨hl, _, hnum⟩ := hq.numbered (by simp [wP])
  obtain ⟨m, hm, _⟩ := mirrored_some (rate := 4) (by omega) hnum.coords
  refine ⟨q, m, hq, hm, ?_⟩
  have htr : track (wP 4 1) m q = validSteps 4 (q.map toPt) := by
    unfold track effective
    rw [if_neg (by simp [wP])]
    rfl
  refine C76_periodic (T := 4) (by simp [Parameters.WellFormed, wP]) rfl (by omega) (by omega) (by simp [wP]) (by simp [wP]) (by simp [wP])
    (by simp [wP, wave]) wave_repeats (by simp [wP, wave]) hq hm (s := 1) (by simp [wP]) ?_
  rw [htr, wave_pts hq]
  decide

/-- A crossing which exists: the first step of the series of `Verif/Props/WholeExample.lean` and border 1. -/
example : ∃ (z : Nat → ℝ) (c : List ℝ), interCoord 0 exPts exTs 4 (⟨⟨0, 0⟩, ⟨1, 1⟩⟩, 1) = some c ∧ c = [√(z 0 ^ 2 + z 1 ^ 2)] ∧ z 0 = 0 := by
  obtain ⟨h1, h2⟩ := C76_crossing (e := 0) (pts := exPts) (ts := exTs) (t := ⟨⟨0, 0⟩, ⟨1, 1⟩⟩) (by simp [exTs]) 4 1
  have hsin : Real.sin (2 * Real.pi * (1 : ℕ) / (4 : ℕ)) = 1 := by
    rw [show (2 * Real.pi * (1 : ℕ) / (4 : ℕ) : ℝ) = Real.pi / 2 by push_cast; ring]; simp
  have hcos : Real.cos (2 * Real.pi * (1 : ℕ) / (4 : ℕ)) = 0 := by
    rw [show (2 * Real.pi * (1 : ℕ) / (4 : ℕ) : ℝ) = Real.pi / 2 by push_cast; ring]; simp
  rw [hsin, hcos] at h1 h2
  cases hc : interCoord 0 exPts exTs 4 (⟨⟨0, 0⟩, ⟨1, 1⟩⟩, 1) with
  | none =>
    have := h1.1 hc
    simp [coordsOf, exPts] at this
  | some c =>
    obtain ⟨z, a, _, h4, h5⟩ := h2 c hc
    exact ⟨z, c, rfl, by rw [h5]; simp [List.range_succ], by simpa using h4⟩

end Whole
end S2G
