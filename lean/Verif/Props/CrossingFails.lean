import Verif.Props.CrossingBound

/-!
# C106: when a crossing is not found

`C31_border_none_iff` says when the calculation fails for any line. Here for the steps which are kept: both ends have to be on the line of the border.
-/

namespace S2G
namespace Geometry

/-- Both points are on the line through the origin at the angle of border `s` of `rate`. -/
def OnBorderLine (rate s : Nat) (x0 y0 x1 y1 : ℝ) : Prop :=
  x0 * Real.sin (2 * Real.pi * s / rate) = y0 * Real.cos (2 * Real.pi * s / rate) ∧
    x1 * Real.sin (2 * Real.pi * s / rate) = y1 * Real.cos (2 * Real.pi * s / rate)

/-- **C106.** For a step which is kept and a border it crosses the calculation fails exactly if both points are on the line of the border. -/
theorem C106_fails_iff {m : Nat} {ts : List ((Fin (m + 2) → ℝ) × (Fin (m + 2) → ℝ))} {t : (Fin (m + 2) → ℝ) × (Fin (m + 2) → ℝ)} (hmem : t ∈ ts)
    {rate f d k j : Nat} (hf : SegmentId.pointSegment (t.1 0) (t.1 1) rate = some f)
    (hd : SegmentId.pointSegment (t.2 0) (t.2 1) rate = some d) (hfr : f < rate) (hk : Trans.ForwardBy rate f d k) (hj : 1 ≤ j) (hjk : j ≤ k) :
    intersectionPoint ts rate t ((f + j) % rate) = none ↔ OnBorderLine rate ((f + j) % rate) (t.1 0) (t.1 1) (t.2 0) (t.2 1) := by
  obtain ⟨h0, h1⟩ := sides hf hd hfr hk hj hjk
  have hmx : maxValue ts ≠ 0 := by
    intro h
    have a0 := maxValue_ge hmem 0
    have a1 := maxValue_ge hmem 1
    rw [h] at a0 a1
    rw [abs_nonpos_iff.1 a0.1, abs_nonpos_iff.1 a1.1] at hf
    rw [abs_nonpos_iff.1 a0.2, abs_nonpos_iff.1 a1.2, hf] at hd
    cases Option.some.inj hd
    obtain ⟨h1, h2, h3⟩ := hk
    rw [Trans.mod_cases hfr (by omega)] at h3
    split at h3 <;> omega
  unfold intersectionPoint OnBorderLine
  rw [C31_border_none_iff]
  unfold borderAngle at h0 h1 ⊢
  constructor
  · rintro (h | h)
    · exact absurd h hmx
    · constructor <;> linarith
  · rintro ⟨h2, h3⟩
    right
    linarith

/-- **C106.** If none of the points is the origin (in the first two coordinates), the calculation fails exactly if the step makes exactly half a turn
through the origin, from the ray opposite to its last border to the ray of that border. -/
theorem C106_half_turn {m : Nat} {ts : List ((Fin (m + 2) → ℝ) × (Fin (m + 2) → ℝ))} {t : (Fin (m + 2) → ℝ) × (Fin (m + 2) → ℝ)} (hmem : t ∈ ts)
    (hz0 : ¬(t.1 0 = 0 ∧ t.1 1 = 0)) (hz1 : ¬(t.2 0 = 0 ∧ t.2 1 = 0))
    {rate f d k j : Nat} (hf : SegmentId.pointSegment (t.1 0) (t.1 1) rate = some f)
    (hd : SegmentId.pointSegment (t.2 0) (t.2 1) rate = some d) (hfr : f < rate) (hk : Trans.ForwardBy rate f d k) (hj : 1 ≤ j) (hjk : j ≤ k) :
    intersectionPoint ts rate t ((f + j) % rate) = none ↔ 2 * k = rate ∧ j = k ∧ ∃ r0 r1 : ℝ, 0 < r0 ∧ 0 < r1 ∧
      t.1 0 = -(r0 * Real.cos (2 * Real.pi * d / rate)) ∧ t.1 1 = -(r0 * Real.sin (2 * Real.pi * d / rate)) ∧
      t.2 0 = r1 * Real.cos (2 * Real.pi * d / rate) ∧ t.2 1 = r1 * Real.sin (2 * Real.pi * d / rate) := by
  rw [C106_fails_iff hmem hf hd hfr hk hj hjk]
  obtain ⟨hk1, hk2, hdk⟩ := hk
  have hrate : 0 < rate := by omega
  have hrR : (0 : ℝ) < rate := by exact_mod_cast hrate
  have hpi := Real.pi_pos
  constructor
  · rintro ⟨h0, h1⟩
    obtain ⟨_, r0, φ0, hr0, hx0, hy0, hφ0, hφ0'⟩ := (SegmentId.C25_polar hz0 hrate f).1 hf
    obtain ⟨hdl, r1, φ1, hr1, hx1, hy1, hφ1, hφ1'⟩ := (SegmentId.C25_polar hz1 hrate d).1 hd
    obtain ⟨hcB, hsB⟩ := border_lift hfr (show j ≤ rate by omega)
    unfold borderAngle at hcB hsB
    have hc0 : 0 = Real.sin (2 * Real.pi / rate * (f + j) - φ0) := by
      rw [Real.sin_sub, ← hcB, ← hsB]
      rw [hx0, hy0] at h0
      have : r0 * (Real.sin (2 * Real.pi * ((f + j) % rate : Nat) / rate) * Real.cos φ0 -
          Real.cos (2 * Real.pi * ((f + j) % rate : Nat) / rate) * Real.sin φ0) = 0 := by linarith
      exact ((mul_eq_zero.1 this).resolve_left hr0.ne').symm
    obtain ⟨w, hw⟩ : ∃ w : ℝ, w = 2 * Real.pi / rate := ⟨_, rfl⟩
    have hwpos : 0 < w := by rw [hw]; positivity
    have hwr : w * rate = 2 * Real.pi := by rw [hw]; field_simp
    have conv : ∀ a : ℝ, 2 * Real.pi * a / rate = w * a := by intro a; rw [hw]; ring
    rw [← hw] at hc0
    rw [conv] at hφ0 hφ0' hφ1 hφ1'
    have hj1 : (1 : ℝ) ≤ j := by exact_mod_cast hj
    have hkw : w * k ≤ Real.pi := by
      have : (2 : ℝ) * k ≤ rate := by exact_mod_cast hk2
      nlinarith
    have hjkR : (j : ℝ) ≤ k := by exact_mod_cast hjk
    have hb1 : 0 < w * (f + j) - φ0 := by nlinarith
    have hb2 : Real.pi ≤ w * (f + j) - φ0 := by
      by_contra hc
      have := Real.sin_pos_of_pos_of_lt_pi hb1 (not_le.1 hc)
      linarith
    have hjw : Real.pi ≤ w * j := by
      have : w * (f + j) = w * f + w * j := mul_add _ _ _
      linarith
    have hjk' : j = k := by
      by_contra hc
      have : (j : ℝ) + 1 ≤ k := by exact_mod_cast (by omega : j + 1 ≤ k)
      nlinarith
    subst hjk'
    have h2k : 2 * j = rate := by
      have : (rate : ℝ) ≤ 2 * j := by
        by_contra hc
        nlinarith
      have : rate ≤ 2 * j := by exact_mod_cast this
      omega
    have hφ : φ0 = w * (f + j) - Real.pi := by
      have : w * (f + j) = w * f + w * j := mul_add _ _ _
      linarith
    rw [← hdk] at hcB hsB h1
    have hx1' : Real.sin (φ1 - w * d) = 0 := by
      rw [Real.sin_sub, ← conv]
      rw [hx1, hy1] at h1
      have : r1 * (Real.sin φ1 * Real.cos (2 * Real.pi * d / rate) - Real.cos φ1 * Real.sin (2 * Real.pi * d / rate)) = 0 := by linarith
      exact (mul_eq_zero.1 this).resolve_left hr1.ne'
    have hwpi : w ≤ Real.pi := by
      have h5 : (2 : ℝ) ≤ rate := by exact_mod_cast (by omega : 2 ≤ rate)
      have := mul_le_mul_of_nonneg_left h5 hwpos.le
      linarith
    have hφ1e : φ1 = w * d := by
      by_contra hc
      have h3 : 0 < φ1 - w * d := lt_of_le_of_ne (by linarith) (fun h => hc (by linarith))
      have h4 : w * ((d : ℝ) + 1) = w * d + w := by ring
      have := Real.sin_pos_of_pos_of_lt_pi h3 (by linarith)
      linarith
    refine ⟨h2k, rfl, r0, r1, hr0, hr1, ?_, ?_, ?_, ?_⟩
    · rw [hcB, hx0, hφ, Real.cos_sub_pi, ← hw]
      ring
    · rw [hsB, hy0, hφ, Real.sin_sub_pi, ← hw]
      ring
    · rw [hx1, hφ1e, conv]
    · rw [hy1, hφ1e, conv]
  · rintro ⟨_, rfl, r0, r1, _, _, e0, e1, e2, e3⟩
    rw [← hdk]
    unfold OnBorderLine
    rw [e0, e1, e2, e3]
    constructor <;> ring

end Geometry

namespace Whole
open Pca Rotation Points Pipeline Contribution SegState Kde Geometry
variable {e w : Nat}

theorem PointsOf.placed {lib : Lib w} {p : Parameters} (hr : 0 < p.rate) {series : List (Fin (e + 1) → ℝ)} {pts : List Point}
    (h : PointsOf lib p series pts) : Placed p.rate pts := by
  obtain ⟨lo, hi, ps, ref, comps, means, first, R, hmm, hw, href, hps, hpca, hfirst, hR, hpts⟩ := h
  obtain ⟨pts', h1, h2, h3⟩ := C67_points R ((List.range ps.length).map (fun i m => reduced (comps m) (means m) ((column ps m).getD i 0)))
    (n := series.length) (k := 1) (i := 0) (rate := p.rate) (by omega) (by omega) hr
  cases Option.some.inj (hpts.symm.trans h1)
  intro x hx
  obtain ⟨r, hr⟩ := List.getElem?_of_mem hx
  obtain ⟨row, _, _, _, _, a, b, ha, hb, hab⟩ := h3 r x hr
  rw [List.getD_eq_getElem?_getD, List.getD_eq_getElem?_getD, ha, hb]
  exact hab

/-- First and second coordinate of the point with an id. -/
noncomputable def xOf (pts : List Point) (id : Nat) : ℝ := (coordsOf pts id).getD 0 0
noncomputable def yOf (pts : List Point) (id : Nat) : ℝ := (coordsOf pts id).getD 1 0

/-- What is known of a kept step and a border it crosses. -/
theorem kept {p : Parameters} (hr : 0 < p.rate) {pts mirrored : List Point} (hm : pts.mapM (mirrorPoint p.rate) = some mirrored)
    (hnum : Numbered p.rate e pts) (hpl : Placed p.rate pts) {t : Trans} (ht : t ∈ track p mirrored pts) {s : Nat}
    (hs : s ∈ t.intersectionSegments p.rate) :
    (∃ a ∈ corrected p mirrored pts, ∃ b ∈ corrected p mirrored pts, coordsOf (corrected p mirrored pts) t.src.id = a.coordinates ∧
      coordsOf (corrected p mirrored pts) t.dst.id = b.coordinates) ∧
    SegmentId.pointSegment (xOf (corrected p mirrored pts) t.src.id) (yOf (corrected p mirrored pts) t.src.id) p.rate = some t.src.seg ∧
    SegmentId.pointSegment (xOf (corrected p mirrored pts) t.dst.id) (yOf (corrected p mirrored pts) t.dst.id) p.rate = some t.dst.seg ∧
    t.src.seg < p.rate ∧ ∃ k j, Trans.ForwardBy p.rate t.src.seg t.dst.seg k ∧ 1 ≤ j ∧ j ≤ k ∧ s = (t.src.seg + j) % p.rate := by
  obtain ⟨B, hB⟩ : ∃ B, Within B pts := by
    refine ⟨((pts.flatMap Point.coordinates).map abs).sum, fun x hx c hc => ?_⟩
    exact List.single_le_sum (fun y hy => by obtain ⟨z, _, rfl⟩ := List.mem_map.1 hy; exact abs_nonneg z) _
      (List.mem_map_of_mem (List.mem_flatMap.2 ⟨x, hx, hc⟩))
  obtain ⟨heff, hn', hp', _⟩ := corrected_facts hr hm hnum hpl hB
  have ht' := ht
  unfold track at ht'
  rw [heff] at ht'
  have hseg : ∀ x ∈ (corrected p mirrored pts).map toPt, x.seg < p.rate := by
    intro x hx
    obtain ⟨a, ha, rfl⟩ := List.mem_map.1 hx
    exact hn'.segs a ha
  obtain ⟨h1, h2, h3⟩ := validSteps_valid hseg t ht'
  obtain ⟨h4, h5⟩ := mem_steps (List.mem_filter.1 ht').1
  obtain ⟨a, ha, ha'⟩ := List.mem_map.1 h4
  obtain ⟨b, hb, hb'⟩ := List.mem_map.1 h5
  obtain ⟨k, hk⟩ := (Trans.C26_valid_iff t h1 h2).1 h3
  obtain ⟨j, hj1, hj2, rfl⟩ := (Trans.C30_mem_iff t h1 h2 hk s).1 hs
  have ha2 : coordsOf (corrected p mirrored pts) t.src.id = a.coordinates := by rw [← ha']; exact coordsOf_mem hn' ha
  have hb2 : coordsOf (corrected p mirrored pts) t.dst.id = b.coordinates := by rw [← hb']; exact coordsOf_mem hn' hb
  refine ⟨⟨a, ha, b, hb, ha2, hb2⟩, ?_, ?_, h1, k, j, hk, hj1, hj2, rfl⟩
  · unfold xOf yOf
    rw [ha2, ← ha']
    exact hp' a ha
  · unfold xOf yOf
    rw [hb2, ← hb']
    exact hp' b hb

/-- **C106 (runs).** The crossing of a kept step with a border has no coordinates (`intersection error`) exactly if both points are on the line of
the border. -/
theorem C106_place {p : Parameters} (hr : 0 < p.rate) {pts mirrored : List Point} (hm : pts.mapM (mirrorPoint p.rate) = some mirrored)
    (hnum : Numbered p.rate e pts) (hpl : Placed p.rate pts) {t : Trans} (ht : t ∈ track p mirrored pts) {s : Nat}
    (hs : s ∈ t.intersectionSegments p.rate) :
    place p e mirrored pts (t, s) = none ↔ OnBorderLine p.rate s (xOf (corrected p mirrored pts) t.src.id) (yOf (corrected p mirrored pts) t.src.id)
      (xOf (corrected p mirrored pts) t.dst.id) (yOf (corrected p mirrored pts) t.dst.id) := by
  obtain ⟨_, h1, h2, h3, k, j, hk, hj1, hj2, rfl⟩ := kept hr hm hnum hpl ht hs
  unfold place interCoord
  rw [Option.map_eq_none_iff]
  exact C106_fails_iff (m := 2 * e) (t := ends (corrected p mirrored pts) t) (List.mem_map_of_mem ht) h1 h2 h3 hk hj1 hj2

/-- **C106 (runs).** All reasons for a run to stop between the points and the scores, the first one in terms of the points alone. -/
theorem C106_scores {lib : Lib w} {p : Parameters} (hp : p.WellFormed) (hn : p.nClusterNodes = 1) (resolution order : Nat)
    {series : List (Fin (e + 1) → ℝ)} {mirrored pts : List Point} (hpts : PointsOf lib p series pts)
    (hm : pts.mapM (mirrorPoint p.rate) = some mirrored) (hq : 1 ≤ p.queryLength) (ht : 1 ≤ p.nThreads)
    (hsl : p.nThreads + p.queryLength ≤ pts.length) :
    score resolution order p e series.length pts = none ↔
      (∃ t ∈ track p mirrored pts, ∃ s ∈ t.intersectionSegments p.rate, OnBorderLine p.rate s
        (xOf (corrected p mirrored pts) t.src.id) (yOf (corrected p mirrored pts) t.src.id)
        (xOf (corrected p mirrored pts) t.dst.id) (yOf (corrected p mirrored pts) t.dst.id)) ∨
      (∃ s < p.rate, 2 ≤ (crossings p.rate (track p mirrored pts) s).length ∧
        clustering resolution order p e ((crossings p.rate (track p mirrored pts) s).reverse.map
          (fun x => (place p e mirrored pts x).getD [])) = none) ∨
      ∃ t ∈ (track p mirrored pts).head?, t.src.seg + 2 = p.rate ∧ t.dst.seg < t.src.seg := by
  have hr : 0 < p.rate := by have := hp.1; have := hp.2; omega
  obtain ⟨hl, hpl, hnum⟩ := hpts.numbered hr
  rw [(C72_scores hp hn resolution order hm hnum (len := series.length) (by omega) hq ht hsl).1]
  refine or_congr ?_ Iff.rfl
  refine exists_congr fun t => and_congr_right fun ht => exists_congr fun s => and_congr_right fun hs => ?_
  exact C106_place hr hm hnum (hpts.placed hr) ht hs

/-- **C106 (runs).** With an odd number of segments, or as long as no step makes exactly half a turn, every crossing is found unless a point is the
origin (in its first two coordinates). -/
theorem C106_odd {p : Parameters} (hr : 0 < p.rate) {pts mirrored : List Point} (hm : pts.mapM (mirrorPoint p.rate) = some mirrored)
    (hnum : Numbered p.rate e pts) (hpl : Placed p.rate pts)
    (hz : ∀ x ∈ pts, ¬(x.coordinates.getD 0 0 = 0 ∧ x.coordinates.getD 1 0 = 0)) {t : Trans} (ht : t ∈ track p mirrored pts)
    (hh : t.dst.seg ≠ t.src.seg + p.rate / 2 ∧ t.src.seg ≠ t.dst.seg + p.rate / 2 ∨ p.rate % 2 = 1) {s : Nat}
    (hs : s ∈ t.intersectionSegments p.rate) : place p e mirrored pts (t, s) ≠ none := by
  have hz' : ∀ x ∈ corrected p mirrored pts, ¬(x.coordinates.getD 0 0 = 0 ∧ x.coordinates.getD 1 0 = 0) := by
    unfold corrected
    split
    · intro y hy
      obtain ⟨x, hx, hxy⟩ := Kde.mapM_mem hm hy
      obtain ⟨_, ⟨c, d, cs, h1, h2, _⟩, _⟩ := (C72_mirror x).2 y hxy
      have := hz x hx
      rw [h1] at this
      rw [h2]
      simpa using this
    · exact hz
  obtain ⟨⟨a, ha, b, hb, ha2, hb2⟩, h1, h2, h3, k, j, hk, hj1, hj2, rfl⟩ := kept hr hm hnum hpl ht hs
  unfold place interCoord
  rw [Ne, Option.map_eq_none_iff]
  intro hnone
  have h6 := ((C106_half_turn (m := 2 * e) (ts := (track p mirrored pts).map (ends (corrected p mirrored pts)))
    (t := ends (corrected p mirrored pts) t) (List.mem_map_of_mem ht)
    (by
      show ¬((coordsOf _ t.src.id).getD 0 0 = 0 ∧ (coordsOf _ t.src.id).getD 1 0 = 0)
      rw [ha2]
      exact hz' a ha)
    (by
      show ¬((coordsOf _ t.dst.id).getD 0 0 = 0 ∧ (coordsOf _ t.dst.id).getD 1 0 = 0)
      rw [hb2]
      exact hz' b hb) h1 h2 h3 hk hj1 hj2).1 hnone).1
  obtain ⟨hk1, hk2, hk3⟩ := hk
  rw [Trans.mod_cases h3 (by omega)] at hk3
  split at hk3 <;> rcases hh with ⟨h7, h8⟩ | h7 <;> omega

/-- The step of half a turn of `C31_opposite_counterexample`. -/
example : ∃ t : (Fin 2 → ℝ) × (Fin 2 → ℝ), OnBorderLine 4 2 (t.1 0) (t.1 1) (t.2 0) (t.2 1) := by
  obtain ⟨t, h1, h2, h3, h4⟩ := C31_opposite_counterexample
  exact ⟨t, (C106_fails_iff (m := 0) (ts := [t]) (j := 2) (by simp) h1 h2 (by omega) h3 (by omega) le_rfl).1 h4⟩

/-- Two points with half a turn between them: the last border is not found, the first one is. -/
example : ∃ (pts m : List Point) (t : Trans), pts.mapM (mirrorPoint hP.rate) = some m ∧ t ∈ track hP m pts ∧
    t.intersectionSegments hP.rate = [1, 2] ∧ place hP 0 m pts (t, 2) = none ∧ place hP 0 m pts (t, 1) ≠ none := by
  have hpi := Real.pi_pos
  have hnum : Numbered hP.rate 0 [⟨0, [1, 0], 0⟩, ⟨1, [-1, 0], 2⟩] := ⟨rfl, by simp, by simp [hP]⟩
  have hpl : Placed hP.rate [⟨0, [1, 0], 0⟩, ⟨1, [-1, 0], 2⟩] := by
    intro x hx
    simp only [List.mem_cons, List.not_mem_nil, or_false] at hx
    rcases hx with rfl | rfl
    · refine (SegmentId.C25_polar (by norm_num) (by norm_num [hP]) 0).2 ⟨by norm_num [hP], 1, 0, by norm_num, by simp, by simp, ?_, ?_⟩
      · simp
      · simp [hP]; positivity
    · refine (SegmentId.C25_polar (by norm_num) (by norm_num [hP]) 2).2
        ⟨by norm_num [hP], 1, Real.pi, by norm_num, by simp, by simp, ?_, ?_⟩
      · simp only [hP]; push_cast; linarith
      · simp only [hP]; push_cast; linarith
  obtain ⟨m, hm, _⟩ := mirrored_some (rate := hP.rate) (by decide) hnum.coords
  have htr : track hP m [⟨0, [1, 0], 0⟩, ⟨1, [-1, 0], 2⟩] = [⟨⟨0, 0⟩, ⟨1, 2⟩⟩] := by
    unfold track effective
    rw [if_neg (by simp [hP])]
    rfl
  have hc : corrected hP m [⟨0, [1, 0], 0⟩, ⟨1, [-1, 0], 2⟩] = [⟨0, [1, 0], 0⟩, ⟨1, [-1, 0], 2⟩] := by
    unfold corrected
    rw [if_neg (by simp [hP])]
  refine ⟨_, m, ⟨⟨0, 0⟩, ⟨1, 2⟩⟩, hm, by rw [htr]; simp, by decide, ?_, ?_⟩
  · rw [C106_place (by decide) hm hnum hpl (by rw [htr]; simp) (by decide), hc]
    have : (2 * Real.pi * (2 : Nat) / hP.rate : ℝ) = Real.pi := by simp only [hP]; push_cast; ring
    unfold OnBorderLine
    rw [this]
    simp [xOf, yOf, coordsOf]
  · rw [Ne, C106_place (by decide) hm hnum hpl (by rw [htr]; simp) (by decide), hc]
    have : (2 * Real.pi * (1 : Nat) / hP.rate : ℝ) = Real.pi / 2 := by simp only [hP]; push_cast; ring
    unfold OnBorderLine
    rw [this]
    simp [xOf, yOf, coordsOf]

/-- The run of `HashedExample.lean` has no step of half a turn and no point at the origin. -/
example {m : List Point} (hm : hPts.mapM (mirrorPoint hP.rate) = some m) : place hP 0 m hPts (⟨⟨0, 0⟩, ⟨1, 1⟩⟩, 1) ≠ none := by
  refine C106_odd (by decide) hm (hPoints.numbered (by decide)).2.2 (hPoints.placed (by decide)) ?_ (by rw [hTrack]; decide) (.inl (by decide))
    (by decide)
  intro x hx
  simp only [hPts, List.mem_cons, List.not_mem_nil, or_false] at hx
  rcases hx with rfl | rfl | rfl | rfl | rfl | rfl | rfl | rfl <;> norm_num

/-- `C106_scores` for the same run, which delivers scores: none of its crossings is on the line of a step. -/
example {m : List Point} (hm : hPts.mapM (mirrorPoint hP.rate) = some m) (t : Trans) (ht : t ∈ track hP m hPts) (s : Nat)
    (hs : s ∈ t.intersectionSegments hP.rate) (h : score 250 0 hP 0 hSeries.length hPts ≠ none) :
    ¬OnBorderLine hP.rate s (xOf (corrected hP m hPts) t.src.id) (yOf (corrected hP m hPts) t.src.id) (xOf (corrected hP m hPts) t.dst.id)
      (yOf (corrected hP m hPts) t.dst.id) := fun hb =>
  h ((C106_scores ⟨by decide, by decide⟩ rfl 250 0 hPoints hm (by decide) (by decide) (by simp [hP, hPts])).2 (.inl ⟨t, ht, s, hs, hb⟩))

end Whole
end S2G
