import Verif.Props.CrossingFails
import Verif.Props.Periodic

/-!
# C107: where the crossings are, and when a run delivers scores

The calculation inverts a matrix whose entries depend on all transitions of the node (`max_value`). Its result does not: it has a formula in the two
points of the step and the angle of the border.
-/

namespace S2G
namespace Geometry

/-- Signed distance of `(x, y)` from the line through the origin at angle `θ` (positive: the line is ahead within half a turn). -/
noncomputable def offset (θ x y : ℝ) : ℝ := x * Real.sin θ - y * Real.cos θ

/-- How far along the step from `(x0, y0)` to `(x1, y1)` the line at angle `θ` is met. -/
noncomputable def share (θ x0 y0 x1 y1 : ℝ) : ℝ := offset θ x0 y0 / (offset θ x0 y0 - offset θ x1 y1)

theorem onBorderLine_iff {rate s : Nat} {x0 y0 x1 y1 : ℝ} : OnBorderLine rate s x0 y0 x1 y1 ↔
    offset (2 * Real.pi * s / rate) x0 y0 = 0 ∧ offset (2 * Real.pi * s / rate) x1 y1 = 0 := by
  unfold OnBorderLine offset
  rw [sub_eq_zero, sub_eq_zero]

/-- **C107.** The result for a kept step and a border it crosses, whatever the other transitions of the node. -/
theorem C107_formula {m : Nat} {ts : List ((Fin (m + 2) → ℝ) × (Fin (m + 2) → ℝ))} {t : (Fin (m + 2) → ℝ) × (Fin (m + 2) → ℝ)} (hmem : t ∈ ts)
    {rate f d k j : Nat} (hf : SegmentId.pointSegment (t.1 0) (t.1 1) rate = some f)
    (hd : SegmentId.pointSegment (t.2 0) (t.2 1) rate = some d) (hfr : f < rate) (hk : Trans.ForwardBy rate f d k) (hj : 1 ≤ j) (hjk : j ≤ k)
    (x : Fin (m + 2) → ℝ) :
    intersectionPoint ts rate t ((f + j) % rate) = some x ↔ ¬OnBorderLine rate ((f + j) % rate) (t.1 0) (t.1 1) (t.2 0) (t.2 1) ∧
      ∀ i, x i = t.1 i + share (2 * Real.pi * ((f + j) % rate : Nat) / rate) (t.1 0) (t.1 1) (t.2 0) (t.2 1) * (t.2 i - t.1 i) := by
  have hfail := C106_fails_iff hmem hf hd hfr hk hj hjk
  have key : ∀ y, intersectionPoint ts rate t ((f + j) % rate) = some y →
      ∀ i, y i = t.1 i + share (2 * Real.pi * ((f + j) % rate : Nat) / rate) (t.1 0) (t.1 1) (t.2 0) (t.2 1) * (t.2 i - t.1 i) := by
    intro y hy
    have hnp : ¬ ((t.2 0 - t.1 0) * Real.sin (borderAngle rate ((f + j) % rate)) =
        (t.2 1 - t.1 1) * Real.cos (borderAngle rate ((f + j) % rate))) := by
      intro h
      have : intersectionPoint ts rate t ((f + j) % rate) = none := (C31_border_none_iff _ _ _ _ _).2 (.inr h)
      rw [this] at hy
      cases hy
    obtain ⟨⟨a, ha⟩, hpl, _⟩ := C31_sound hy
    have hb := inPlane_border hpl
    rw [ha 0, ha 1] at hb
    have : share (2 * Real.pi * ((f + j) % rate : Nat) / rate) (t.1 0) (t.1 1) (t.2 0) (t.2 1) = a := by
      unfold share offset
      unfold borderAngle at hb hnp
      rw [div_eq_iff]
      · linarith
      · intro h
        exact hnp (by linarith)
    rw [this]
    exact ha
  constructor
  · intro h
    refine ⟨fun hb => ?_, key x h⟩
    rw [hfail.2 hb] at h
    cases h
  · rintro ⟨h1, h2⟩
    obtain ⟨y, hy⟩ := Option.ne_none_iff_exists'.1 (fun h => h1 (hfail.1 h))
    rw [hy, Option.some.injEq]
    funext i
    rw [key y hy i, h2 i]

/-- **C107.** In one dimension the distance of the crossing is the area spanned by the two points over the difference of their offsets. -/
theorem C107_univariate {θ : ℝ} {u v x : Fin (1 + 1) → ℝ} (h0 : 0 ≤ offset θ (u 0) (u 1)) (h1 : offset θ (v 0) (v 1) ≤ 0)
    (hne : offset θ (u 0) (u 1) ≠ offset θ (v 0) (v 1)) (hx : ∀ i, x i = u i + share θ (u 0) (u 1) (v 0) (v 1) * (v i - u i)) :
    distances (d := 1) x 0 = |u 0 * v 1 - u 1 * v 0| / (offset θ (u 0) (u 1) - offset θ (v 0) (v 1)) := by
  have hpos : 0 < offset θ (u 0) (u 1) - offset θ (v 0) (v 1) :=
    lt_of_le_of_ne (by linarith) (fun h => hne (by linarith))
  have hsc := Real.sin_sq_add_cos_sq θ
  have e0 : x 0 = (u 0 * v 1 - u 1 * v 0) / (offset θ (u 0) (u 1) - offset θ (v 0) (v 1)) * Real.cos θ := by
    rw [hx 0]
    unfold share
    field_simp
    unfold offset
    ring
  have e1 : x 1 = (u 0 * v 1 - u 1 * v 0) / (offset θ (u 0) (u 1) - offset θ (v 0) (v 1)) * Real.sin θ := by
    rw [hx 1]
    unfold share
    field_simp
    unfold offset
    ring
  unfold distances
  have a : (Fin.castAdd 1 0 : Fin (1 + 1)) = 0 := rfl
  have b : (Fin.natAdd 1 0 : Fin (1 + 1)) = 1 := rfl
  rw [a, b, e0, e1]
  have : ∀ r : ℝ, (r * Real.cos θ) ^ 2 + (r * Real.sin θ) ^ 2 = r ^ 2 := fun r => by linear_combination r ^ 2 * hsc
  rw [this, Real.sqrt_sq_eq_abs, abs_div, abs_of_pos hpos]

end Geometry

namespace Whole
open Pca Rotation Points Pipeline Contribution SegState Kde Geometry
variable {e w : Nat}

/-- Coordinate `i` of the place where the step from `a` to `b` meets the line at angle `θ`. -/
noncomputable def meets (θ : ℝ) (a b : List ℝ) (i : Nat) : ℝ :=
  a.getD i 0 + share θ (a.getD 0 0) (a.getD 1 0) (b.getD 0 0) (b.getD 1 0) * (b.getD i 0 - a.getD i 0)

/-- The distance of that place in dimension `c` of `d`. -/
noncomputable def spot (θ : ℝ) (a b : List ℝ) (d c : Nat) : ℝ := √(meets θ a b c ^ 2 + meets θ a b (d + c) ^ 2)

/-- The distance of the crossing of a step with a border in dimension `c` of `d`; `K` are the points. -/
noncomputable def spotOf (rate d : Nat) (K : List Point) (x : Inter) (c : Nat) : ℝ :=
  spot (2 * Real.pi * x.2 / rate) (coordsOf K x.1.src.id) (coordsOf K x.1.dst.id) d c

/-- Both points of a step are on the line of a border. -/
def Lost (rate : Nat) (K : List Point) (t : Trans) (s : Nat) : Prop :=
  OnBorderLine rate s (xOf K t.src.id) (yOf K t.src.id) (xOf K t.dst.id) (yOf K t.dst.id)

/-- **C107 (runs).** The distances of a crossing which is found. -/
theorem C107_place {p : Parameters} (hr : 0 < p.rate) {pts mirrored : List Point} (hm : pts.mapM (mirrorPoint p.rate) = some mirrored)
    (hnum : Numbered p.rate e pts) (hpl : Placed p.rate pts) {t : Trans} (ht : t ∈ track p mirrored pts) {s : Nat}
    (hs : s ∈ t.intersectionSegments p.rate) (hl : ¬Lost p.rate (corrected p mirrored pts) t s) :
    place p e mirrored pts (t, s) = some ((List.range (e + 1)).map (spotOf p.rate (e + 1) (corrected p mirrored pts) (t, s))) := by
  obtain ⟨_, h1, h2, h3, k, j, hk, hj1, hj2, rfl⟩ := kept hr hm hnum hpl ht hs
  unfold place interCoord
  rw [(C107_formula (m := 2 * e) (t := ends (corrected p mirrored pts) t) (List.mem_map_of_mem ht) h1 h2 h3 hk hj1 hj2
    (fun i => meets (2 * Real.pi * ((t.src.seg + j) % p.rate : Nat) / p.rate) (coordsOf (corrected p mirrored pts) t.src.id)
      (coordsOf (corrected p mirrored pts) t.dst.id) i)).2 ⟨hl, fun i => rfl⟩]
  rw [Option.map_some, Option.some.injEq]
  apply List.ext_getElem
  · simp
  · intro c _ _
    rw [List.getElem_ofFn, List.getElem_map, List.getElem_range]
    rfl

/-- **C107 (runs).** When a run on one node delivers scores, in terms of its points: every crossing is found, the crossings of every border which is
crossed at least twice differ in every dimension, and the first step is not one which the edge estimation cannot label (C40). -/
theorem C107_delivers {lib : Lib w} {p : Parameters} (hp : p.WellFormed) (hn : p.nClusterNodes = 1) {resolution order : Nat} (hres : 1 ≤ resolution)
    (hord : order ≤ resolution) {series : List (Fin (e + 1) → ℝ)} (hq : 1 ≤ p.queryLength) (ht : 1 ≤ p.nThreads)
    (hsl : p.nThreads + p.queryLength + p.patternLength ≤ series.length + 1) :
    (∃ v, Delivers lib resolution order p series v) ↔ ∃ pts mirrored, PointsOf lib p series pts ∧ pts.mapM (mirrorPoint p.rate) = some mirrored ∧
      (∀ t ∈ track p mirrored pts, ∀ s ∈ t.intersectionSegments p.rate, ¬Lost p.rate (corrected p mirrored pts) t s) ∧
      (∀ s < p.rate, 2 ≤ (crossings p.rate (track p mirrored pts) s).length → ∀ c ≤ e, ∃ x ∈ crossings p.rate (track p mirrored pts) s,
        ∃ y ∈ crossings p.rate (track p mirrored pts) s,
          spotOf p.rate (e + 1) (corrected p mirrored pts) x c ≠ spotOf p.rate (e + 1) (corrected p mirrored pts) y c) ∧
      ∀ t ∈ (track p mirrored pts).head?, t.src.seg + 2 = p.rate → t.src.seg ≤ t.dst.seg := by
  have hr : 0 < p.rate := by have := hp.1; have := hp.2; omega
  have key : ∀ pts mirrored, PointsOf lib p series pts → pts.mapM (mirrorPoint p.rate) = some mirrored →
      (score resolution order p e series.length pts ≠ none ↔
      (∀ t ∈ track p mirrored pts, ∀ s ∈ t.intersectionSegments p.rate, ¬Lost p.rate (corrected p mirrored pts) t s) ∧
      (∀ s < p.rate, 2 ≤ (crossings p.rate (track p mirrored pts) s).length → ∀ c ≤ e, ∃ x ∈ crossings p.rate (track p mirrored pts) s,
        ∃ y ∈ crossings p.rate (track p mirrored pts) s,
          spotOf p.rate (e + 1) (corrected p mirrored pts) x c ≠ spotOf p.rate (e + 1) (corrected p mirrored pts) y c) ∧
      ∀ t ∈ (track p mirrored pts).head?, t.src.seg + 2 = p.rate → t.src.seg ≤ t.dst.seg) := by
    intro pts mirrored hpts hm
    obtain ⟨hl, _, hnum⟩ := hpts.numbered hr
    have hpl := hpts.placed hr
    rw [Ne, C76_crash_iff hp hn hres hord hm hnum (by omega) hq ht (by omega), not_or, not_or]
    have e1 : (¬∃ t ∈ track p mirrored pts, ∃ s ∈ t.intersectionSegments p.rate, place p e mirrored pts (t, s) = none) ↔
        ∀ t ∈ track p mirrored pts, ∀ s ∈ t.intersectionSegments p.rate, ¬Lost p.rate (corrected p mirrored pts) t s := by
      constructor
      · intro h t ht s hs hlost
        exact h ⟨t, ht, s, hs, (C106_place hr hm hnum hpl ht hs).2 hlost⟩
      · rintro h ⟨t, ht, s, hs, hnone⟩
        exact h t ht s hs ((C106_place hr hm hnum hpl ht hs).1 hnone)
    rw [e1]
    refine and_congr_right fun hlost => and_congr ?_ ?_
    · have hat : ∀ s, ∀ x ∈ crossings p.rate (track p mirrored pts) s, ∀ c ≤ e, (place p e mirrored pts x).map (fun l => l[c]?) =
          some (some (spotOf p.rate (e + 1) (corrected p mirrored pts) x c)) := by
        intro s x hx c hc
        obtain ⟨h1, h3⟩ := Cluster.mem_crossings hx
        have h := C107_place (t := x.1) (s := x.2) hr hm hnum hpl h1 h3 (hlost _ h1 _ h3)
        rw [show (x.1, x.2) = x from rfl] at h
        rw [h, Option.map_some]
        simp [Nat.lt_succ_of_le hc]
      constructor
      · intro h s hs h2 c hc
        by_contra hcon
        refine h ⟨s, hs, h2, c, hc, fun x hx y hy => ?_⟩
        rw [hat s x hx c hc, hat s y hy c hc]
        congr 2
        by_contra hne
        exact hcon ⟨x, hx, y, hy, hne⟩
      · rintro h ⟨s, hs, h2, c, hc, hall⟩
        obtain ⟨x, hx, y, hy, hne⟩ := h s hs h2 c hc
        have := hall x hx y hy
        rw [hat s x hx c hc, hat s y hy c hc] at this
        exact hne (Option.some.inj (Option.some.inj this))
    · constructor
      · intro h t ht h2
        by_contra hlt
        exact h ⟨t, ht, h2, by omega⟩
      · rintro h ⟨t, ht, h2, h3⟩
        have := h t ht h2
        omega
  constructor
  · rintro ⟨v, hv⟩
    obtain ⟨pts, h1, h2, _⟩ := (C72_result resolution order hp hn hq ht hsl v).1 hv
    obtain ⟨hl, _, hnum⟩ := h1.numbered hr
    obtain ⟨m, hm, _⟩ := mirrored_some hr hnum.coords
    exact ⟨pts, m, h1, hm, (key pts m h1 hm).1 h2⟩
  · rintro ⟨pts, m, h1, hm, h⟩
    obtain ⟨s0, hs0⟩ := Option.ne_none_iff_exists'.1 ((key pts m h1 hm).2 h)
    obtain ⟨hl, _, hnum⟩ := h1.numbered hr
    obtain ⟨lab, _, h4⟩ := (C72_scores hp hn resolution order hm hnum (len := series.length) (by omega) hq ht (by omega)).2 s0 hs0
    obtain ⟨s, hs, hd⟩ := exists_delivered (fun s hs => (h4 s hs).2)
    exact ⟨_, pts, s0, s, h1, hs0, hs, by rw [hd]; exact List.mem_singleton_self _⟩

/-- The first step of the run of `HashedExample.lean` meets the border at a quarter turn at distance 1. -/
example {m : List Point} (hm : hPts.mapM (mirrorPoint hP.rate) = some m) : place hP 0 m hPts (⟨⟨0, 0⟩, ⟨1, 1⟩⟩, 1) = some [1] := by
  have ha : (2 * Real.pi * (1 : Nat) / hP.rate : ℝ) = Real.pi / 2 := by simp only [hP]; push_cast; ring
  rw [C107_place (by decide) hm (hPoints.numbered (by decide)).2.2 (hPoints.placed (by decide)) (by rw [hTrack]; decide) (by decide), hCorrected]
  · rw [show List.range (0 + 1) = [0] from rfl, List.map_singleton]
    unfold spotOf spot
    rw [ha]
    norm_num [meets, share, offset, coordsOf, hPts]
  · unfold Lost OnBorderLine
    rw [hCorrected, ha]
    norm_num [xOf, yOf, coordsOf, hPts]

example : distances (d := 1) ![0, 1] 0 = |(2 : ℝ) * 1 - 1 * 0| / (offset (Real.pi / 2) 2 1 - offset (Real.pi / 2) 0 1) :=
  C107_univariate (θ := Real.pi / 2) (u := ![2, 1]) (v := ![0, 1]) (x := ![0, 1]) (by norm_num [offset]) (by norm_num [offset])
    (by norm_num [offset]) (by intro i; fin_cases i <;> norm_num [share, offset])

/-- That run delivers scores, so its points have all three properties. -/
example : ∃ pts m, PointsOf hLib hP hSeries pts ∧ pts.mapM (mirrorPoint hP.rate) = some m ∧
    ∀ t ∈ track hP m pts, ∀ s ∈ t.intersectionSegments hP.rate, ¬Lost hP.rate (corrected hP m pts) t s := by
  obtain ⟨pts, m, h1, h2, h3, _⟩ := (C107_delivers (lib := hLib) (resolution := 250) (order := 0) ⟨by decide, by decide⟩ rfl (by omega) (by omega)
    (series := hSeries) (by decide) (by decide) (by simp [hP, hSeries])).1 (hDelivers (by omega) (by omega))
  exact ⟨pts, m, h1, h2, h3⟩

end Whole
end S2G
