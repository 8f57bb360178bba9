import Verif.Props.WholeExplained
import Verif.Props.WholeExample
import Verif.Props.HashedExample
import Verif.Props.KdePeaks

/-!
# Runs with `explainability`

The run of `WholeExample` crosses each segment once: it has scores, but panics at the explanation. The run of `HashedExample` is explained.
-/

namespace S2G
namespace Whole

open Pca Rotation Points Pipeline Contribution SegState

/-- C102: scores without an explanation, whatever the constants of the clustering. -/
theorem C102_panic_counterexample (resolution order : Nat) :
    (∃ l, Delivers exLib resolution order exP exSeries (some l) ∧ l.length = 3) ∧ Explains exLib resolution order exP exSeries none := by
  have hp : exP.WellFormed := ⟨by decide, by decide⟩
  obtain ⟨l, h1, h2⟩ := exDelivers_length resolution order
  refine ⟨⟨l, h1, h2⟩, ?_⟩
  obtain ⟨pts, h3, h4, _⟩ := (C72_result resolution order hp rfl (by decide) (by decide) (by simp [exP, exSeries]) _).1 h1
  have := PointsOf.unique exLib_gram exLib_settled h3 (t := 1) exPoints
  subst this
  obtain ⟨hl, _, hnum⟩ := h3.numbered (by decide)
  obtain ⟨m, hm, _⟩ := mirrored_some (rate := exP.rate) (by decide) hnum.coords
  refine ⟨exPts, h3, h4, C102_single hp rfl resolution order hm hnum (by simp [exPts, exSeries]) (by decide) (by simp [exPts, exP]) h4 ?_⟩
  intro s
  rw [exTrack]
  have hs : ∀ t ∈ exTs, t.intersectionSegments exP.rate = [t.src.seg + 1] := by decide
  unfold crossings
  rw [List.length_map]
  by_cases h : s = 1 ∨ s = 2 ∨ s = 3
  · rcases h with rfl | rfl | rfl <;> decide
  · rw [List.filter_eq_nil_iff.2]
    · simp
    · intro t ht hh
      have h5 := hs t ht
      have h6 : s ∈ t.intersectionSegments exP.rate := by simpa using hh
      rw [h5] at h6
      have h7 := List.mem_singleton.1 h6
      have h8 : ∀ t ∈ exTs, t.src.seg < 3 := by decide
      have := h8 t ht
      omega

theorem idx_inj {C : Type} {_ : DecidableEq C} {l : List C} {x y : C} (hx : x ∈ l) (h : l.idxOf x = l.idxOf y) : x = y :=
  (List.idxOf_inj hx).1 h

/-- Two distances get different centres. -/
theorem labels_two {resolution : Nat} (hr : 2 ≤ resolution) {labels : List Nat} (h : clustering resolution 0 hP 0 [[2], [1]] = some labels) : ∃ a b, labels = [a, b] ∧ a ≠ b := by
  classical
  unfold clustering at h
  obtain ⟨⟨labels, table⟩, hcl, rfl⟩ := Option.map_eq_some_iff.1 h
  obtain ⟨rows, h1, h2⟩ := (Kde.cluster_rows _ _ _ _ _ _).1 hcl
  obtain ⟨_, hmem, hlab, _⟩ := Contribution.extractLabels_eq h2
  unfold Kde.centerRows at h1
  obtain ⟨cols, h3, h1⟩ := Option.bind_eq_some_iff.1 h1
  obtain ⟨centers, h4, h5⟩ := Option.bind_eq_some_iff.1 h1
  have hcols : cols = [[2, 1]] := by
    simpa [List.range_succ] using h3.symm
  subst hcols
  rw [List.mapM_cons] at h4
  obtain ⟨cs, hcs, h4⟩ := Option.bind_eq_some_iff.1 h4
  have hcen : centers = [cs] := by simpa using h4.symm
  subst hcen
  obtain ⟨dens, _, hcs⟩ := Option.bind_eq_some_iff.1 hcs
  obtain ⟨x, y, hxy, hlt⟩ : ∃ x y, cs = [x, y] ∧ y < x := by
    unfold Kde.columnCenters at hcs
    simp only [Kde.colMin, Kde.colMax, Option.bind_eq_bind, Option.bind_some, List.foldl_cons, List.foldl_nil] at hcs
    obtain ⟨idx, hidx, hcs⟩ := Option.bind_eq_some_iff.1 hcs
    have hi : idx = List.range resolution := by
      unfold Kde.findPeakIndex Kde.peakLoop at hidx
      simp at hidx
      rw [← hidx]
      rw [List.filter_eq_self]
      intro i hi
      simp [List.mem_range.1 hi]
    subst hi
    rw [if_neg (by simp; omega)] at hcs
    rw [List.mapM_cons] at hcs
    obtain ⟨x, hx, hcs⟩ := Option.bind_eq_some_iff.1 hcs
    rw [List.mapM_cons] at hcs
    obtain ⟨l, hl, hcs⟩ := Option.bind_eq_some_iff.1 hcs
    obtain ⟨y, hy, hl⟩ := Option.bind_eq_some_iff.1 hl
    have hl : l = [y] := by simpa using hl.symm
    subst hl
    have hcs : cs = [x, y] := by simpa using hcs.symm
    refine ⟨x, y, hcs, ?_⟩
    have h12 : min (2 : ℝ) 1 = 1 ∧ max (2 : ℝ) 1 = 2 := by norm_num
    rw [h12.1, h12.2] at hx hy
    have a1 := (Kde.C36_closest hx).2.1 _ (List.mem_map_of_mem (List.mem_range.2 (show resolution - 1 < resolution by omega)))
    have a2 := (Kde.C36_closest hy).2.1 _ (List.mem_map_of_mem (List.mem_range.2 (show 0 < resolution by omega)))
    have g1 : |Kde.gridAt 1 2 resolution (resolution - 1) - 2| = 1 / 10 := by
      have h0 : ((resolution - 1 : Nat) : ℝ) ≠ 0 := by
        rw [Nat.cast_ne_zero]
        omega
      unfold Kde.gridAt
      simp only
      rw [mul_div_cancel₀ _ h0]
      norm_num
    have g2 : |Kde.gridAt 1 2 resolution 0 - 1| = 1 / 10 := by
      unfold Kde.gridAt
      norm_num
    rw [g1] at a1
    rw [g2] at a2
    have := (abs_le.1 a1).1
    have := (abs_le.1 a2).2
    linarith
  subst hxy
  have hrows : rows = [[x], [y]] := by
    simpa [List.range_succ] using h5.symm
  subst hrows
  refine ⟨_, _, hlab, ?_⟩
  intro hh
  beta_reduce at hh
  have := idx_inj ((hmem [x]).2 (by simp)) hh
  simp at this
  linarith

/-- The other run is explained, with a row for each score. -/
theorem hExplains : ∃ rows, Explains hLib 250 0 hP hSeries (some rows) ∧ rows.length = 7 := by
  have hp : hP.WellFormed := ⟨by decide, by decide⟩
  obtain ⟨v, h1⟩ := hDelivers (resolution := 250) (order := 0) (by omega) (by omega)
  obtain ⟨pts, h3, h4, _⟩ := (C72_result 250 0 hp rfl (by decide) (by decide) (by simp [hP, hSeries]) _).1 h1
  have := PointsOf.unique hLib_gram hLib_settled h3 (t := 1) hPoints
  subst this
  obtain ⟨hl, _, hnum⟩ := h3.numbered (by decide)
  obtain ⟨m, hm, _⟩ := mirrored_some (rate := hP.rate) (by decide) hnum.coords
  obtain ⟨lab, cen, b1, _, _, b2, b3⟩ := C102_points hp rfl 250 0 hm hnum (len := hSeries.length) (by simp [hPts, hSeries]) (by decide)
    (by simp [hPts, hP]) h4
  have hne : explanation 250 0 hP 0 hSeries.length hPts ≠ none := by
    intro h
    have h5 := b2.1 h ⟨⟨1, lab 0 1, 0⟩, ⟨2, lab 1 2, 1⟩⟩ (by
      rw [hTrack]
      unfold queryWindow
      rw [if_neg (fun hh => absurd (hh ⟨⟨1, lab 0 1, 0⟩, ⟨2, lab 1 2, 1⟩⟩ (List.mem_cons_self ..)) Nat.one_ne_zero)]
      exact List.mem_cons_self ..) (⟨⟨4, 0⟩, ⟨5, 1⟩⟩, 1) (by
      rw [hTrack]
      change _ ∈ crossings hP.rate hTs 1
      decide)
    have h6 := b1 1 (by decide) (by rw [hTrack]; decide)
    have h7 : clustering 250 0 hP 0 (segmentData hP 0 m hPts 1) = some [lab 4 1, lab 0 1] := by
      have : (crossings hP.rate (track hP m hPts) 1).reverse.map (fun x => lab x.1.src.id 1) = [lab 4 1, lab 0 1] := by
        rw [hTrack]
        rfl
      rw [← this]
      exact h6
    rw [(hData m).1] at h7
    obtain ⟨a, b, hab, hne⟩ := labels_two (by omega) h7
    simp at hab
    obtain ⟨rfl, rfl⟩ := hab
    exact hne h5
  obtain ⟨rows, hrows⟩ := Option.ne_none_iff_exists'.1 hne
  exact ⟨rows, ⟨hPts, h3, h4, hrows⟩, by simpa [hPts, hP] using b3 rows hrows⟩

/-! The theorems about explanations on these runs. -/
example : ∃ out, Explains hLib 250 0 { hP with nThreads := 2 } hSeries (some out) ∧ Explains hLib 250 0 hP (hSeries.map (· + fun _ => 7)) (some out) ∧
    Explains hLib 250 0 hP (hSeries.map ((3 : ℝ) • ·)) (some out) := by
  obtain ⟨out, h, _⟩ := hExplains
  exact ⟨out, (C102_threads hLib_gram ⟨by decide, by decide⟩ rfl hLib_settled (by decide) (by decide) (by simp [hP, hSeries]) (t := 2) (by decide)
    (by simp [hP, hSeries]) h).2 (by simp [Chunked, hP, hSeries, divCeil]), (C102_shift hLib 250 0 hP hSeries (fun _ => 7) _).2 h,
    (C102_unit hLib_gram 250 0 hLib_settled (by norm_num) _).2 h⟩
example : ∃ pts mirrored lab cen, PointsOf hLib hP hSeries pts ∧
    Labelled (clustering 250 0 hP 0) (fun x => (place hP 0 mirrored pts x).getD []) hP.rate (track hP mirrored pts) lab ∧
    Centred (clusters 250 0 hP 0) (vec 1) (fun x => (place hP 0 mirrored pts x).getD []) hP.rate (track hP mirrored pts) cen := by
  obtain ⟨out, h, _⟩ := hExplains
  obtain ⟨pts, m, lab, cen, h1, _, h2, h3, _⟩ := C102_explains ⟨by decide, by decide⟩ rfl (by decide) (by simp [hP, hSeries]) h
  exact ⟨pts, m, lab, cen, h1, h2, h3⟩

end Whole
end S2G
