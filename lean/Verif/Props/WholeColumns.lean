import Verif.Props.WholeRun

/-!
# C84, C85: the columns of the series
-/

namespace S2G
namespace Whole

open Pca Rotation Points Pipeline NodeEst Edges

variable {e f w : Nat}

/-- The rotated points, one dimension at a time. -/
theorem pointsOf_iff {lib : Lib w} {p : Parameters} {series : List (Fin (e + 1) → ℝ)} {pts : List Point} :
    PointsOf lib p series pts ↔ checkedSub p.patternLength p.latent = some (w + 1) ∧ p.patternLength - 1 ≤ series.length ∧
      ∃ (lo : Fin (e + 1) → ℝ) (comps : Fin (e + 1) → List (Row (w + 1))) (means : Fin (e + 1) → Row (w + 1))
        (R : Fin (e + 1) → Matrix (Fin 3) (Fin 3) ℝ),
        (∀ m, columnMin series m = some (lo m)) ∧ (∀ m, PcaOf lib p.nThreads (windows w p series m) (comps m) (means m)) ∧
        (∀ m, rotationMatrix (reduced (comps m) (means m) (fun _ => (p.latent : ℝ) * lo m)) = some (R m)) ∧
        applyRotation R ((List.range (series.length - (p.patternLength - 1))).map
          (fun i m => reduced (comps m) (means m) ((windows w p series m).getD i 0))) series.length 1 0 p.rate = some pts := by
  constructor
  · rintro ⟨lo, hi, ps, ref, comps, means, first, R, hmm, hw, href, hps, hpca, hfirst, hR, hpts⟩
    obtain ⟨hN, rfl⟩ := build_some hw hps
    obtain ⟨ref0, hr3, hr4⟩ := reference_some hw lo hi
    rw [href] at hr3
    cases Option.some.inj hr3
    rw [hfirst] at hr4
    cases Option.some.inj hr4
    simp only [getD_replicate_fin] at hR
    rw [List.length_map, List.length_range] at hpts
    exact ⟨hw, hN, lo, comps, means, R, fun m => (hmm m).1, hpca, hR, hpts⟩
  · rintro ⟨hw, hN, lo, comps, means, R, hlo, hpca, hR, hpts⟩
    obtain ⟨hle, hw'⟩ := checkedSub_some hw
    have hne : series ≠ [] := by
      rintro rfl
      exact absurd (hlo 0) (by simp [columnMin, Kde.colMin])
    choose hi hhi using fun m => columnMax_some hne m
    obtain ⟨ref, hr1, hr2⟩ := reference_some hw lo hi
    refine ⟨lo, hi, _, ref, comps, means, _, R, fun m => ⟨hlo m, hhi m⟩, hw, hr1, PhaseSpace.C14_windowed_sums p _ (by omega) hN, hpca, hr2,
      fun m => ?_, ?_⟩
    · simp only [getD_replicate_fin]
      exact hR m
    · rw [List.length_map, List.length_range]
      exact hpts

/-- The rows of a dimension depend on its column only. -/
theorem windows_congr {p : Parameters} {s1 : List (Fin (e + 1) → ℝ)} {s2 : List (Fin (f + 1) → ℝ)} {m : Fin (e + 1)} {m' : Fin (f + 1)}
    (h : s1.map (· m) = s2.map (· m')) : windows w p s1 m = windows w p s2 m' := by
  have hl : s1.length = s2.length := by simpa using congrArg List.length h
  unfold windows column
  rw [hl, List.map_map, List.map_map]
  apply List.map_congr_left
  intro i _
  funext j
  simp only [Function.comp]
  unfold PhaseSpace.specPoint
  have hs : ∀ n, PhaseSpace.series s1 n m = PhaseSpace.series s2 n m' := by
    intro n
    have := congrArg (fun l => l.getD n 0) h
    simp only [PhaseSpace.series]
    simp only [List.getD_eq_getElem?_getD, List.getElem?_map] at this ⊢
    by_cases hn : n < s1.length
    · rw [List.getElem?_eq_getElem hn, List.getElem?_eq_getElem (by omega)] at this ⊢
      exact this
    · rw [List.getElem?_eq_none (by omega), List.getElem?_eq_none (by omega)]
      rfl
  simp only [List.getD_eq_getElem?_getD, List.getElem?_map]
  cases (List.range (p.patternLength - p.latent))[j.val]? with
  | none => rfl
  | some k =>
    simp only [Option.map_some, Option.getD_some, Finset.sum_apply, hs]

theorem columnMin_congr {s1 : List (Fin (e + 1) → ℝ)} {s2 : List (Fin (f + 1) → ℝ)} {m : Fin (e + 1)} {m' : Fin (f + 1)}
    (h : s1.map (· m) = s2.map (· m')) : columnMin s1 m = columnMin s2 m' := by
  unfold columnMin
  rw [h]

/-! ### The first two columns -/

/-- Same id, same segment, same first two coordinates. -/
def Alike (x y : Point) : Prop :=
  x.id = y.id ∧ x.segment = y.segment ∧ x.coordinates[0]? = y.coordinates[0]? ∧ x.coordinates[1]? = y.coordinates[1]?

theorem PointsOf.alike {lib : Lib w} (hqr : ∀ A, gram (lib.qr A) = gram A) {p : Parameters} (hr : 0 < p.rate)
    {s1 : List (Fin (e + 2) → ℝ)} {s2 : List (Fin (f + 2) → ℝ)} (h0 : s1.map (· 0) = s2.map (· 0)) (h1 : s1.map (· 1) = s2.map (· 1))
    (hs0 : Settled lib (windows w p s1 0)) (hs1 : Settled lib (windows w p s1 1)) {t : Nat} {pts1 pts2 : List Point}
    (hp1 : PointsOf lib p s1 pts1) (hp2 : PointsOf lib { p with nThreads := t } s2 pts2) : List.Forall₂ Alike pts1 pts2 := by
  obtain ⟨hw, hN, lo, comps, means, R, hlo, hpca, hR, hpts⟩ := pointsOf_iff.1 hp1
  obtain ⟨_, _, lo', comps', means', R', hlo', hpca', hR', hpts'⟩ := pointsOf_iff.1 hp2
  have hl : s1.length = s2.length := by simpa using congrArg List.length h0
  have key : ∀ (m : Fin (e + 2)) (m' : Fin (f + 2)), s1.map (· m) = s2.map (· m') → Settled lib (windows w p s1 m) →
      comps m = comps' m' ∧ means m = means' m' ∧ R m = R' m' ∧ windows w p s1 m = windows w p s2 m' := by
    intro m m' h hs
    have hwin : windows w p s1 m = windows w p s2 m' := windows_congr (w := w) h
    have h2 : PcaOf lib t (windows w p s1 m) (comps' m') (means' m') := by
      rw [hwin]
      exact hpca' m'
    have e1 := (pcaOf_iff hqr hs).1 (hpca m)
    have e2 := (pcaOf_iff hqr hs).1 h2
    have hc : comps m = comps' m' := Option.some.inj (e1.2.2.2.symm.trans e2.2.2.2)
    have hm : means m = means' m' := e1.2.2.1.trans e2.2.2.1.symm
    have hlo2 : lo m = lo' m' := by
      have := hlo m
      rw [columnMin_congr h, hlo' m'] at this
      exact (Option.some.inj this).symm
    refine ⟨hc, hm, ?_, hwin⟩
    have := hR m
    rw [hc, hm, hlo2] at this
    exact Option.some.inj (this.symm.trans (hR' m'))
  obtain ⟨hc0, hm0, hR0, hw0⟩ := key 0 0 h0 hs0
  obtain ⟨hc1, hm1, hR1, hw1⟩ := key 1 1 h1 hs1
  obtain ⟨q1, hq1, hl1, ha1⟩ := C67_points R ((List.range (s1.length - (p.patternLength - 1))).map
    (fun i m => reduced (comps m) (means m) ((windows w p s1 m).getD i 0))) (n := s1.length) (k := 1) (i := 0) (rate := p.rate)
    (by omega) (by omega) hr
  cases Option.some.inj (hq1.symm.trans hpts)
  obtain ⟨q2, hq2, hl2, ha2⟩ := C67_points R' ((List.range (s2.length - (p.patternLength - 1))).map
    (fun i m => reduced (comps' m) (means' m) ((windows w p s2 m).getD i 0))) (n := s2.length) (k := 1) (i := 0) (rate := p.rate)
    (by omega) (by omega) hr
  cases Option.some.inj (hq2.symm.trans hpts')
  rw [List.forall₂_iff_get]
  simp only [List.length_map, List.length_range] at hl1 hl2
  refine ⟨by omega, fun i hi1 hi2 => ?_⟩
  simp only [List.get_eq_getElem]
  obtain ⟨row1, hrow1, hid1, _, hco1, x1, y1, hx1, hy1, hseg1⟩ := ha1 i pts1[i] (List.getElem?_eq_getElem hi1)
  obtain ⟨row2, hrow2, hid2, _, hco2, x2, y2, hx2, hy2, hseg2⟩ := ha2 i pts2[i] (List.getElem?_eq_getElem hi2)
  rw [List.getElem?_map, List.getElem?_range (by omega)] at hrow1 hrow2
  simp only [Option.map_some, Option.some.injEq] at hrow1 hrow2
  have a0 := (hco1 0).1
  have b0 := (hco2 0).1
  have a1 := (hco1 1).1
  have b1 := (hco2 1).1
  have e0 : (planar R row1 0).1 = (planar R' row2 0).1 := by
    unfold planar
    rw [← hrow1, ← hrow2]
    simp only
    rw [hc0, hm0, hR0, hw0]
  have e1 : (planar R row1 1).1 = (planar R' row2 1).1 := by
    unfold planar
    rw [← hrow1, ← hrow2]
    simp only
    rw [hc1, hm1, hR1, hw1]
  simp only [Fin.val_zero, Fin.val_one] at a0 b0 a1 b1
  have c0 : pts1[i].coordinates[0]? = pts2[i].coordinates[0]? := by rw [a0, b0, e0]
  have c1 : pts1[i].coordinates[1]? = pts2[i].coordinates[1]? := by
    rw [show pts1[i].coordinates[1]? = some (planar R row1 1).1 from a1, show pts2[i].coordinates[1]? = some (planar R' row2 1).1 from b1, e1]
  refine ⟨by omega, ?_, c0, c1⟩
  have f0 : x1 = x2 := Option.some.inj (hx1.symm.trans (c0.trans hx2))
  have f1 : y1 = y2 := Option.some.inj (hy1.symm.trans (c1.trans hy2))
  rw [f0, f1] at hseg1
  exact Option.some.inj (hseg1.symm.trans hseg2)

theorem alike_toPt {xs ys : List Point} (h : List.Forall₂ Alike xs ys) : xs.map toPt = ys.map toPt := by
  induction h with
  | nil => rfl
  | cons h _ ih =>
    rw [List.map_cons, List.map_cons, ih]
    unfold toPt
    rw [h.1, h.2.1]

theorem mirrorPoint_alike {rate : Nat} {x y x' y' : Point} (h : Alike x y) (hx : mirrorPoint rate x = some x') (hy : mirrorPoint rate y = some y') :
    Alike x' y' := by
  obtain ⟨i1, ⟨c, d, cs, e1, e2, e3⟩, _⟩ := (C72_mirror x).2 x' hx
  obtain ⟨i2, ⟨c', d', cs', e1', e2', e3'⟩, _⟩ := (C72_mirror y).2 y' hy
  obtain ⟨h1, h2, h3, h4⟩ := h
  rw [e1, e1'] at h3 h4
  simp only [List.getElem?_cons_zero, List.getElem?_cons_succ, Option.some.injEq] at h3 h4
  subst h3 h4
  refine ⟨by rw [i1, i2, h1], Option.some.inj (e3.symm.trans e3'), ?_, ?_⟩
  · rw [e2, e2']
    rfl
  · rw [e2, e2']
    rfl

theorem mirrored_alike {rate : Nat} {xs ys : List Point} (h : List.Forall₂ Alike xs ys) : ∀ {xs' ys' : List Point},
    xs.mapM (mirrorPoint rate) = some xs' → ys.mapM (mirrorPoint rate) = some ys' → List.Forall₂ Alike xs' ys' := by
  induction h with
  | nil =>
    intro xs' ys' h1 h2
    cases h1
    cases h2
    exact .nil
  | @cons x y xs ys h _ ih =>
    intro xs' ys' h1 h2
    rw [mapM_eq_some] at h1 h2
    cases h1 with
    | cons a1 b1 =>
      cases h2 with
      | cons a2 b2 => exact .cons (mirrorPoint_alike h a1 a2) (ih ((mapM_eq_some _ _ _).2 b1) ((mapM_eq_some _ _ _).2 b2))

theorem mirrorPt_alike {xs ys : List Point} (h : List.Forall₂ Alike xs ys) : mirrorPt xs = mirrorPt ys := by
  funext a
  unfold mirrorPt
  have : (xs.find? (fun x => x.id = a.id)).map toPt = (ys.find? (fun x => x.id = a.id)).map toPt := by
    induction h with
    | nil => rfl
    | @cons x y xs ys h _ ih =>
      rw [List.find?_cons, List.find?_cons, h.1]
      by_cases hy : y.id = a.id
      · simp only [hy, decide_true, Option.map_some]
        unfold toPt
        rw [h.1, h.2.1]
      · simp only [hy, decide_false]
        exact ih
  rw [this]

theorem track_alike {p : Parameters} {m1 m2 pts1 pts2 : List Point} (hm : List.Forall₂ Alike m1 m2) (h : List.Forall₂ Alike pts1 pts2) :
    track p m1 pts1 = track p m2 pts2 := by
  unfold track
  rw [alike_toPt h, mirrorPt_alike hm]

/-- C84: the segments of the points (with or without mirroring) depend on the first two columns only. Two series, possibly with different numbers of
columns, which agree in the first two columns have points with the same ids and segments, whatever the other columns hold. -/
theorem C84_segments {lib : Lib w} (hqr : ∀ A, gram (lib.qr A) = gram A) {p : Parameters} (hr : 0 < p.rate)
    {s1 : List (Fin (e + 2) → ℝ)} {s2 : List (Fin (f + 2) → ℝ)} (h0 : s1.map (· 0) = s2.map (· 0)) (h1 : s1.map (· 1) = s2.map (· 1))
    (hs0 : Settled lib (windows w p s1 0)) (hs1 : Settled lib (windows w p s1 1)) {t : Nat} {pts1 pts2 m1 m2 : List Point}
    (hp1 : PointsOf lib p s1 pts1) (hp2 : PointsOf lib { p with nThreads := t } s2 pts2)
    (hm1 : pts1.mapM (mirrorPoint p.rate) = some m1) (hm2 : pts2.mapM (mirrorPoint p.rate) = some m2) :
    pts1.map (fun x => (x.id, x.segment)) = pts2.map (fun x => (x.id, x.segment)) ∧
      m1.map (fun x => (x.id, x.segment)) = m2.map (fun x => (x.id, x.segment)) := by
  have h := hp1.alike hqr hr h0 h1 hs0 hs1 hp2
  have key : ∀ {xs ys : List Point}, List.Forall₂ Alike xs ys → xs.map (fun x => (x.id, x.segment)) = ys.map (fun x => (x.id, x.segment)) := by
    intro xs ys h
    induction h with
    | nil => rfl
    | cons h _ ih => rw [List.map_cons, List.map_cons, ih, h.1, h.2.1]
  exact ⟨key h, key (mirrored_alike h hm1 hm2)⟩

/-- The visited segments with the points, without the groups. -/
def visits (W : List Node) : List (Nat × Nat) := W.map (fun v => (v.fromId, v.seg))

/-- C84: what a run delivers is the normalised vector of a walk through the nodes; for two series which agree in the first two columns the walks
visit the same segments at the same times, so that they differ in the groups of the nodes only. In particular they deliver the same vector if the
crossings are grouped in the same way. -/
theorem C84_walks {lib : Lib w} (hqr : ∀ A, gram (lib.qr A) = gram A) (resolution order : Nat) {p : Parameters} (hp : p.WellFormed)
    (hn : p.nClusterNodes = 1) {s1 : List (Fin (e + 2) → ℝ)} {s2 : List (Fin (f + 2) → ℝ)} (h0 : s1.map (· 0) = s2.map (· 0))
    (h1 : s1.map (· 1) = s2.map (· 1)) (hs0 : Settled lib (windows w p s1 0)) (hs1 : Settled lib (windows w p s1 1))
    (hq : 1 ≤ p.queryLength) (ht : 1 ≤ p.nThreads) (hsl : p.nThreads + p.queryLength + p.patternLength ≤ s1.length + 1)
    {v1 v2 : Option (List (Option ℚ))} (hv1 : Delivers lib resolution order p s1 v1) (hv2 : Delivers lib resolution order p s2 v2) :
    ∃ (pts1 pts2 m1 m2 : List Point) (ts : List Trans) (n : Nat) (lab1 lab2 : Nat → Nat → Nat),
      PointsOf lib p s1 pts1 ∧ PointsOf lib p s2 pts2 ∧ pts1.mapM (mirrorPoint p.rate) = some m1 ∧ pts2.mapM (mirrorPoint p.rate) = some m2 ∧
      track p m1 pts1 = ts ∧ track p m2 pts2 = ts ∧
      Labelled (clustering resolution order p (e + 1)) (fun x => (place p (e + 1) m1 pts1 x).getD []) p.rate ts lab1 ∧
      Labelled (clustering resolution order p (f + 1)) (fun x => (place p (f + 1) m2 pts2 x).getD []) p.rate ts lab2 ∧
      v1 = Scoring.normalize (vector (pairs (walk p.rate lab1 ts)) p.queryLength n) ∧
      v2 = Scoring.normalize (vector (pairs (walk p.rate lab2 ts)) p.queryLength n) ∧
      visits (walk p.rate lab1 ts) = visits (walk p.rate lab2 ts) ∧ (SameGroups p.rate ts lab1 lab2 → v1 = v2) := by
  have hr : 0 < p.rate := by have := hp.1; have := hp.2; omega
  have hl : s1.length = s2.length := by simpa using congrArg List.length h0
  obtain ⟨pts1, hp1, _, m1, lab1, hm1, hlab1, rfl⟩ := (C72_result resolution order hp hn hq ht hsl v1).1 hv1
  obtain ⟨pts2, hp2, _, m2, lab2, hm2, hlab2, rfl⟩ := (C72_result resolution order hp hn hq ht (by omega) v2).1 hv2
  have h := hp1.alike hqr hr h0 h1 hs0 hs1 (t := p.nThreads) hp2
  have hm := mirrored_alike h hm1 hm2
  have htr := track_alike (p := p) hm h
  have hlen := h.length_eq
  refine ⟨pts1, pts2, m1, m2, track p m1 pts1, pts1.length - p.queryLength, lab1, lab2, hp1, hp2, hm1, hm2, rfl, htr.symm, hlab1,
    by rw [htr]; exact hlab2, rfl, by rw [htr, hlen], ?_, fun hg => ?_⟩
  · unfold visits
    rw [walk_rename p.rate lab1 lab2, List.map_map]
    rfl
  · rw [← htr, ← hlen, vector_sameGroups hg]

end Whole
end S2G
