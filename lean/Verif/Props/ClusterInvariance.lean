import Verif.Props.FileRun
import Verif.Props.WholeScale
import Verif.Props.WholeOrder

/-!
# C98: shifts, units of measurement, the order of columns and the last row in a cluster

C69, C70, C71 and C85 say that one node delivers the same vector when a constant is added to a column, when the series is multiplied by a
positive number, when the last row changes and when the columns from the third on are reordered. Here the same is said about a cluster, in
which all nodes and all schedules are involved.
-/

namespace S2G
namespace Joint
open Stage Cluster Whole Points Pca Rotation LoadNet Manager

variable {e w : Nat} {lib : Lib w} {resolution order : Nat} {p : Parameters} {series series' : List (Fin (e + 1) → ℝ)} {q m q' m' : List Point}

local notation "N" => Parameters.nClusterNodes p

/-- The conditions of C75 and C87 for a series: `q` are the points of one node, `m` the mirrored ones. -/
structure Suited (lib : Lib w) (p : Parameters) (series : List (Fin (e + 1) → ℝ)) (q m : List Point) : Prop where
  settled : ∀ m, Settled lib (windows w p series m)
  wf : p.WellFormed
  two : 2 ≤ p.nClusterNodes
  three : p.nClusterNodes ≤ 3
  fits : Fits p series.length
  thread : 0 < p.nThreads
  chunks : ∀ i < p.nClusterNodes, 0 < count p series.length i ∧ Chunked p.nThreads (count p series.length i)
  points : PointsOf lib p series q
  mirrored : q.mapM (mirrorPoint p.rate) = some m
  decision : SameDecision p series.length q
  good : Good p series.length (Cluster.parts p series.length q m)

theorem Suited.one_node (h : Suited lib p series q m) (hqr : ∀ A, gram (lib.qr A) = gram A) {i : Nat} (hi : i < N)
    (v : Option (List (Option ℚ))) :
    FileDelivers lib resolution order p series i v ↔ Whole.Delivers lib resolution order { p with nClusterNodes := 1 } series v :=
  C87_one_node hqr h.settled h.wf h.two h.three h.fits h.thread h.chunks h.points h.mirrored h.decision h.good hi v

/-- Another series whose points have the same ids and lie in the same segments. -/
theorem Suited.congr (h : Suited lib p series q m) (hl : series'.length = series.length) (hs : ∀ m, Settled lib (windows w p series' m))
    (hq : PointsOf lib p series' q') (hm : q'.mapM (mirrorPoint p.rate) = some m') (e1 : q'.map toPt = q.map toPt)
    (e2 : m'.map toPt = m.map toPt) : Suited lib p series' q' m' where
  settled := hs
  wf := h.wf
  two := h.two
  three := h.three
  fits := hl ▸ h.fits
  thread := h.thread
  chunks := hl ▸ h.chunks
  points := hq
  mirrored := hm
  decision := by
    unfold SameDecision
    rw [e1, hl]
    exact h.decision
  good := by
    have : Cluster.parts p series'.length q' m' = Cluster.parts p series.length q m := by
      funext i
      unfold Cluster.parts Whole.corrected
      rw [hl, e1]
      split
      · rw [e2]
      · rw [e1]
    rw [this, hl]
    exact h.good

theorem centred_shift {d : Nat} (C : Row d) {D : List (Row d)} (hD : D ≠ []) :
    (D.map (· + C)).map (fun x => x - mean (D.map (· + C))) = D.map (fun x => x - mean D) := by
  have : mean (D.map (· + C)) = mean D + C := by
    have hn : (D.length : ℝ) ≠ 0 := by
      rw [Nat.cast_ne_zero]
      exact fun h => hD (List.length_eq_zero_iff.1 h)
    funext b
    unfold mean
    rw [List.map_map, List.length_map, Pi.add_apply]
    have : ((fun x : Row d => x b) ∘ fun y => y + C) = fun y => y b + C b := rfl
    rw [this, List.sum_map_add, List.map_const', List.sum_replicate, nsmul_eq_mul, add_div, mul_div_cancel_left₀ _ hn]
  rw [this, List.map_map]
  apply List.map_congr_left
  intro x _
  simp

theorem Settled.shift {data : List (Row (w + 1))} (h : Settled lib data) (C : Row (w + 1)) : Settled lib (data.map (· + C)) := by
  by_cases hd : data = []
  · subst hd
    exact h
  · intro A B b hb h1 h2
    rw [centred_shift C hd] at h1 h2
    exact h A B b hb h1 h2

theorem PointsOf.sizes {pts : List Point} (h : PointsOf lib p series pts) :
    checkedSub p.patternLength p.latent = some (w + 1) ∧ p.patternLength - 1 ≤ series.length := by
  obtain ⟨lo, hi, ps, ref, comps, means, first, R, hmm, hw, href, hps, hpca, hfirst, hR, hpts⟩ := h
  exact ⟨hw, (build_some hw hps).1⟩

theorem Suited.shift (h : Suited lib p series q m) (c : Fin (e + 1) → ℝ) : Suited lib p (series.map (· + c)) q m := by
  obtain ⟨hw, hN⟩ := PointsOf.sizes h.points
  refine h.congr (by simp) (fun m => ?_) (h.points.shift c) h.mirrored rfl rfl
  unfold windows
  rw [List.length_map, column_shift hw hN c m]
  exact Settled.shift (h.settled m) _

theorem Suited.scale (h : Suited lib p series q m) (hqr : ∀ A, gram (lib.qr A) = gram A) {a : ℝ} (ha : 0 < a) :
    Suited lib p (series.map (a • ·)) (q.map (scalePt a)) (m.map (scalePt a)) := by
  obtain ⟨hw, hN⟩ := PointsOf.sizes h.points
  refine h.congr (by simp) (fun m => ?_) (h.points.scale hqr h.settled ha) ?_ (toPt_scale _ _) (toPt_scale _ _)
  · unfold windows
    rw [List.length_map, column_scale hw hN a m]
    exact (h.settled m).scale ha
  · rw [mapM_mirror ha, h.mirrored]
    rfl

theorem windows_last_row {data : List (Fin (e + 1) → ℝ)} {x y : Fin (e + 1) → ℝ} (h : PointsOf lib p (data ++ [x]) q) (m : Fin (e + 1)) :
    windows w p (data ++ [y]) m = windows w p (data ++ [x]) m := by
  obtain ⟨hw, hN⟩ := PointsOf.sizes h
  obtain ⟨hle, hw'⟩ := checkedSub_some hw
  have hN' : p.patternLength - 1 ≤ data.length + 1 := by simpa using hN
  have hlat : p.latent < p.patternLength := by omega
  have key := PhaseSpace.C58_last_row_ignored p data x y hlat hN'
  rw [PhaseSpace.C14_windowed_sums p _ hlat (by simpa using hN'), PhaseSpace.C14_windowed_sums p _ hlat (by simpa using hN')] at key
  unfold windows
  rw [Option.some.inj key]

theorem Suited.last_row {data : List (Fin (e + 1) → ℝ)} {x y : Fin (e + 1) → ℝ} (h : Suited lib p (data ++ [x]) q m)
    (hmin : ∀ m, columnMin (data ++ [x]) m = columnMin (data ++ [y]) m) : Suited lib p (data ++ [y]) q m := by
  refine h.congr (by simp) (fun m => ?_) (h.points.last_row hmin) h.mirrored rfl rfl
  rw [windows_last_row h.points m]
  exact h.settled m

/-- **C98.** Adding a constant to a column: exactly the same vectors can be delivered by every node of the cluster. -/
theorem C98_shift (hqr : ∀ A, gram (lib.qr A) = gram A) (h : Suited lib p series q m) (c : Fin (e + 1) → ℝ) {i : Nat} (hi : i < N)
    (v : Option (List (Option ℚ))) :
    FileDelivers lib resolution order p (series.map (· + c)) i v ↔ FileDelivers lib resolution order p series i v := by
  rw [(h.shift c).one_node hqr hi, h.one_node hqr hi]
  exact C69_shift _ _ _ _ _ _ _

/-- **C98.** Multiplying the series by a positive number. -/
theorem C98_scale (hqr : ∀ A, gram (lib.qr A) = gram A) (h : Suited lib p series q m) {a : ℝ} (ha : 0 < a) {i : Nat} (hi : i < N)
    (v : Option (List (Option ℚ))) :
    FileDelivers lib resolution order p (series.map (a • ·)) i v ↔ FileDelivers lib resolution order p series i v := by
  rw [(h.scale hqr ha).one_node hqr hi, h.one_node hqr hi]
  exact C70_scale (p := { p with nClusterNodes := 1 }) hqr _ _ h.settled ha _

/-- **C98.** Another last row, if the minima of the columns stay the same. -/
theorem C98_last_row (hqr : ∀ A, gram (lib.qr A) = gram A) {data : List (Fin (e + 1) → ℝ)} {x y : Fin (e + 1) → ℝ}
    (h : Suited lib p (data ++ [x]) q m) (hmin : ∀ m, columnMin (data ++ [x]) m = columnMin (data ++ [y]) m) {i : Nat} (hi : i < N)
    (v : Option (List (Option ℚ))) :
    FileDelivers lib resolution order p (data ++ [y]) i v ↔ FileDelivers lib resolution order p (data ++ [x]) i v := by
  rw [(h.last_row hmin).one_node hqr hi, h.one_node hqr hi]
  exact (C71_last_row _ _ _ _ _ _ _ hmin _).symm

/-- **C98.** Another order of the columns from the third on. -/
theorem C98_reorder {series : List (Fin (e + 2) → ℝ)} (hqr : ∀ A, gram (lib.qr A) = gram A) (h : Suited lib p series q m)
    (σ : Equiv.Perm (Fin (e + 2))) (h0 : σ 0 = 0) (h1 : σ 1 = 1) {i : Nat} (hi : i < N) (v : Option (List (Option ℚ))) :
    FileDelivers lib resolution order p (series.map (· ∘ σ)) i v ↔ FileDelivers lib resolution order p series i v := by
  have hr : 0 < p.rate := by have := h.wf.1; have := h.wf.2; omega
  have hc := (h.points.numbered hr).2.2.coords
  have h2 : Suited lib p (series.map (· ∘ σ)) (q.map (reorderPt σ)) (m.map (reorderPt σ)) := by
    refine h.congr (by simp) (fun m => ?_) (h.points.reorder σ h0 h1) ?_ (toPt_reorder _ _) (toPt_reorder _ _)
    · rw [windows_congr (s2 := series) (m' := σ m) (by rw [List.map_map]; rfl)]
      exact h.settled _
    · rw [mapM_mirror_reorder σ h0 h1 _ hc, h.mirrored]
      rfl
  rw [h2.one_node hqr hi, h.one_node hqr hi]
  exact C85_reorder (p := { p with nClusterNodes := 1 }) _ _ _ hr _ σ h0 h1 _

/-- **C98.** One node with any number of threads delivers nothing else than the cluster. -/
theorem C98_threads (hqr : ∀ A, gram (lib.qr A) = gram A) (h : Suited lib p series q m) {t : Nat} (ht : 1 ≤ t)
    (hsl : p.nThreads + p.queryLength + p.patternLength ≤ series.length + 1) (hsl' : t + p.queryLength + p.patternLength ≤ series.length + 1)
    {i : Nat} (hi : i < N) {v v' : Option (List (Option ℚ))} (hv : FileDelivers lib resolution order p series i v)
    (hv' : Whole.Delivers lib resolution order { p with nClusterNodes := 1, nThreads := t } series v') : v' = v := by
  have hwf : ({ p with nClusterNodes := 1 } : Parameters).WellFormed := ⟨le_rfl, by have := h.wf.1; have := h.wf.2; simp only; omega⟩
  exact (C72_threads (p := { p with nClusterNodes := 1 }) hqr resolution order hwf rfl h.settled h.good.query h.thread hsl ht hsl'
    ((h.one_node hqr hi v).1 hv)).1 v' hv'

/-- **C98.** The numbers of nodes and of threads: what the nodes deliver with some numbers of nodes and threads is what they deliver with other
numbers. -/
theorem C98_nodes (hqr : ∀ A, gram (lib.qr A) = gram A) (h : Suited lib p series q m) {k t : Nat}
    (h' : Suited lib { p with nClusterNodes := k, nThreads := t } series q' m')
    (hsl : p.nThreads + p.queryLength + p.patternLength ≤ series.length + 1) (hsl' : t + p.queryLength + p.patternLength ≤ series.length + 1)
    {i j : Nat} (hi : i < N) (hj : j < k) {v v' : Option (List (Option ℚ))} (hv : FileDelivers lib resolution order p series i v)
    (hv' : FileDelivers lib resolution order { p with nClusterNodes := k, nThreads := t } series j v') : v' = v :=
  C98_threads hqr h h'.thread hsl hsl' hi hv ((h'.one_node hqr hj v').1 hv')

/-- The wave of `ClusterRunExample.lean` is suited; the cluster delivers a vector for it, and delivers it again for degrees of temperature in
another scale. -/
example (resolution order : Nat) : ∃ v, ∀ i < 2, FileDelivers hLib resolution order hP hSeries i v ∧
    FileDelivers hLib resolution order hP ((hSeries.map ((9 / 5 : ℝ) • ·)).map (· + fun _ => 32)) i v := by
  obtain ⟨m, hm, _⟩ := mirrored_some (rate := hP.rate) (by decide) (hPoints.numbered (by decide)).2.2.coords
  have h : Suited hLib hP hSeries hPts m := ⟨hLib_settled, ⟨by decide, by decide⟩, by decide, by decide, hFits, by decide, hCount, hPoints, hm,
    fun h => (by cases h), by
      show Good hP 9 (Cluster.parts hP 9 hPts m)
      rw [hParts_eq]
      exact hGood⟩
  obtain ⟨v, hv⟩ := hDelivers resolution order
  refine ⟨v, fun i hi => ?_⟩
  have h1 := (h.one_node hLib_gram (i := i) hi v).2 hv
  exact ⟨h1, (C98_shift hLib_gram (h.scale hLib_gram (by norm_num)) _ hi v).2 ((C98_scale hLib_gram h (by norm_num) hi v).2 h1)⟩

end Joint
end S2G
