import Verif.Model.FileRun
import Verif.Props.LoadLive
import Verif.Props.JointRotation

/-!
# C87: the whole cluster, from reading the file on
-/

namespace S2G
namespace Joint
open Stage Cluster Whole Points Pca Rotation LoadNet Manager

variable {e w : Nat} {lib : Lib w} {resolution order : Nat} {p : Parameters} {series : List (Fin (e + 1) → ℝ)} {parts : Nat → List (Fin (e + 1) → ℝ)} {n : Nat}
  {first : List (Fin (e + 1) → ℝ)} {ps : Nat → List (List (Fin (e + 1) → ℝ))} {xs : Nat → Nat → Summary (w + 1)} {pts mirrored eff : Nat → List Point}

local notation "N" => Parameters.nClusterNodes p

theorem lowest_eq {rows : List (Fin (e + 1) → ℝ)} {lo hi : Fin (e + 1) → ℝ} (h : ∀ m, columnMin rows m = some (lo m) ∧ columnMax rows m = some (hi m)) :
    lowest rows = lo ∧ highest rows = hi := by
  constructor
  · funext m; unfold lowest; rw [(h m).1]; rfl
  · funext m; unfold highest; rw [(h m).2]; rfl

theorem feasible_of_loaded (h : Loaded lib p series parts n first ps xs) (hk : 0 < N) : Feasible p parts := by
  obtain ⟨ms, h1, -⟩ := h.rows
  obtain ⟨lo, hi, ref, h2, h3, -⟩ := h.reference
  obtain ⟨e1, e2⟩ := lowest_eq h2
  refine ⟨hk, fun i hi h0 => ?_, fun i hi => ⟨ms i, (h1 i hi).1, (h1 i hi).2.ne'⟩, by rw [e1, e2, h3]; rfl, fun i hi => by rw [(h.space i hi).1]; rfl⟩
  obtain ⟨g1, g2⟩ := h1 i hi
  unfold Stats.calculateStd at g1
  split at g1
  · rw [← Option.some.inj g1, h0] at g2
    simp at g2
  · cases g1

theorem size_eq (h : Loaded lib p series parts n first ps xs) : ((List.range N).map (size p parts)).sum = n := by
  obtain ⟨ms, h1, h2⟩ := h.rows
  rw [h2]
  congr 1
  refine List.map_congr_left fun i hi => ?_
  unfold size
  rw [(h1 i (List.mem_range.1 hi)).1]
  rfl

/-- Two or more nodes, rows which fit: there are data as in `Loaded`, but for the results of the helpers of the rotation. -/
theorem loaded_single (lib : Lib w) (hw : checkedSub p.patternLength p.latent = some (w + 1)) (hk : 2 ≤ N) (hf : Fits p series.length) :
    ∃ parts n first ps xs, Loaded lib { p with nThreads := 1 } series parts n first ps xs := by
  have hw' := checkedSub_some hw
  obtain ⟨h1, h2, h3⟩ := hf.resolve_left (by omega)
  have h4 : p.patternLength ≤ series.length := h2.trans (Nat.div_le_self _ _)
  refine loaded_exists lib hw hf h4 fun i hi => ⟨?_, .inl le_rfl⟩
  show 0 < count p series.length i
  unfold count
  split <;> omega

theorem handed_of_loaded (h : Loaded lib p series parts n first ps xs) {f : Nat → Unit} {s : (loading p series).S} (hs : (loading p series).Run f s) :
    HandedOver lib p series n first ps xs s := by
  obtain ⟨lo, hi, ref, h2, h3, h4⟩ := h.reference
  obtain ⟨e1, e2⟩ := lowest_eq h2
  refine ⟨h.width, ?_, fun i y hy => ⟨(h.space i (loading_out.1 hy).1).2, h.factors i (loading_out.1 hy).1⟩⟩
  rintro i ⟨ref', ps', n'⟩ hy
  obtain ⟨g1, g2, g3⟩ := (C87_exact h.read hs i).2 _ _ _ hy
  rw [e1, e2, h3] at g2
  rw [(h.space i (loading_out.1 hy).1).1] at g1
  exact ⟨by rw [← Option.some.inj g2]; exact h4, (Option.some.inj g1).symm, g3.trans (size_eq h)⟩

theorem loaded_of_handed {n' : Nat} {first' : List (Fin (e + 1) → ℝ)} {ps' : Nat → List (List (Fin (e + 1) → ℝ))} {xs' : Nat → Nat → Summary (w + 1)}
    (h : Loaded lib { p with nThreads := 1 } series parts n' first' ps' xs') (hk : 0 < N) {f : Nat → Unit} {s : (loading p series).S}
    (hs : (loading p series).Run f s) (hall : ∀ i < N, ∃ y, (loading p series).out s i = some y) (hh : HandedOver lib p series n first ps xs s) :
    Loaded lib p series parts n first ps xs := by
  have hread : DataReader.readCsv N (p.patternLength - 1) series = some ((List.range N).map fun j => (j, parts j)) := h.read
  obtain ⟨⟨ref, q, m⟩, hy⟩ := hall 0 hk
  obtain ⟨g1, g2, g3⟩ := (C87_exact hread hs 0).2 _ _ _ hy
  obtain ⟨k1, k2, k3⟩ := hh.data 0 _ hy
  obtain ⟨lo, hi, ref', h2, h3, -⟩ := h.reference
  obtain ⟨e1, e2⟩ := lowest_eq h2
  have h2' : ∀ m, columnMin ((List.range N).flatMap parts) m = some (lo m) ∧ columnMax ((List.range N).flatMap parts) m = some (hi m) := h2
  have hsize : ((List.range N).map (size p parts)).sum = n' := size_eq (p := { p with nThreads := 1 }) h
  obtain ⟨ms, h4, h5⟩ := h.rows
  refine ⟨hh.width, hread, ⟨ms, h4, ?_⟩, ⟨lo, hi, ref, h2', ?_, k1⟩, fun i hi => ?_, fun i hi => ?_⟩
  · rw [← k3]
    exact (g3.trans hsize).trans h5
  · rw [← e1, ← e2]; exact g2
  · obtain ⟨⟨r1, r2, r3⟩, hy'⟩ := hall i hi
    obtain ⟨l1, -, -⟩ := (C87_exact hread hs i).2 _ _ _ hy'
    have l2 : r2 = ps i := (hh.data i _ hy').2.1
    exact ⟨by rw [← l2]; exact l1, (hh.factors i _ hy').1⟩
  · obtain ⟨y, hy'⟩ := hall i hi
    exact (hh.factors i _ hy').2

/-- **C87 (what is handed over, for rows which fit).** On two or more nodes, whatever the order of the messages: node `i` hands over its part of the points of
the whole series, the reference data set of the minima and maxima of the whole series, and the number of all rows. -/
theorem C87_handed (hw : p.latent < p.patternLength) (hk : 2 ≤ N) (hf : Fits p series.length) {f : Nat → Unit} {s : (loading p series).S}
    (hs : (loading p series).Run f s) {i : Nat} {ref qs : List (List (Fin (e + 1) → ℝ))} {m : Nat} (hy : (loading p series).out s i = some (ref, qs, m)) :
    qs = (List.range' (series.length / N * i) (count p series.length i)).map (PhaseSpace.specPoint p series) ∧ m = series.length ∧
      ∃ lo hi, (∀ c, columnMin series c = some (lo c) ∧ columnMax series c = some (hi c)) ∧ PhaseSpace.referenceDataset p lo hi = some ref := by
  obtain ⟨w, hw'⟩ : ∃ w, checkedSub p.patternLength p.latent = some (w + 1) :=
    ⟨p.patternLength - p.latent - 1, by unfold checkedSub; rw [if_pos hw.le]; congr 1; omega⟩
  obtain ⟨parts, n, first, ps, xs, h⟩ := loaded_single (series := series) (⟨fun r => r, fun _ => none⟩ : Lib w) hw' hk hf
  have hread : DataReader.readCsv N (p.patternLength - 1) series = some ((List.range N).map fun j => (j, parts j)) := h.read
  obtain ⟨g1, g2, g3⟩ := (C87_exact hread hs i).2 _ _ _ hy
  have hsize : ((List.range N).map (size p parts)).sum = n := size_eq (p := { p with nThreads := 1 }) h
  have hf' : Fits { p with nThreads := 1 } series.length := hf
  obtain ⟨h1, h2, h3⟩ := hf.resolve_left (by omega)
  have hparts : parts i = DataReader.window series N p.patternLength i := by
    rcases parts_eq hf' h with ⟨k1, -⟩ | ⟨-, k1⟩
    · exact absurd (show N = 1 from k1) (by omega)
    · exact k1 i (loading_out.1 hy).1
  rw [hparts, PhaseSpace.C15_partition_points p h1 hw h2 h3 (loading_out.1 hy).1] at g1
  refine ⟨(Option.some.inj g1).symm, g3.trans (hsize.trans (rows_eq hf' h)), _, _, fun c => ?_, g2⟩
  obtain ⟨lo, hi, ref', k2, -⟩ := h.reference
  obtain ⟨e1, e2⟩ := lowest_eq k2
  have e1' : lowest ((List.range N).flatMap parts) = lo := e1
  have e2' : highest ((List.range N).flatMap parts) = hi := e2
  rw [e1', e2', ← columnMin_congr (mem_parts hf' h), ← columnMax_congr (mem_parts hf' h)]
  exact k2 c

theorem training_laws (hp : p.WellFormed) (hn : 2 ≤ N) (hk3 : N ≤ 3) :
    (training lib resolution order p series n first ps xs pts mirrored eff).Laws N :=
  comp_laws (RotNet.rotation_laws (by omega) hk3 (by omega)) (run_laws hp hn)

/-- When a node delivers a vector all nodes have handed over their data. -/
theorem training_of_file (hp : p.WellFormed) (hk : 2 ≤ N) (hk3 : N ≤ 3) (hf : Fits p series.length) {i : Nat} {v : Option (List (Option ℚ))}
    (h : FileDelivers lib resolution order p series i v) : TrainingDelivers lib resolution order p series i v := by
  obtain ⟨n, first, ps, xs, pts, mirrored, eff, s, hs, hh, hc, r, hr, rfl⟩ := h
  obtain ⟨parts, n', first', ps', xs', h'⟩ := loaded_single (series := series) lib hh.width hk hf
  have hL := loading_laws (p := p) (series := series) h'.read
  have hT := training_laws (lib := lib) (resolution := resolution) (order := order) (series := series) (n := n) (first := first) (ps := ps) (xs := xs)
    (pts := pts) (mirrored := mirrored) (eff := eff) hp hk hk3
  obtain ⟨h1, h2⟩ := comp_started hL hT hs
  have h3 := (run_comp hL hs).2 (fun _ => ()) fun _ _ _ _ _ => rfl
  have hA : (rotating lib p first xs).Laws N := RotNet.rotation_laws (by omega) hk3 (by omega)
  obtain ⟨h4, h5⟩ := comp_started hA (run_laws hp hk) h3
  have h6 := (run_comp hA h3).2 pts hc.points
  have hall : ∀ j < N, ∃ y, (loading p series).out s.1 j = some y := by
    intro j hj
    obtain ⟨y, hy⟩ := Option.isSome_iff_exists.1 (C78_behind hp hk h6 hr hj).1
    have h7 := (segmentation_laws hp hk).out (run_comp (segmentation_laws hp hk) h6).1 hy
    obtain ⟨-, u, q, hu, hq⟩ := h5 j h7
    obtain ⟨-, y', z, hy', -⟩ := h2 j (hA.out h4 hu)
    exact ⟨y', hy'⟩
  exact ⟨parts, n, first, ps, xs, loaded_of_handed h' (by omega) h1 hall hh, pts, mirrored, eff, s.2, h3, hc, r, hr, rfl⟩

/-- **C87 (overlap from the file on).** On two or three nodes, a run in which every node begins with the rotation as soon as its own data manager is done can deliver a
vector on node `i` exactly if a run can in which all nodes have loaded their data before. -/
theorem C87_overlap (hp : p.WellFormed) (hk : 2 ≤ N) (hk3 : N ≤ 3) (hf : Fits p series.length) (ht : 0 < p.nThreads) {i : Nat} (v : Option (List (Option ℚ))) :
    FileDelivers lib resolution order p series i v ↔ TrainingDelivers lib resolution order p series i v := by
  constructor
  · exact training_of_file hp hk hk3 hf
  · rintro ⟨parts, n, first, ps, xs, hl, pts, mirrored, eff, s, hs, hc, r, hr, rfl⟩
    obtain ⟨h1, h2⟩ := C87_ends hl.read (feasible_of_loaded hl (by omega)) ht fun _ => ()
    obtain ⟨a, ha, -, hno⟩ := h1.stuck .init
    have hall := h2 a ha hno
    refine ⟨n, first, ps, xs, pts, mirrored, eff, (a, s), ?_, handed_of_loaded hl ha, hc, r, hr, rfl⟩
    exact comp_run (training_laws hp hk hk3) ha (fun j hj => by
      obtain ⟨y, hy⟩ := hall j hj
      exact ⟨y, hy, rfl⟩) hs

/-- **C87 (no infinite run).** On two or three nodes every run from reading the file on ends. -/
theorem C87_terminates (hp : p.WellFormed) (hk : 2 ≤ N) (hk3 : N ≤ 3) (hw : p.latent < p.patternLength) (hf : Fits p series.length) :
    (fromFile lib resolution order p series n first ps xs pts mirrored eff).Terminates fun _ => () := by
  obtain ⟨h1, h2, h3⟩ := hf.resolve_left (by omega)
  have hr := DataReader.C05_windows (rows := series) h1 (by omega) h2 h3
  exact comp_terminates (loading_laws hr) (loading_terminates hr _) fun _ => C86_terminates hp hk hk3 pts mirrored eff

/-- **C87 (the end of every run).** Two or three nodes, from reading the file on, under the conditions of C75, where one node delivers the vector `v`. In every
state of every run, whatever the other nodes are doing:

* what a node delivers is `v`;
* when nothing more can happen, all nodes have delivered `v`, or a node has crashed in the segmentation without self correction, which it had not
entered yet (C86). -/
theorem C87_over (hqr : ∀ A, gram (lib.qr A) = gram A) (hs : ∀ m, Settled lib (windows w p series m)) (hp : p.WellFormed)
    (hk : 2 ≤ N) (hk3 : N ≤ 3) (hsc : p.selfCorrection = true → N = 2) (hf : Fits p series.length) (ht : 0 < p.nThreads)
    (hc : ∀ i < N, 0 < count p series.length i ∧ Chunked p.nThreads (count p series.length i)) {q m : List Point}
    (hq : PointsOf lib p series q) (hm : q.mapM (mirrorPoint p.rate) = some m) (hdec : SameDecision p series.length q)
    (g : Good p series.length (Cluster.parts p series.length q m)) {v : Option (List (Option ℚ))}
    (hv : Whole.Delivers lib resolution order { p with nClusterNodes := 1 } series v)
    (h : Loaded lib p series parts n first ps xs) (hpts : ∀ i < N, pts i = slice p series.length q i)
    (hmi : p.selfCorrection = true → ∀ i < N, (pts i).mapM (mirrorPoint p.rate) = some (mirrored i)) (heff : Effective p pts mirrored eff)
    {s : (fromFile lib resolution order p series n first ps xs pts mirrored eff).S}
    (hrun : (fromFile lib resolution order p series n first ps xs pts mirrored eff).Run (fun _ => ()) s) :
    HandedOver lib p series n first ps xs s.1 ∧
    (∀ i r, (fromFile lib resolution order p series n first ps xs pts mirrored eff).out s i = some r → SubScores.finalize N r = v) ∧
    ((¬ ∃ t, (fromFile lib resolution order p series n first ps xs pts mirrored eff).Move (fun _ => ()) s t) →
      (∀ i < N, ∃ r, (fromFile lib resolution order p series n first ps xs pts mirrored eff).out s i = some r ∧ SubScores.finalize N r = v) ∨
      (p.selfCorrection = false ∧ crashed p mirrored s.2.2.1 ∧ ∃ i < N, (segmentation p mirrored).started s.2.2.1 i = false)) := by
  have hL := loading_laws (p := p) (series := series) h.read
  obtain ⟨h1, h2⟩ := run_comp hL hrun
  have h3 := h2 (fun _ => ()) fun _ _ _ _ _ => rfl
  obtain ⟨c1, c2⟩ := C86_over hqr hs hp hk hk3 hsc hf hc hq hm hdec g hv h hpts hmi heff h3
  refine ⟨handed_of_loaded h h1, c1, fun hst => c2 ?_⟩
  have hall := (C87_ends h.read (feasible_of_loaded h (by omega)) ht fun _ => ()).2 s.1 h1 (by
    rintro ⟨t, ht | ⟨i, ht⟩⟩
    · exact hst ⟨(t, s.2), .inl (.inl ⟨t, ht, rfl⟩)⟩
    · exact hst ⟨(t, s.2), .inr ⟨i, t, ht, rfl⟩⟩)
  rintro ⟨t, ht | ⟨i, ht⟩⟩
  · exact hst ⟨(s.1, t), .inl (.inr (.inl ⟨t, ht, rfl⟩))⟩
  · obtain ⟨y, hy⟩ := hall i ((training_laws hp hk hk3).start ht).1
    exact hst ⟨(s.1, t), .inl (.inr (.inr ⟨i, y, (), t, hy, rfl, ht, rfl⟩))⟩

/-- **C87 (the vector of one node).** Two or three nodes, under the conditions of C75: a run from reading the file on, in which every node enters each stage as soon as it has
finished the one before, can deliver a vector on any node exactly if one node can. -/
theorem C87_one_node (hqr : ∀ A, gram (lib.qr A) = gram A) (hs : ∀ m, Settled lib (windows w p series m)) (hp : p.WellFormed)
    (hk : 2 ≤ N) (hk3 : N ≤ 3) (hf : Fits p series.length) (ht : 0 < p.nThreads)
    (hc : ∀ i < N, 0 < count p series.length i ∧ Chunked p.nThreads (count p series.length i)) {q m : List Point}
    (hq : PointsOf lib p series q) (hm : q.mapM (mirrorPoint p.rate) = some m) (hdec : SameDecision p series.length q)
    (g : Good p series.length (Cluster.parts p series.length q m)) {i : Nat} (hi : i < N) (v : Option (List (Option ℚ))) :
    FileDelivers lib resolution order p series i v ↔ Whole.Delivers lib resolution order { p with nClusterNodes := 1 } series v :=
  (C87_overlap hp hk hk3 hf ht v).trans (C86_one_node hqr hs hp hk hk3 hf hc hq hm hdec g hi v)

/-- The hypotheses hold for the wave of `ClusterRunExample.lean`: both nodes can deliver, and what they deliver is the vector of one node. -/
example (resolution order : Nat) : ∃ v, FileDelivers hLib resolution order hP hSeries 1 v ∧
    ∀ i < 2, ∀ v', FileDelivers hLib resolution order hP hSeries i v' ↔
      Whole.Delivers hLib resolution order { hP with nClusterNodes := 1 } hSeries v' := by
  obtain ⟨m, hm, _⟩ := mirrored_some (rate := hP.rate) (by decide) (hPoints.numbered (by decide)).2.2.coords
  have key : ∀ i < 2, ∀ v', FileDelivers hLib resolution order hP hSeries i v' ↔
      Whole.Delivers hLib resolution order { hP with nClusterNodes := 1 } hSeries v' := by
    intro i hi v'
    refine C87_one_node hLib_gram hLib_settled ⟨by decide, by decide⟩ (by decide) (by decide) hFits (by decide) hCount hPoints hm (fun h => by cases h) ?_ hi v'
    show Good hP 9 (Cluster.parts hP 9 hPts m)
    rw [hParts_eq]
    exact hGood
  obtain ⟨v, hv⟩ := hDelivers resolution order
  exact ⟨v, (key 1 (by decide) v).2 hv, key⟩

/-- The data managers of the wave: they can get to the end, and then both nodes have handed over their points and the nine rows. -/
example : ∃ s : (loading hP hSeries).S, (loading hP hSeries).Run (fun _ => ()) s ∧ ∀ i < 2, ∃ ref qs, (loading hP hSeries).out s i = some (ref, qs, 9) ∧
    qs.length = if i = 1 then 2 else 4 := by
  obtain ⟨parts, n, first, ps, xs, h⟩ := loaded_exists (e := 0) (series := hSeries) hLib (w := 2) rfl hFits (by decide) hCount
  obtain ⟨h1, h2⟩ := C87_ends h.read (feasible_of_loaded h (by decide)) (by decide) fun _ => ()
  obtain ⟨a, ha, -, hno⟩ := h1.stuck .init
  refine ⟨a, ha, fun i hi => ?_⟩
  obtain ⟨⟨ref, qs, m⟩, hy⟩ := h2 a ha hno i hi
  obtain ⟨k1, k2, -⟩ := C87_handed (by decide) (by decide) hFits ha hy
  refine ⟨ref, qs, by rw [hy, k2]; rfl, ?_⟩
  rw [k1]
  simp [count, hP, hSeries]

end Joint
end S2G
