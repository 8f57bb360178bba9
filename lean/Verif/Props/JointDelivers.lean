import Verif.Props.JointSeg
import Verif.Props.ClusterRunExample

/-!
# Runs in which the stages overlap deliver what the stages one after the other deliver (C78)
-/

namespace S2G

namespace Stage
variable {I O P Q : Type} {n : Nat} {pay : Nat → P}

/-- If the last stage is a rotation and one node has its result, then all nodes have finished the stage before. -/
theorem comp_ring_before {A : Stage I O} {glue : Nat → O → Option P} {result : P → List (RMsg P) → Nat → Q} (hn : 2 ≤ n)
    (hA : A.Laws n) {f : Nat → I} {s : (comp A glue (ring n pay result)).S} (h : (comp A glue (ring n pay result)).Run f s) {i : Nat} {r : Q}
    (hr : (comp A glue (ring n pay result)).out s i = some r) {j : Nat} (hj : j < n) : ∃ y, A.out s.1 j = some y := by
  have hP : Nonempty P := ⟨pay 0⟩
  obtain ⟨g, hg⟩ := exists_inputs A glue s.1
  have h1 := (run_comp hA h).2 g hg
  obtain ⟨hi, hd, rfl⟩ := ring_out.1 (show (ring n pay result).out s.2 i = some r from hr)
  have h2 : (ring n pay result).started s.2 j = true := ring_done_all hn (ring_run h1).1 hi hd hj
  obtain ⟨-, y, z, hy, -⟩ := (comp_started hA (ring_laws hn) h).2 j h2
  exact ⟨y, hy⟩

theorem comp_ring_started {A : Stage I O} {glue : Nat → O → Option P} {result : P → List (RMsg P) → Nat → Q} (hn : 2 ≤ n)
    (hA : A.Laws n) {f : Nat → I} {s : (comp A glue (ring n pay result)).S} (h : (comp A glue (ring n pay result)).Run f s) {i : Nat} {r : Q}
    (hr : (comp A glue (ring n pay result)).out s i = some r) {j : Nat} (hj : j < n) : A.started s.1 j = true := by
  obtain ⟨y, hy⟩ := comp_ring_before hn hA h hr hj
  exact hA.out (comp_started hA (ring_laws hn) h).1 hy

end Stage

namespace Joint
open Stage Cluster Whole Points Pca

variable {e w : Nat} {X : Type} {p : Parameters}

/-- The scores look only at the coordinates of crossings by stored steps. -/
theorem scored_congr {clu : List X → Option (List Nat)} {c1 c2 : Inter → X} {len : Nat} {points : Nat → Nat} {stores : Nat → List Trans}
    {qs : Nat → NodeQuestions} {it nodes qn es edges tr deg wt m cnt ov job par sub} (hp : p.WellFormed)
    (h : Scored clu c1 p len points stores qs it nodes qn es edges tr deg wt m cnt ov job par sub)
    (hc : ∀ x : Inter, (∃ k < p.nClusterNodes, x.1 ∈ stores k) → c1 x = c2 x) :
    Scored clu c2 p len points stores qs it nodes qn es edges tr deg wt m cnt ov job par sub :=
  { h with
    estimate := fun j hj => by
      rw [← h.estimate j hj]
      refine (NodeEst.estimateNodes_congr (fun x hx => hc x ?_) p j).symm
      have h1 := (InterNet.C32_stored_at_owner hp h.inter hj (h.interDone j hj)).mem_iff.1 hx
      obtain ⟨k, hk, h2⟩ := List.mem_flatMap.1 (List.mem_filter.1 h1).1
      obtain ⟨t, ht, h3⟩ := List.mem_flatMap.1 (List.mem_reverse.1 h2)
      obtain ⟨seg, -, rfl⟩ := List.mem_map.1 h3
      exact ⟨k, List.mem_range.1 hk, ht⟩ }

/-- The coordinates of a crossing do not depend on the node which computes them. -/
theorem coord_eq {pts : List Point} {stores : Nat → List Trans} {x : Inter} (h : ∃ k < p.nClusterNodes, x.1 ∈ stores k) :
    (interCoord e pts [x.1] p.rate x).getD [] = (crossing e p pts stores x).getD [] := by
  have h1 : x.1 ∈ (List.range p.nClusterNodes).flatMap stores := by
    obtain ⟨k, hk, hx⟩ := h
    exact List.mem_flatMap.2 ⟨k, List.mem_range.2 hk, hx⟩
  rw [C75_crossings (ts := (List.range p.nClusterNodes).flatMap stores) (fun t => by simp [List.mem_flatMap]) h1,
    interCoord_store (by simp) h1]

/-- **C78 (overlapping stages).** On two or more nodes, a run in which every node enters a stage as soon as it has finished the one before, while the
others may be in any earlier or later stage, can deliver a vector on node `i` exactly if the stages one after the other can (`Cluster.Delivers`): when a node
delivers its scores the others may be anywhere, and the vector is still that of a run in which all nodes finish every stage before the
next one begins. -/
theorem C78_overlap {lib : Lib w} {resolution order : Nat} (hp : p.WellFormed) (hn : 2 ≤ p.nClusterNodes) {series : List (Fin (e + 1) → ℝ)} {i : Nat}
    (hi : i < p.nClusterNodes) (v : Option (List (Option ℚ))) :
    Joint.Delivers lib resolution order p series i v ↔ Cluster.Delivers lib resolution order p series i v := by
  constructor
  · rintro ⟨pts, mirrored, eff, hpts, hm, s, hs, heff, r, hr, rfl⟩
    have hA := segmentation_laws (mirrored := mirrored) hp hn
    have hB := scoring_laws (clu := clustering resolution order p e)
      (coord := fun y => (interCoord e ((List.range p.nClusterNodes).flatMap eff) [y.1] p.rate y).getD []) (len := series.length)
      (points := fun i => (pts i).length) hn
    obtain ⟨h1, h2⟩ := comp_started hA hB hs
    obtain ⟨g, hg⟩ := exists_inputs (segmentation p mirrored) (fun (_ : Nat) (x : List Trans × NodeQuestions × Bool) =>
      if (intersectionTasks p.rate x.1).all
        (fun y => (interCoord e ((List.range p.nClusterNodes).flatMap eff) x.1 p.rate y).isSome) then some (x.1, x.2.1) else none) s.1
    have h3 := (run_comp hA hs).2 g hg
    obtain ⟨z, h4, -, rfl⟩ := comp_ring_delivered hn (scored_laws hn) h3 hr
    have h5 : ∀ j < p.nClusterNodes, ∃ y, (segmentation p mirrored).out s.1 j = some y ∧
        (∀ x ∈ intersectionTasks p.rate y.1, (interCoord e ((List.range p.nClusterNodes).flatMap eff) y.1 p.rate x).isSome) ∧
        g j = (y.1, y.2.1) := by
      intro j hj
      obtain ⟨-, y, u, hy, hu⟩ := h2 j (comp_ring_started hn (scored_laws hn) h3 hr hj)
      have hgu := hg j y u hy hu
      replace hu : (if (intersectionTasks p.rate y.1).all
        (fun y' => (interCoord e ((List.range p.nClusterNodes).flatMap eff) y.1 p.rate y').isSome) then some (y.1, y.2.1) else none) = some u := hu
      split at hu
      · next hall => exact ⟨y, hy, List.all_eq_true.1 hall, hgu.trans (Option.some.inj hu).symm⟩
      · cases hu
    obtain ⟨y, hy⟩ := exists_below (n := p.nClusterNodes) (P := fun j y => (segmentation p mirrored).out s.1 j = some y ∧
        (∀ x ∈ intersectionTasks p.rate y.1, (interCoord e ((List.range p.nClusterNodes).flatMap eff) y.1 p.rate x).isSome) ∧
        g j = (y.1, y.2.1)) h5
    obtain ⟨eff', stores, qs, h6, h7⟩ := segmentation_ends hp hn hm ⟨s.1, h1, fun j hj => (hy j hj).1⟩
    have he : (List.range p.nClusterNodes).flatMap eff = (List.range p.nClusterNodes).flatMap eff' :=
      List.flatMap_congr fun j hj => by
        have hj := List.mem_range.1 hj
        rw [(h7 j hj).2.2]
        exact heff j _ (hy j hj).1
    have h8 := h4.congr hB (g := fun j => (stores j, qs j)) (z := z) (fun j hj => by
      rw [(hy j hj).2.2, (h7 j hj).1, (h7 j hj).2.1]) fun _ _ => rfl
    obtain ⟨it, nodes, qn, es, edges, tr, deg, wt, m, cnt, ov, job, par, sub, h9, h10⟩ := (scoring_ends hn).1 h8
    refine ⟨pts, eff', stores, qs, hpts, h6, fun j hj x hx => ?_, it, nodes, qn, es, edges, tr, deg, wt, m, cnt, ov, job, par, sub, ?_, ?_⟩
    · rw [← he]
      have := (hy j hj).2.1
      rw [(h7 j hj).1] at this
      exact this x hx
    · rw [he] at h9
      exact scored_congr hp h9 fun x hx => coord_eq hx
    · rw [h10 i hi]
  · rintro ⟨pts, eff, stores, qs, hpts, hseg, hin, it, nodes, qn, es, edges, tr, deg, wt, m, cnt, ov, job, par, sub, hsc, rfl⟩
    obtain ⟨mirrored, y, hm, ⟨a, ha, hy⟩, hl⟩ := ends_segmentation hp hn hseg
    have hA := segmentation_laws (mirrored := mirrored) hp hn
    have hB := scoring_laws (clu := clustering resolution order p e)
      (coord := fun y => (interCoord e ((List.range p.nClusterNodes).flatMap eff) [y.1] p.rate y).getD []) (len := series.length)
      (points := fun i => (pts i).length) hn
    obtain ⟨b, hb, hz⟩ := (scoring_ends (f := fun j => (stores j, qs j)) (y := fun j => SubScores.subscores sub j) hn).2
      ⟨it, nodes, qn, es, edges, tr, deg, wt, m, cnt, ov, job, par, sub, scored_congr hp hsc fun x hx => (coord_eq hx).symm, fun _ _ => rfl⟩
    refine ⟨pts, mirrored, eff, hpts, hm, (a, b), comp_run hB ha (fun j hj => ⟨y j, hy j hj, ?_⟩) hb, fun j u hu => ?_, _, hz i hi, rfl⟩
    · rw [(hl j hj).1, (hl j hj).2.1]
      exact if_pos (List.all_eq_true.2 (hin j hj))
    · have hj := started_lt hA ha (hA.out ha hu)
      rw [(hl j hj).2.2]
      have : y j = u := Option.some.inj ((hy j hj).symm.trans hu)
      rw [this]

/-- **C78 (nobody is far behind).** When one node delivers its scores, every node has finished the segmentation and its own scores, that is
all stages before the rotation of the scores. -/
theorem C78_behind {clu : List (List ℝ) → Option (List Nat)} {len : Nat} {points : Nat → Nat} {mirrored eff pts : Nat → List Point}
    (hp : p.WellFormed) (hn : 2 ≤ p.nClusterNodes) {s : (run e clu p len points mirrored eff).S}
    (h : (run e clu p len points mirrored eff).Run pts s) {i : Nat} {r : Nat → Option (List ℚ × Bool)}
    (hr : (run e clu p len points mirrored eff).out s i = some r) {j : Nat} (hj : j < p.nClusterNodes) :
    ((segmentation p mirrored).out s.1 j).isSome ∧
      ((scored clu (fun y => (interCoord e ((List.range p.nClusterNodes).flatMap eff) [y.1] p.rate y).getD []) p len points).out s.2.1 j).isSome := by
  have hA := segmentation_laws (mirrored := mirrored) hp hn
  have hB := scoring_laws (clu := clu) (coord := fun y => (interCoord e ((List.range p.nClusterNodes).flatMap eff) [y.1] p.rate y).getD [])
    (len := len) (points := points) hn
  obtain ⟨h1, h2⟩ := comp_started hA hB h
  obtain ⟨g, hg⟩ := exists_inputs (segmentation p mirrored) (fun (_ : Nat) (x : List Trans × NodeQuestions × Bool) =>
    if (intersectionTasks p.rate x.1).all
      (fun y => (interCoord e ((List.range p.nClusterNodes).flatMap eff) x.1 p.rate y).isSome) then some (x.1, x.2.1) else none) s.1
  have h3 := (run_comp hA h).2 g hg
  obtain ⟨-, y, u, hy, -⟩ := h2 j (comp_ring_started hn (scored_laws hn) h3 hr hj)
  obtain ⟨x, hx⟩ := comp_ring_before hn (scored_laws hn) h3 hr hj
  exact ⟨Option.isSome_iff_exists.2 ⟨y, hy⟩, Option.isSome_iff_exists.2 ⟨x, hx⟩⟩

/-- **C78 (two or three nodes).** Overlapping stages on two or three nodes deliver exactly the scores of one node. -/
theorem C78_one_node {lib : Lib w} {resolution order : Nat} {series : List (Fin (e + 1) → ℝ)} {q m : List Point}
    (hqr : ∀ A, gram (lib.qr A) = gram A) (hs : ∀ m, Settled lib (windows w p series m)) (hp : p.WellFormed)
    (hk : 2 ≤ p.nClusterNodes) (hk3 : p.nClusterNodes ≤ 3) (hf : Fits p series.length)
    (hc : ∀ i < p.nClusterNodes, 0 < count p series.length i ∧ Chunked p.nThreads (count p series.length i))
    (hq : PointsOf lib p series q) (hm : q.mapM (mirrorPoint p.rate) = some m) (hdec : SameDecision p series.length q)
    (g : Good p series.length (parts p series.length q m)) {i : Nat} (hi : i < p.nClusterNodes) (v : Option (List (Option ℚ))) :
    Joint.Delivers lib resolution order p series i v ↔ Whole.Delivers lib resolution order { p with nClusterNodes := 1 } series v :=
  (C78_overlap hp hk hi v).trans (C75_exact hqr hs hp hk hk3 hf hc hq hm hdec g hi v)

/-- C78 about the wave of `ClusterRunExample.lean`: two nodes whose stages overlap deliver the scores of one node, and they deliver some. -/
theorem hJoint (resolution order : Nat) {i : Nat} (hi : i < 2) (v : Option (List (Option ℚ))) :
    Joint.Delivers hLib resolution order hP hSeries i v ↔ Whole.Delivers hLib resolution order { hP with nClusterNodes := 1 } hSeries v :=
  (C78_overlap ⟨by decide, by decide⟩ (by decide) hi v).trans (hCluster resolution order hi v)

example (resolution order : Nat) : ∃ l, l.length = 5 ∧ Joint.Delivers hLib resolution order hP hSeries 0 (some l) ∧
    Joint.Delivers hLib resolution order hP hSeries 1 (some l) := by
  obtain ⟨v, hv⟩ := hDelivers resolution order
  obtain ⟨l, rfl, hl, _⟩ := C72_length resolution order ⟨by decide, by decide⟩ rfl (by decide) (by decide)
    (by simp [hP, hSeries]) hv
  exact ⟨l, by simpa [hP, hSeries] using hl, (hJoint resolution order (by omega) _).2 hv, (hJoint resolution order (by omega) _).2 hv⟩

/-! ### Stages really overlap: node 0 is in the second rotation, node 1 has not finished the first one -/

section
open RingNet
/-- A rotation in which every node collects the contributions of the others. -/
def exRing : Stage Nat Nat := ring 2 (fun _ => 0) (fun _ l _ => (l.map RMsg.body).sum)
def exOne : RingNet Nat := startStep 2 (RingNet.init fun _ => 0) 0 10
def exTwo : RingNet Nat := startStep 2 exOne 1 20
def exThree : RingNet Nat := arriveStep exTwo 0 ⟨1, 20⟩ []
def exFour : RingNet Nat := handleStep 2 exThree 0 ⟨1, 20⟩ []
def exFive : RingNet Nat := startStep 2 (RingNet.init fun _ => 0) 0 21

/-- Node 0 enters the second stage with the sum of the first one and 1. -/
example : (comp exRing (fun _ x => some (x + 1)) exRing).Run (fun i => 10 * (i + 1)) (exFour, exFive) ∧
    exRing.out exFour 1 = none ∧ exRing.started exFive 0 = true := by
  refine ⟨?_, rfl, rfl⟩
  have h0 : (comp exRing (fun _ x => some (x + 1)) exRing).Run (fun i => 10 * (i + 1)) (RingNet.init fun _ => 0, RingNet.init fun _ => 0) := .init
  have h1 := Run.start (i := 0) h0 ⟨exOne, ⟨by decide, rfl, .inl rfl, rfl⟩, rfl⟩
  have h2 := Run.start (i := 1) h1 ⟨exTwo, ⟨by decide, rfl, .inl rfl, rfl⟩, rfl⟩
  have h3 := Run.step h2 (.inl ⟨exThree, .inl ⟨0, ⟨1, 20⟩, [], by decide, rfl, rfl⟩, rfl⟩)
  have h4 := Run.step h3 (.inl ⟨exFour, .inr ⟨0, ⟨1, 20⟩, [], by decide, rfl, rfl⟩, rfl⟩)
  exact Run.step h4 (.inr (.inr ⟨0, 20, 21, exFive, rfl, rfl, ⟨by decide, rfl, .inl rfl, rfl⟩, rfl⟩))

end

end Joint
end S2G
