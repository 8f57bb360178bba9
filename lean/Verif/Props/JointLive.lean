import Verif.Props.JointLeaves

/-!
# A run of the whole cluster with overlapping stages: no deadlock, no infinite run
-/

namespace S2G
namespace Joint
open Stage Cluster Pipeline Edges

/-! ### From the intersections to the scores -/

theorem layout_congr {n q : Nat} {st m m' : Nat → Nat} {own own' : Nat → List Edge} {cnt cnt' : Nat → List Nat}
    (h : OvNet.Layout n q st m own cnt) (hm : ∀ i < n, m' i = m i) (ho : ∀ i < n, own' i = own i) (hcnt : ∀ i < n, cnt' i = cnt i) :
    OvNet.Layout n q st m' own' cnt' := by
  have h := Pipeline.Layout.congr h hm hcnt
  refine ⟨h.hn, h.hq, h.next, fun i hi => ?_, fun i hi => ?_, fun i hi => ?_, fun i hi => ?_, h.last⟩
  · rw [ho i hi]; exact h.sorted i hi
  · rw [ho i hi]; exact h.low i hi
  · rw [ho i (by omega)]; exact h.high i hi
  · rw [ho i hi]; exact h.cnt i hi

section
variable {X : Type} {clu : List X → Option (List Nat)} {coord coord' : Inter → X} {p : Parameters} {len : Nat} {pts : Nat → List Pt}
  {points : Nat → Nat} {sg : SegNet}

local notation "N" => Parameters.nClusterNodes p

/-- What is known when the segmentation is over: the conditions of C62, and crossings have the coordinates meant there. -/
structure Ready (clu : List X → Option (List Nat)) (coord coord' : Inter → X) (p : Parameters) (len : Nat) (pts : Nat → List Pt)
    (points : Nat → Nat) (sg : SegNet) : Prop where
  complete : Complete clu coord' p len pts
  reachable : SegNet.Reachable p pts sg
  done : ∀ i < p.nClusterNodes, sg.net.done i = 1
  points : ∀ i < p.nClusterNodes, points i = (pts i).length
  coord : ∀ it, InterNet.Reachable p sg.store it → (∀ i < p.nClusterNodes, it.net.done i = 1) → ∀ j < p.nClusterNodes,
    NodeEst.estimateNodes clu coord p j (it.store p j) = NodeEst.estimateNodes clu coord' p j (it.store p j)

theorem exchange_live (h : Ready clu coord coord' p len pts points sg) :
    (exchange clu coord p).Live N fun i => (sg.store i, questionsOf sg i) := by
  have hn := h.complete.several
  refine comp_live (carry_laws inter_laws) (carry_laws (asking_laws hn)) (carry_live inter_laws (direct_live fun i _ =>
    (Inter.onResults_spec h.complete.wf i _).imp fun _ hl => hl.1)) fun y hy => ?_
  obtain ⟨hy, hc⟩ := (carry_ends inter_laws).1 hy
  obtain ⟨it, h1, h2, h3⟩ := inter_ends.1 hy
  have h1 : InterNet.Reachable p sg.store it := h1
  obtain ⟨nodes, hnodes⟩ := h.complete.estimated h.reachable h.done h1 h2
  refine ⟨fun j => ((questionsOf sg j, NodeEst.nodesOf (nodes j)), NodeEst.nodesOf (nodes j)), fun i hi => ?_, carry_live (asking_laws hn)
    (asking_live hn fun q hq => C43_no_crash (h.complete.runs h.reachable h.done h1 h2 hnodes hq))⟩
  rw [h3 i hi, hc i hi, h.coord it h1 h2 i hi, hnodes i hi]
  rfl

theorem transposed_live (h : Ready clu coord coord' p len pts points sg) :
    (transposed clu coord p len).Live N fun i => (sg.store i, questionsOf sg i) := by
  have hn := h.complete.several
  refine comp_live (exchange_laws hn) (carry_laws transposition_laws) (exchange_live h) fun y hy => ?_
  obtain ⟨it, nodes, qn, h1, h2, h3, h4, h5, h6⟩ := (exchange_ends hn).1 hy
  have h3' : ∀ j < N, NodeEst.estimateNodes clu coord' p j (it.store p j) = some (nodes j) := fun j hj =>
    (h.coord it h1 h2 j hj).symm.trans (h3 j hj)
  have hrun := h.complete.runs h.reachable h.done h1 h2 h3' h4
  obtain ⟨es, hes⟩ := choose_fin (n := N) (R := fun j e => connectNodes len (NodeEst.nodesOf (nodes j)) (qn.nfn j) = some e)
    (fun j hj => ⟨_, C43_edges_of_borders hrun h.complete.borders hj (h5 j hj)⟩)
  refine ⟨fun j => (Transposition.sortEdges (es j), Transposition.sortEdges (es j)), fun i hi => ?_, carry_live transposition_laws
    (direct_live fun i hi => ?_)⟩
  · rw [h6 i hi, hes i hi]
    rfl
  · obtain ⟨a, ha⟩ := h.complete.assigned (es i)
    refine ⟨a, ?_⟩
    unfold Transposition.partitionLen checkedDiv
    rw [if_neg (by omega)]
    exact ha

theorem transposed_graphed (h : Ready clu coord coord' p len pts points sg) {y : Nat → List Edge × List Edge}
    (hy : (transposed clu coord p len).Ends N (fun i => (sg.store i, questionsOf sg i)) y) : ∃ it nodes qn es edges tr,
      Graphed clu coord' p len pts sg it nodes qn es edges tr ∧ ∀ j < N, y j = (tr.store j, edges j) := by
  have hn := h.complete.several
  obtain ⟨x, hx, es, tr, h7, h8, h9, h10⟩ := (transposed_ends hn).1 hy
  obtain ⟨it, nodes, qn, h1, h2, h3, h4, h5, h6⟩ := (exchange_ends hn).1 hx
  have hC := h.complete
  refine ⟨it, nodes, qn, es, fun j => Transposition.sortEdges (es j), tr, ?_, h10⟩
  exact ⟨hC.wf, hn, hC.seg, hC.ids, hC.size, hC.bound, hC.nodes_len, h.reachable, h.done, h1, h2, fun j hj =>
    (h.coord it h1 h2 j hj).symm.trans (h3 j hj), h4, h5, fun j hj => by have := h7 j hj; rwa [h6 j hj] at this, fun _ _ => rfl, h8, h9⟩

theorem weighed_live (h : Ready clu coord coord' p len pts points sg) :
    (weighed clu coord p len points).Live N fun i => (sg.store i, questionsOf sg i) := by
  have hC := h.complete
  have hn := hC.several
  have hB : (both (counts NodeKey N) (counts EdgeKey N)).Laws N := both_laws (ring_laws hn) (ring_laws hn)
  refine comp_live (transposed_laws hn) (carry_laws hB) (transposed_live h) fun y hy => ?_
  obtain ⟨it, nodes, qn, es, edges, tr, hg, hy⟩ := transposed_graphed h hy
  have ht := hC.threads
  have hl := hC.lastPart
  obtain ⟨m, cnt, hm, hL⟩ := hg.layout hC.oneLabel hC.borders (hC.innerEdge _) hC.query (by omega)
  refine ⟨fun i => ((Weights.nodeDegrees (edges i), Weights.edgeWeight (tr.store i)), (tr.store i, cnt i)), fun i hi => ?_,
    carry_live hB (both_live (ring_laws hn) (ring_laws hn) (ring_live hn _) (ring_live hn _))⟩
  rw [hy i hi, h.points i hi, (hm i hi).1, Option.bind_some, (hm i hi).2]
  rfl

theorem weighed_graphed (h : Ready clu coord coord' p len pts points sg) {y : Nat → (Counts NodeKey × Counts EdgeKey) × (List Edge × List Nat)}
    (hy : (weighed clu coord p len points).Ends N (fun i => (sg.store i, questionsOf sg i)) y) : ∃ it nodes qn es edges tr deg wt m cnt,
      Graphed clu coord' p len pts sg it nodes qn es edges tr ∧
      OvNet.Layout N p.queryLength (Transposition.rangeStart (len / N)) m tr.store cnt ∧
      RingNet.Reachable true N deg ∧ (∀ j < N, deg.pay j = Weights.nodeDegrees (edges j)) ∧ (∀ j < N, deg.done j = 1) ∧
      RingNet.Reachable true N wt ∧ (∀ j < N, wt.pay j = Weights.edgeWeight (tr.store j)) ∧ (∀ j < N, wt.done j = 1) ∧
      (∀ i < N, EdgesInTime.resultLength N i (pts i).length = some (m i)) ∧
      ∀ j < N, y j = ((Weights.rotated deg j, Weights.rotated wt j), (tr.store j, cnt j)) := by
  have hC := h.complete
  have hn := hC.several
  have ht := hC.threads
  have hl := hC.lastPart
  obtain ⟨x, hx, m', cnt', h6⟩ := (weighed_ends hn).1 hy
  obtain ⟨it, nodes, qn, es, edges, tr, hg, hx⟩ := transposed_graphed h hx
  obtain ⟨m, cnt, hm, hL⟩ := hg.layout hC.oneLabel hC.borders (hC.innerEdge _) hC.query (by omega)
  obtain ⟨deg, d1, d2, d3⟩ := ring_over hn (fun j => Weights.nodeDegrees (edges j))
  obtain ⟨wt, e1, e2, e3⟩ := ring_over hn (fun j => Weights.edgeWeight (tr.store j))
  refine ⟨it, nodes, qn, es, edges, tr, deg, wt, m, cnt, hg, hL, d1, d2, d3, e1, e2, e3, fun i hi => (hm i hi).1, fun i hi => ?_⟩
  obtain ⟨a1, a2, a3, a4, a5⟩ := h6 i hi
  rw [h.points i hi] at a1
  have hmm : m' i = m i := Option.some.inj (a1.symm.trans (hm i hi).1)
  have hcc : cnt' i = cnt i := by
    rw [hmm, hx i hi] at a2
    exact Option.some.inj (a2.symm.trans (hm i hi).2)
  refine Prod.ext (Prod.ext ?_ ?_) (a5.trans (by rw [hx i hi, hcc]))
  · rw [a3]
    unfold Weights.rotated
    rw [over_processed hn d1 d2 hi (d3 i hi), d2 i hi, hx i hi,
      ringMsgs_congr hn (g := fun j => Weights.nodeDegrees (edges j)) (fun j hj => by rw [hx j hj])]
  · rw [a4]
    unfold Weights.rotated
    rw [over_processed hn e1 e2 hi (e3 i hi), e2 i hi, hx i hi,
      ringMsgs_congr hn (g := fun j => Weights.edgeWeight (tr.store j)) (fun j hj => by rw [hx j hj])]

theorem overlapped_live (h : Ready clu coord coord' p len pts points sg) :
    (overlapped clu coord p len points).Live N fun i => (sg.store i, questionsOf sg i) := by
  have hn := h.complete.several
  refine comp_live (weighed_laws hn) (carry_laws overlap_laws) (weighed_live h) fun y hy => ?_
  refine ⟨fun i => ((y i).2, ((y i).1.2, (y i).1.1)), fun _ _ => rfl, carry_live overlap_laws ?_⟩
  obtain ⟨it, nodes, qn, es, edges, tr, deg, wt, m, cnt, -, hL, -, -, -, -, -, -, -, hy⟩ := weighed_graphed h hy
  exact overlap_live (layout_congr hL (fun _ _ => rfl) (fun i hi => by rw [hy i hi]) fun i hi => by rw [hy i hi])

theorem scored_live (h : Ready clu coord coord' p len pts points sg) :
    (scored clu coord p len points).Live N fun i => (sg.store i, questionsOf sg i) := by
  have hC := h.complete
  have hn := hC.several
  refine comp_live (overlapped_laws hn) helpers_laws (overlapped_live h) fun y hy => ⟨y, fun _ _ => rfl, helpers_live fun i hi => ?_⟩
  obtain ⟨x, hx, hov, hy2⟩ := (overlapped_ends hn).1 hy
  obtain ⟨it, nodes, qn, es, edges, tr, deg, wt, m, cnt, hg, hL, d1, d2, d3, e1, e2, e3, hm, hx⟩ := weighed_graphed h hx
  have hov' := hov.congr overlap_laws (g := fun i => (tr.store i, cnt i)) (z := fun i => (y i).1) (fun i hi => by rw [hx i hi]) fun _ _ => rfl
  obtain ⟨ov, o1, o2⟩ := overlap_ends.1 hov'
  have hj := (OvNet.C51_scored hL o1 hi).resolve_left (by rw [o2 i hi]; simp)
  rw [o2 i hi] at hj
  obtain ⟨sl, s0, -, h1, h2, h3⟩ := hg.scored hC.oneLabel hC.borders d1 d2 d3 e1 e2 e3 hm hL hC.query hC.threads hC.positions hC.lastPart hi
  have hyi : y i = ((y i).1, (Weights.rotated wt i, Weights.rotated deg i)) := Prod.ext rfl (by rw [hy2 i hi, hx i hi])
  have hy1 : (y i).1 = _ := List.singleton_inj.1 hj
  refine ⟨s0, ⟨sl, ?_, ?_⟩, fun a ha => ⟨fun hp => ?_, fun pre msg post hp => ?_⟩⟩
  · rw [hyi, hy1]
    exact h1
  · rw [hyi, hy1]
    exact h2
  · obtain h4 | h4 := (h3 a ha).1
    · exact absurd h4 ((h3 a ha).2.1 hp)
    · exact ⟨_, h4⟩
  · obtain ⟨u, hu, -⟩ := (h3 a ha).2.2 pre msg post hp
    exact ⟨u, hu⟩

/-- After the segmentation no schedule is stuck before all nodes have their scores. -/
theorem scoring_live (h : Ready clu coord coord' p len pts points sg) :
    (scoring clu coord p len points).Live N fun i => (sg.store i, questionsOf sg i) := by
  have hn := h.complete.several
  exact comp_live (scored_laws hn) (ring_laws hn) (scored_live h) fun y _ => ⟨y, fun _ _ => rfl, ring_live hn y⟩

/-- After the segmentation no schedule goes on forever, whatever the inputs are. -/
theorem scoring_terminates (hn : 2 ≤ N) (f : Nat → List Trans × NodeQuestions) : (scoring clu coord p len points).Terminates f := by
  have hB : (both (counts NodeKey N) (counts EdgeKey N)).Laws N := both_laws (ring_laws hn) (ring_laws hn)
  have h1 : (exchange clu coord p).Terminates f := comp_terminates (carry_laws inter_laws) (carry_terminates inter_laws (direct_terminates _))
    fun g => carry_terminates (asking_laws hn) (asking_terminates hn _)
  have h2 : (transposed clu coord p len).Terminates f := comp_terminates (exchange_laws hn) h1
    fun g => carry_terminates transposition_laws (direct_terminates _)
  have h3 : (weighed clu coord p len points).Terminates f := comp_terminates (transposed_laws hn) h2
    fun g => carry_terminates hB (both_terminates (ring_laws hn) (ring_laws hn) (ring_terminates hn _) (ring_terminates hn _))
  have h4 : (overlapped clu coord p len points).Terminates f := comp_terminates (weighed_laws hn) h3
    fun g => carry_terminates overlap_laws (overlap_terminates _)
  have h5 : (scored clu coord p len points).Terminates f := comp_terminates (overlapped_laws hn) h4 fun g => helpers_terminates g
  exact comp_terminates (scored_laws hn) h5 fun g => ring_terminates hn g

end
/-! ### From the points to the scores -/

section
open Whole Points Pca
variable {e w rows : Nat} {p : Parameters} {q m : List Point} {pts mirrored eff : Nat → List Point}

local notation "N" => Parameters.nClusterNodes p

/-- The points of the nodes after self correction: all nodes have mirrored their points, or none has. -/
def Effective (p : Parameters) (pts mirrored eff : Nat → List Point) : Prop :=
  ∀ i < p.nClusterNodes, eff i = if p.selfCorrection = true ∧ CorrNet.Wanted p (fun i => (pts i).map toPt) then mirrored i else pts i

/-- What a node says about mirroring is what all nodes do. -/
theorem segmentation_flag (hp : p.WellFormed) (hn : 2 ≤ N) {s : (segmentation p mirrored).S} (h : (segmentation p mirrored).Run pts s) {j : Nat}
    {y : List Trans × NodeQuestions × Bool} (hy : (segmentation p mirrored).out s j = some y) :
    y.2.2 = decide (p.selfCorrection = true ∧ CorrNet.Wanted p (fun i => (pts i).map toPt)) := by
  have key : ∀ A, A = segmentation p mirrored → ∀ s : A.S, A.Run pts s → A.out s j = some y →
      y.2.2 = decide (p.selfCorrection = true ∧ CorrNet.Wanted p (fun i => (pts i).map toPt)) := by
    intro A hA s h hy
    unfold segmentation at hA
    by_cases hsc : p.selfCorrection = true
    · rw [if_pos hsc] at hA
      subst hA
      obtain ⟨hj, hr⟩ := corr_out.1 hy
      obtain ⟨h1, -⟩ := corr_run hp hn h
      obtain ⟨a, ha, hrel⟩ := CorrNet.seg_inside hp hsc hn (.inl rfl) (fun _ => .inl rfl) h1
      simp only [hsc, true_and]
      exact ((CorrNet.result_iff hp hsc hn h1 ha hrel hj).1 hr).2
    · rw [if_neg hsc] at hA
      subst hA
      simp only [hsc]
      exact (plain_out.1 hy).2.2
  exact key _ rfl s h hy

theorem effective_corrected (h : Base p e rows q m) (hdec : SameDecision p rows q) (hpts : ∀ i < N, pts i = slice p rows q i)
    (hm : p.selfCorrection = true → ∀ i < N, (pts i).mapM (mirrorPoint p.rate) = some (mirrored i)) (heff : Effective p pts mirrored eff) :
    (List.range N).flatMap eff = Whole.corrected p m q := by
  by_cases hw : p.selfCorrection = true ∧ CorrNet.Wanted p (fun i => (pts i).map toPt)
  · obtain ⟨hsc, hw⟩ := hw
    rw [((h.correctedPart hdec hsc hpts).1.1 hw).1, List.flatMap_congr (g := mirrored) fun i hi => by
      rw [heff i (List.mem_range.1 hi), if_pos ⟨hsc, hw⟩]]
    have h5 := mapM_flatMap (l := List.range N) (fun i hi => hm hsc i (List.mem_range.1 hi))
    rw [h.flatMap hpts, h.mirrored] at h5
    exact (Option.some.inj h5).symm
  · rw [List.flatMap_congr (g := pts) fun i hi => by rw [heff i (List.mem_range.1 hi), if_neg hw], h.flatMap hpts]
    unfold Whole.corrected
    rw [if_neg]
    intro hh
    refine hw ⟨hh.1, (h.correctedPart hdec hh.1 hpts).1.2 ⟨?_, hh⟩⟩
    unfold Whole.corrected
    rw [if_pos hh]

variable {clu : List (List ℝ) → Option (List Nat)}

/-- What the segmentation leaves is what the other stages need. -/
theorem segmentation_ready (h : Base p e rows q m) (g : Good p rows (parts p rows q m)) (hdec : SameDecision p rows q)
    (hone : NodeEst.OneLabelEach clu)
    (hpl : ∀ t ∈ track p m q, ∀ s ∈ t.intersectionSegments p.rate, place p e m q (t, s) ≠ none)
    (hclu : ∀ s < p.rate, ∀ xs : List Inter, xs.Perm (crossings p.rate (track p m q) s) → 2 ≤ xs.length →
      clu (xs.map (place' p e m q)) ≠ none)
    (hpts : ∀ i < N, pts i = slice p rows q i)
    (hm : p.selfCorrection = true → ∀ i < N, (pts i).mapM (mirrorPoint p.rate) = some (mirrored i))
    {y : Nat → List Trans × NodeQuestions × Bool} (hy : (segmentation p mirrored).Ends N pts y) :
    ∃ sg, (∀ i < N, (y i).1 = sg.store i ∧ (y i).2.1 = questionsOf sg i) ∧
      (∀ i < N, ∀ x ∈ intersectionTasks p.rate (sg.store i), (interCoord e (Whole.corrected p m q) (sg.store i) p.rate x).isSome) ∧
      Ready clu (fun y => (interCoord e (Whole.corrected p m q) [y.1] p.rate y).getD []) (place' p e m q) p rows (parts p rows q m)
        (fun i => (pts i).length) sg := by
  have hn := h.several
  obtain ⟨eff', stores, qs, h6, h7⟩ := segmentation_ends h.wf hn hm hy
  obtain ⟨sg, g1, g2, rfl, rfl, -⟩ := h6.inside h hdec hpts
  refine ⟨sg, fun i hi => ⟨(h7 i hi).1, (h7 i hi).2.1⟩, (h.places g1 g2).2 hpl, h.complete g hone hclu, g1, g2, fun i hi => ?_, fun it h1 h2 j hj => ?_⟩
  · rw [h.partLength hi, hpts i hi, slice_length h.length hi]
  · apply NodeEst.estimateNodes_congr
    intro x hx
    have h3 := (store_spec h.wf (by rw [h.allSteps_eq]; exact h.steps) g1 g2 h1 h2 hj).1.mem_iff.1 hx
    rw [List.mem_filter, List.mem_flatMap] at h3
    obtain ⟨⟨t, ht, h3⟩, _⟩ := h3
    obtain ⟨s, hs, rfl⟩ := List.mem_map.1 h3
    rw [h.allSteps_eq] at ht
    rw [coord_eq ((h.mem_store g1 g2 t).1 ht), C75_crossings (ts := track p m q) (h.mem_store g1 g2) ht]
    exact place_eq (hpl t ht s hs)

theorem segmentation_finishes (h : Base p e rows q m) (g : Good p rows (parts p rows q m)) (hdec : SameDecision p rows q)
    (hpts : ∀ i < N, pts i = slice p rows q i)
    (hm : p.selfCorrection = true → ∀ i < N, (pts i).mapM (mirrorPoint p.rate) = some (mirrored i)) :
    (p.selfCorrection = true → N = 2 → (segmentation p mirrored).Live N pts) ∧
    (p.selfCorrection = false → (segmentation p mirrored).Finishes N pts) := by
  unfold segmentation
  constructor
  · intro hsc h2
    rw [if_pos hsc]
    have h5 := mapM_flatMap (l := List.range N) (fun i hi => hm hsc i (List.mem_range.1 hi))
    rw [h.flatMap hpts, h.mirrored] at h5
    rw [← Option.some.inj h5]
    exact corr_live h.wf hsc h2 fun i hi => by
      rw [(h.correctedPart hdec hsc hpts).2 i hi]
      exact g.valid i hi
  · intro hsc
    rw [if_neg (by simp [hsc])]
    refine plain_finishes h.wf fun i hi => ?_
    have := g.valid i hi
    unfold parts Whole.corrected at this
    rw [if_neg (by simp [hsc]), slice_map, ← hpts i hi] at this
    exact this

/-- **C80 (no infinite run).** On two or more nodes, whatever the points, the parameters and the clustering are, every run with overlapping
stages ends: there is no infinite sequence of steps. -/
theorem C80_terminates {len : Nat} {points : Nat → Nat} (hp : p.WellFormed) (hn : 2 ≤ N) (pts mirrored eff : Nat → List Point) :
    (run e clu p len points mirrored eff).Terminates pts :=
  comp_terminates (segmentation_laws hp hn) (segmentation_terminates hp hn pts) fun f => scoring_terminates hn f

section
variable {lib : Lib w} {resolution order : Nat} {series : List (Fin (e + 1) → ℝ)}

/-- The run from the points on. -/
noncomputable abbrev runOf (resolution order : Nat) (p : Parameters) (series : List (Fin (e + 1) → ℝ)) (pts mirrored eff : Nat → List Point) :
    Stage (List Point) (Nat → Option (List ℚ × Bool)) :=
  run e (clustering resolution order p e) p series.length (fun i => (pts i).length) mirrored eff

theorem parts_of_points (hqr : ∀ A, gram (lib.qr A) = gram A) (hs : ∀ m, Settled lib (windows w p series m)) (hr : 0 < p.rate)
    (hk3 : N ≤ 3) (hf : Fits p series.length) (hq : PointsOf lib p series q)
    (hpts : PointsOfAll lib p RotNet.NotEarly series pts) : ∀ i < N, pts i = slice p series.length q i := fun i hi => by
  have hqe : (List.range N).flatMap pts = q := (hq.unique (t := p.nThreads) hqr hs (C74_points hqr hs hf hk3 hpts)).symm
  have := PointsOfAll.part hr hf hpts hi
  rwa [hqe] at this

/-- What the stages after the segmentation need, if one node delivers. -/
theorem run_ready (h : Base p e series.length q m) (g : Good p series.length (parts p series.length q m)) (hdec : SameDecision p series.length q)
    (hsc : score resolution order { p with nClusterNodes := 1 } e series.length q ≠ none)
    (hpts : ∀ i < N, pts i = slice p series.length q i)
    (hmi : p.selfCorrection = true → ∀ i < N, (pts i).mapM (mirrorPoint p.rate) = some (mirrored i)) (heff : Effective p pts mirrored eff)
    (y : Nat → List Trans × NodeQuestions × Bool) (hy : (segmentation p mirrored).Ends N pts y) :
    ∃ f : Nat → List Trans × NodeQuestions, (∀ i < N, (if (intersectionTasks p.rate (y i).1).all
        (fun x => (interCoord e ((List.range N).flatMap eff) (y i).1 p.rate x).isSome) then some ((y i).1, (y i).2.1) else none) = some (f i)) ∧
      (scoring (clustering resolution order p e) (fun y => (interCoord e ((List.range N).flatMap eff) [y.1] p.rate y).getD []) p series.length
        (fun i => (pts i).length)).Live N f := by
  obtain ⟨hpl, hclu⟩ := h.conditions g hsc
  rw [effective_corrected h hdec hpts hmi heff]
  obtain ⟨sg, h1, h2, h3⟩ := segmentation_ready h g hdec (clustering_oneLabel resolution order p e) hpl hclu hpts hmi hy
  refine ⟨fun i => (sg.store i, questionsOf sg i), fun i hi => ?_, scoring_live h3⟩
  rw [(h1 i hi).1, (h1 i hi).2]
  exact if_pos (List.all_eq_true.2 (h2 i hi))

/-- **C80 (all nodes deliver).** Two or three nodes, from the points on, under the conditions of C75, where one node delivers the vector `v`:
when all nodes have entered the segmentation, every node has its scores or a message can be handled, so no schedule is stuck; with self correction (shown
for two nodes) this holds from the beginning on; and what any node delivers, at whatever time, is `v`. -/
theorem C80_deliver (hqr : ∀ A, gram (lib.qr A) = gram A) (hs : ∀ m, Settled lib (windows w p series m)) (hp : p.WellFormed)
    (hk : 2 ≤ N) (hk3 : N ≤ 3) (hsc : p.selfCorrection = true → N = 2) (hf : Fits p series.length)
    (hc : ∀ i < N, 0 < count p series.length i ∧ Chunked p.nThreads (count p series.length i))
    (hq : PointsOf lib p series q) (hm : q.mapM (mirrorPoint p.rate) = some m) (hdec : SameDecision p series.length q)
    (g : Good p series.length (parts p series.length q m)) {v : Option (List (Option ℚ))}
    (hv : Whole.Delivers lib resolution order { p with nClusterNodes := 1 } series v)
    (hpts : PointsOfAll lib p RotNet.NotEarly series pts)
    (hmi : p.selfCorrection = true → ∀ i < N, (pts i).mapM (mirrorPoint p.rate) = some (mirrored i)) (heff : Effective p pts mirrored eff) :
    (runOf resolution order p series pts mirrored eff).Finishes N pts ∧
    (p.selfCorrection = true → (runOf resolution order p series pts mirrored eff).Live N pts) ∧
    ∀ s, (runOf resolution order p series pts mirrored eff).Run pts s → ∀ i < N, ∀ r,
      (runOf resolution order p series pts mirrored eff).out s i = some r → SubScores.finalize N r = v := by
  have hB := base_of_points hp hk hf hq hm
  have hr := hB.rate
  have hwf : ({ p with nClusterNodes := 1 } : Parameters).WellFormed := by
    have h1 := hB.wf
    unfold Parameters.WellFormed at h1 ⊢
    dsimp only
    omega
  have hql : p.nThreads + p.queryLength + p.patternLength ≤ series.length + 1 := by
    have h1 := g.lastPart
    have h2 := hB.length
    have h3 := (hq.numbered hr).1
    have h4 := (hf.resolve_left (by omega)).2.1
    have h5 := (hq.numbered hr).2.1
    have h6 := Nat.div_le_self series.length p.nClusterNodes
    omega
  have hres := fun v => C72_result (lib := lib) (p := { p with nClusterNodes := 1 }) resolution order hwf rfl (series := series) g.query
    g.threads hql v
  obtain ⟨q', e1, e2, e3⟩ := (hres v).1 hv
  cases hq.unique (t := p.nThreads) hqr hs e1
  have hsl := parts_of_points hqr hs hr hk3 hf hq hpts
  have hrd := run_ready hB g hdec e2 hsl hmi heff
  obtain ⟨f1, f2⟩ := segmentation_finishes hB g hdec hsl hmi
  have hlive : p.selfCorrection = true → (runOf resolution order p series pts mirrored eff).Live N pts := fun h1 =>
    comp_live (segmentation_laws hp hk) (scoring_laws hk) (f1 h1 (hsc h1)) hrd
  refine ⟨fun s h hall => ?_, hlive, fun s h i hi r hr' => ?_⟩
  · by_cases h1 : p.selfCorrection = true
    · exact (hlive h1).finish h hall
    · exact comp_finishes (segmentation_laws hp hk) (scoring_laws hk) (f2 (by simpa using h1)) hrd s h hall
  · have hd : Joint.Delivers lib resolution order p series i (SubScores.finalize N r) := by
      refine ⟨pts, mirrored, eff, hpts, hmi, s, h, fun j y hy => ?_, r, hr', rfl⟩
      have hj := (segmentation_laws hp hk).out (run_comp (segmentation_laws hp hk) h).1 hy
      rw [heff j (started_lt (segmentation_laws hp hk) (run_comp (segmentation_laws hp hk) h).1 hj),
        segmentation_flag hp hk (run_comp (segmentation_laws hp hk) h).1 hy]
      simp
    obtain ⟨q'', d1, _, d3⟩ := (hres _).1 ((C78_one_node hqr hs hp hk hk3 hf hc hq hm hdec g hi _).1 hd)
    cases hq.unique (t := p.nThreads) hqr hs d1
    exact Result.unique (p := { p with nClusterNodes := 1 }) (t := p.nThreads) g.threads g.threads hB.numbered hr e3 d3

/-- **C80 (the end of every run).** Under these conditions every run in which all nodes have entered the segmentation ends, whatever is done, with all
nodes delivering `v`: it can be continued to such a state, and every state in which no message can be handled is such a state. -/
theorem C80_over (hqr : ∀ A, gram (lib.qr A) = gram A) (hs : ∀ m, Settled lib (windows w p series m)) (hp : p.WellFormed)
    (hk : 2 ≤ N) (hk3 : N ≤ 3) (hsc : p.selfCorrection = true → N = 2) (hf : Fits p series.length)
    (hc : ∀ i < N, 0 < count p series.length i ∧ Chunked p.nThreads (count p series.length i))
    (hq : PointsOf lib p series q) (hm : q.mapM (mirrorPoint p.rate) = some m) (hdec : SameDecision p series.length q)
    (g : Good p series.length (parts p series.length q m)) {v : Option (List (Option ℚ))}
    (hv : Whole.Delivers lib resolution order { p with nClusterNodes := 1 } series v)
    (hpts : PointsOfAll lib p RotNet.NotEarly series pts)
    (hmi : p.selfCorrection = true → ∀ i < N, (pts i).mapM (mirrorPoint p.rate) = some (mirrored i)) (heff : Effective p pts mirrored eff)
    {s : (runOf resolution order p series pts mirrored eff).S} (h : (runOf resolution order p series pts mirrored eff).Run pts s)
    (hall : ∀ i < N, (runOf resolution order p series pts mirrored eff).started s i = true) :
    (∃ t, Relation.ReflTransGen (runOf resolution order p series pts mirrored eff).step s t ∧
      ∀ i < N, ∃ r, (runOf resolution order p series pts mirrored eff).out t i = some r ∧ SubScores.finalize N r = v) ∧
    ((¬ ∃ t, (runOf resolution order p series pts mirrored eff).step s t) →
      ∀ i < N, ∃ r, (runOf resolution order p series pts mirrored eff).out s i = some r ∧ SubScores.finalize N r = v) := by
  obtain ⟨h1, -, h3⟩ := C80_deliver hqr hs hp hk hk3 hsc hf hc hq hm hdec g hv hpts hmi heff
  have hL := comp_laws (glue := fun _ x => if (intersectionTasks p.rate x.1).all
      (fun y => (interCoord e ((List.range N).flatMap eff) x.1 p.rate y).isSome) then some (x.1, x.2.1) else none)
    (segmentation_laws (mirrored := mirrored) hp hk)
    (scoring_laws (clu := clustering resolution order p e) (coord := fun y => (interCoord e ((List.range N).flatMap eff) [y.1] p.rate y).getD [])
      (len := series.length) (points := fun i => (pts i).length) hk)
  constructor
  · obtain ⟨t, h4, h5, h6⟩ := h1.over hL (C80_terminates hp hk pts mirrored eff) h hall
    refine ⟨t, h5, fun i hi => ?_⟩
    obtain ⟨r, hr⟩ := h6 i hi
    exact ⟨r, hr, h3 t h4 i hi r hr⟩
  · intro hst i hi
    obtain ⟨r, hr⟩ := (h1 s h hall).resolve_left hst i hi
    exact ⟨r, hr, h3 s h i hi r hr⟩

/-- **C80 (before all nodes have entered).** Without self correction a node which has not entered the segmentation can enter it, unless a node has crashed;
and a node crashes in the segmentation only by a first point which arrives before the node has entered. -/
theorem C80_entering (hp : p.WellFormed) (hv : ∀ i < N, validSteps p.rate ((pts i).map toPt) ≠ []) {s : (plain p).S} (h : (plain p).Run pts s) :
    (SegNet.crashed s = false → ∀ i < N, (plain p).started s i = false → ∃ t, (plain p).start s i (pts i) t) ∧
    (SegNet.crashed s = true → ∃ i < N, (plain p).started s i = false) ∧
    ∀ t, (plain p).Move pts s t → SegNet.crashed t = true → ∃ i < N, SegNet.first s i ≠ none ∧ (plain p).started s i = false := by
  refine ⟨fun hc i hi hst => plain_ready hp hc hi hst, fun hc => ?_, fun t ht hc => ?_⟩
  · obtain ⟨i, hi, hl⟩ := crashed_outside hp hv (plain_run h) hc
    exact ⟨i, hi, congrArg Option.isSome hl⟩
  · have hst : SegNet.Step p (fun i => (pts i).map toPt) s t := by
      obtain ⟨hk, ⟨i, pt, tr, hf, rfl⟩ | ⟨pre, m, post, hm, rfl⟩⟩ | ⟨i, hi, hl, hk, rfl, -⟩ := ht
      · exact .first s i pt tr hf hk
      · exact .exchange s pre post m hm hk
      · exact SegNet.Step.segment (p := p) (pts := fun i => (pts i).map toPt) s i hi hl hk
    obtain ⟨i, h1, h2⟩ := SegNet.C28_crash_cause hp (plain_run h) hst hc
    obtain ⟨x, hx⟩ := Option.ne_none_iff_exists'.1 h1
    have hi : i < N := by
      have := ((SegNet.inv_reachable hp (plain_run h)).first i x.1 x.2 hx).1
      omega
    exact ⟨i, hi, h1, congrArg Option.isSome (h2.resolve_right (hv i hi))⟩

/-- Without self correction all nodes can enter the segmentation, e.g. all before any message is handled. -/
theorem plain_entered (hp : p.WellFormed) (pts : Nat → List Point) :
    ∀ k, k ≤ N → ∃ s, (plain p).Run pts s ∧ SegNet.crashed s = false ∧ ∀ i, (plain p).started s i = decide (i < k)
  | 0, _ => ⟨(plain p).init, .init, rfl, fun i => by rw [(plain_laws hp).init i]; simp⟩
  | k + 1, hk => by
    obtain ⟨s, h, hc, hst⟩ := plain_entered hp pts k (by omega)
    obtain ⟨t, ht⟩ := plain_ready (f := pts) hp hc (show k < N by omega) (by rw [hst]; simp)
    refine ⟨t, .start h ht, ht.2.2.2.2, fun i => ?_⟩
    rw [((plain_laws hp).start ht).2.2]
    by_cases hi : i = k
    · subst hi
      simp
    · rw [Function.update_of_ne hi, hst]
      exact decide_eq_decide.2 (by omega)

theorem comp_run_left {I O J Q : Type} {A : Stage I O} {B : Stage J Q} {glue : Nat → O → Option J} {f : Nat → I} {s : A.S} (h : A.Run f s) :
    (A.comp glue B).Run f (s, B.init) := by
  induction h with
  | init => exact .init
  | start _ ht ih => exact .start ih ⟨_, ht, rfl⟩
  | step _ ht ih => exact .step ih (.inl ⟨_, ht, rfl⟩)

/-- C80 about the wave of `ClusterRunExample.lean`: whatever the two nodes do once both have entered the segmentation, they deliver the vector of one node. -/
theorem hLive (resolution order : Nat) {v : Option (List (Option ℚ))}
    (hv : Whole.Delivers hLib resolution order { hP with nClusterNodes := 1 } hSeries v) {pts : Nat → List Point}
    (hpts : PointsOfAll hLib hP RotNet.NotEarly hSeries pts) {s : (runOf resolution order hP hSeries pts pts pts).S}
    (h : (runOf resolution order hP hSeries pts pts pts).Run pts s)
    (hall : ∀ i < 2, (runOf resolution order hP hSeries pts pts pts).started s i = true) :
    (∃ t, Relation.ReflTransGen (runOf resolution order hP hSeries pts pts pts).step s t ∧
      ∀ i < 2, ∃ r, (runOf resolution order hP hSeries pts pts pts).out t i = some r ∧ SubScores.finalize 2 r = v) ∧
    ((¬ ∃ t, (runOf resolution order hP hSeries pts pts pts).step s t) →
      ∀ i < 2, ∃ r, (runOf resolution order hP hSeries pts pts pts).out s i = some r ∧ SubScores.finalize 2 r = v) := by
  obtain ⟨m, hm, _⟩ := mirrored_some (rate := hP.rate) (by decide) (hPoints.numbered (by decide)).2.2.coords
  refine C80_over hLib_gram hLib_settled ⟨by decide, by decide⟩ (by decide) (by decide) (fun _ => rfl) hFits ?_ hPoints hm ?_ ?_ hv hpts
    (fun h => by cases h) (fun i _ => by rw [if_neg (by simp [hP])]) h hall
  · intro i _
    refine ⟨?_, .inl le_rfl⟩
    unfold count
    split <;> simp [hP, hSeries]
  · intro h
    cases h
  · show Good hP 9 (parts hP 9 hPts m)
    rw [hParts_eq]
    exact hGood

/-- There are such runs. -/
example (resolution order : Nat) : ∃ v pts, Whole.Delivers hLib resolution order { hP with nClusterNodes := 1 } hSeries v ∧
    PointsOfAll hLib hP RotNet.NotEarly hSeries pts ∧ ∃ s, (runOf resolution order hP hSeries pts pts pts).Run pts s ∧
      ∀ i < 2, (runOf resolution order hP hSeries pts pts pts).started s i = true := by
  obtain ⟨v, hv⟩ := hDelivers resolution order
  have hc : ∀ i < 2, 0 < count hP hSeries.length i ∧ Chunked hP.nThreads (count hP hSeries.length i) := by
    intro i _
    refine ⟨?_, .inl le_rfl⟩
    unfold count
    split <;> simp [hP, hSeries]
  obtain ⟨pts, hpts, -⟩ := (C74_exact hLib_gram hLib_settled hFits (by decide) hc _).1 hPoints
  have hseg : segmentation hP pts = plain hP := if_neg (by simp [hP])
  obtain ⟨s, h1, -, h2⟩ := plain_entered (p := hP) ⟨by decide, by decide⟩ pts 2 le_rfl
  refine ⟨v, pts, hv, hpts, ?_⟩
  show ∃ s : (runOf resolution order hP hSeries pts pts pts).S, _
  unfold runOf run
  rw [hseg]
  exact ⟨(s, _), comp_run_left h1, fun i hi => (h2 i).trans (by simpa using hi)⟩

end

end

end Joint
end S2G
