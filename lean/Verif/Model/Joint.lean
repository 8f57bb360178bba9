import Verif.Model.Stage
import Verif.Model.ClusterRun

/-!
# One run of the whole cluster in which the stages overlap

`Training` (src/training/mod.rs lines 183-279) from the segmentation on, with the stages of `Model/ClusterRun.lean`, but every node goes on as
soon as it has finished a stage, whatever the other nodes are doing (`Stage.comp`).
-/

namespace S2G
namespace Joint
noncomputable section

open Whole Points Stage

variable {X : Type}

/-! ### The stages -/

/-- Intersections (`SegmentedMessage`, src/training/mod.rs lines 195-203): calculation and exchange, `Model/Intersections.lean`. -/
def inter (p : Parameters) : Stage (List Trans) (List Inter) :=
  direct p.nClusterNodes (fun i ts => Inter.onResults p i {} (intersectionTasks p.rate ts)) (Inter.outgoing p)
    (fun i l ms => l.stored ++ ms.flatMap (fun m => Inter.absorbed p i m.body)) (fun _ _ => [])

/-- The exchange of successor nodes, `Model/NodeQA.lean`: the input are the own questions and the own nodes. -/
def asking (n : Nat) : Stage (NodeQuestions × (Nat → List Node)) ForeignNodes where
  S := QNet × (Nat → Nat → List Node)
  init := (QNet.init (fun _ => NodeQuestions.clear), fun _ _ => [])
  started s := s.1.ask.started
  start s i x t := i < n ∧ s.1.ask.started i = false ∧ s.1.crashed = false ∧
    t = (QNet.start n (fun _ => x.1) s.1 i, Function.update s.2 i x.2)
  step s t := s.1.crashed = false ∧
    ((∃ pre m post, s.1.ask.pool = pre ++ m :: post ∧ t = (QNet.handleAsk n s.2 s.1 m (pre ++ post), s.2)) ∨
      ∃ pre m post, s.1.ans.pool = pre ++ m :: post ∧ t = (QNet.handleAns s.1 m (pre ++ post), s.2))
  out s i := if i < n ∧ s.1.fin i = 1 then some (s.1.nfn i) else none

/-- Transposition (`EdgeEstimationDone`, src/training/mod.rs lines 233-247), `Model/Transposition.lean`. -/
def transposition (n len : Nat) : Stage (List Edge) (List Edge) :=
  direct n (fun _ es => (Transposition.partitionLen len n).bind (fun pl => Transposition.assignEdges n pl es)) (fun as => as)
    (fun i as ms => Transposition.sortEdges (as i ++ ms.flatMap DMsg.body)) (fun _ _ => [])

/-- A rotation of degrees or weights, `Model/Weights.lean`. -/
def counts (K : Type) [DecidableEq K] (n : Nat) : Stage (Counts K) (Counts K) :=
  ring n (fun _ _ => none) (fun own ms _ => (ms.map RMsg.body).foldl Counts.merge own)

/-- The exchange of overlapping edges, `Model/Overlap.lean`: the input are the edges and `edges_in_time`. -/
def overlap (n q : Nat) : Stage (List Edge × List Nat) (List Edge × List Nat) where
  S := OvNet
  init := { edges := fun _ => [], eit := fun _ => [] }
  started s := s.started
  start s i x t := i < n ∧ s.started i = false ∧
    OvNet.startStep n q { s with edges := Function.update s.edges i x.1, eit := Function.update s.eit i x.2 } i = some t
  step s t := ∃ pre j m post, s.pool = pre ++ (j, m) :: post ∧ OvNet.handleStep n q { s with pool := pre ++ post } j m = some t
  out s i := match s.scored i with
    | [x] => if i < n then some x else none
    | _ => none

/-- The helpers of every node, `Model/ParallelScore.lean`: the input are the edges, the counts, the weights and the degrees. -/
def helpers (n q threads : Nat) : Stage ((List Edge × List Nat) × Counts EdgeKey × Counts NodeKey) (List ℚ × Bool) where
  S := Nat → Option ParScore
  init := fun _ => none
  started s i := (s i).isSome
  start s i x t := i < n ∧ s i = none ∧ ∃ sl s0, Scoring.scoreLength x.1.2 q = some sl ∧
    ParScore.init (Scoring.helper x.1.1 x.1.2 x.2.1 x.2.2 q) sl threads = some s0 ∧ t = Function.update s i (some s0)
  step s t := ∃ i a b, s i = some a ∧ ParScore.Step a b ∧ t = Function.update s i (some b)
  out s i := (s i).bind (fun a => match a.final with
    | [x] => some x
    | _ => none)

/-- The rotation of the scores, `Model/SubScores.lean`; the result is the map `subscores`. -/
def scores (n : Nat) : Stage (List ℚ × Bool) (Nat → Option (List ℚ × Bool)) :=
  ring n (fun _ => ([], false)) (fun own ms i => ms.foldl (fun m x => Function.update m x.origin (some x.body))
    (Function.update (fun _ => none) i (some own)))

/-! ### The run after the segmentation

The stages together, one by one: `coord` gives the coordinates of a crossing, `len` is the number of rows of the data set, `points i` is
`num_rotated` of node `i`. -/

section
variable (clu : List X → Option (List Nat)) (coord : Inter → X) (p : Parameters) (len : Nat) (points : Nat → Nat)

/-- `estimate_nodes`, src/training/mod.rs lines 205-221, and the exchange of successor nodes. The own nodes are kept for the edges. -/
def exchange : Stage (List Trans × NodeQuestions) (ForeignNodes × (Nat → List Node)) :=
  comp (carry NodeQuestions (inter p))
    (fun i x => (NodeEst.estimateNodes clu coord p i x.1).map
      (fun nodes => ((x.2, NodeEst.nodesOf nodes), NodeEst.nodesOf nodes)))
    (carry (Nat → List Node) (asking p.nClusterNodes))

/-- `estimate_edges`, src/training/mod.rs lines 223-231, and the transposition. The edges before the transposition are kept for the degrees. -/
def transposed : Stage (List Trans × NodeQuestions) (List Edge × List Edge) :=
  comp (exchange clu coord p)
    (fun _ x => (Edges.connectNodes len x.2 x.1).map (fun es => (Transposition.sortEdges es, Transposition.sortEdges es)))
    (carry (List Edge) (transposition p.nClusterNodes len))

/-- `init_scoring`, src/training/mod.rs lines 249-257 and src/training/scoring/mod.rs lines 58-79: degrees, weights and `edges_in_time`. -/
def weighed : Stage (List Trans × NodeQuestions) ((Counts NodeKey × Counts EdgeKey) × (List Edge × List Nat)) :=
  comp (transposed clu coord p len)
    (fun i x => (EdgesInTime.resultLength p.nClusterNodes i (points i)).bind fun m =>
      (EdgesInTime.count (Transposition.rangeStart (len / p.nClusterNodes) i) m (x.1.map Edge.toId)).map fun cnt =>
        ((Weights.nodeDegrees x.2, Weights.edgeWeight x.1), (x.1, cnt)))
    (carry (List Edge × List Nat) (both (counts NodeKey p.nClusterNodes) (counts EdgeKey p.nClusterNodes)))

/-- `ScoreInitDone`, src/training/scoring/weights.rs lines 224-241: the overlap. -/
def overlapped : Stage (List Trans × NodeQuestions) ((List Edge × List Nat) × Counts EdgeKey × Counts NodeKey) :=
  comp (weighed clu coord p len points) (fun _ x => some (x.2, (x.1.2, x.1.1)))
    (carry (Counts EdgeKey × Counts NodeKey) (overlap p.nClusterNodes p.queryLength))

/-- `score`, src/training/scoring/mod.rs lines 81-156. -/
def scored : Stage (List Trans × NodeQuestions) (List ℚ × Bool) :=
  comp (overlapped clu coord p len points) (fun _ x => some x) (helpers p.nClusterNodes p.queryLength p.nThreads)

/-- From the transitions and the recorded questions of every node to its map of scores, src/training/mod.rs lines 195-279; the last part is
`finalize_parallel_score`, src/training/scoring/mod.rs lines 158-188. -/
def scoring : Stage (List Trans × NodeQuestions) (Nat → Option (List ℚ × Bool)) :=
  comp (scored clu coord p len points) (fun _ x => some x) (scores p.nClusterNodes)

end

/-! ### The segmentation in front -/

/-- The segmentation without self correction (`RotationDoneMessage`, src/training/mod.rs lines 183-193), `Model/Segmentation.lean`. The results
are the transitions, the recorded questions and that the points are not mirrored. A node which crashes when it enters the stage does not
enter it here. -/
def plain (p : Parameters) : Stage (List Point) (List Trans × NodeQuestions × Bool) where
  S := SegNet
  init := SegNet.init
  started s i := (s.loc i).isSome
  start s i x t := i < p.nClusterNodes ∧ s.loc i = none ∧ s.crashed = false ∧ t = SegNet.segment p (fun _ => x.map toPt) s i ∧ t.crashed = false
  step s t := s.crashed = false ∧ ((∃ i pt tr, s.first i = some (pt, tr) ∧ t = SegNet.handleFirst p s i pt tr) ∨
    ∃ pre m post, s.net.pool = pre ++ m :: post ∧ t = { s with net := DirectNet.handleStep s.net m (pre ++ post) })
  out s i := if i < p.nClusterNodes ∧ s.net.done i = 1 then
      some (s.store i, ((s.loc i).map SegState.questions).getD NodeQuestions.clear, false)
    else none

/-- The segmentation with self correction, `Model/CorrNet.lean`, in schedules without the two races named there; the second part of the state
are the points of the nodes which have entered the stage, `mir` is the effect of mirroring on a point. The last result says whether the
node has mirrored its points. -/
def correction (p : Parameters) (mir : Pt → Pt) : Stage (List Point) (List Trans × NodeQuestions × Bool) where
  S := CorrNet × (Nat → Option (List Pt))
  init := ({}, fun _ => none)
  started s i := (s.2 i).isSome
  start s i x t := i < p.nClusterNodes ∧ s.2 i = none ∧ s.1.crashed = false ∧
    (CorrNet.counts (s.1.mailbox i) = [] ∨ (s.1.cproto i).buffer = []) ∧
    t = (CorrNet.enter p (fun _ => x.map toPt) s.1 i, Function.update s.2 i (some (x.map toPt))) ∧ t.1.crashed = false
  step s t := s.1.crashed = false ∧
    ((∃ j i m rest, j < p.nClusterNodes ∧ i < p.nClusterNodes ∧ s.1.link j i = m :: rest ∧
        t = ({ s.1 with
          link := Function.update s.1.link j (Function.update (s.1.link j) i rest)
          mailbox := Function.update s.1.mailbox i (s.1.mailbox i ++ [m]) }, s.2)) ∨
      ∃ i m rest, i < p.nClusterNodes ∧ s.1.mailbox i = m :: rest ∧ (∀ pt tr, m = .first pt tr → s.1.decided i ≠ none) ∧
        t = (CorrNet.handle p (fun k => (s.2 k).getD []) mir { s.1 with mailbox := Function.update s.1.mailbox i rest } i m, s.2))
  out s i := if i < p.nClusterNodes ∧ s.1.done i = 1 then
      some (s.1.store i, ((s.1.loc i).map SegState.questions).getD NodeQuestions.clear, decide (s.1.decided i = some true))
    else none

/-- The segmentation; `mirrored i` are the mirrored points of node `i`. -/
def segmentation (p : Parameters) (mirrored : Nat → List Point) : Stage (List Point) (List Trans × NodeQuestions × Bool) :=
  if p.selfCorrection then correction p (mirrorPt ((List.range p.nClusterNodes).flatMap mirrored)) else plain p

/-- From the points of every node to its map of scores, src/training/mod.rs lines 183-279: `mirrored i` are the mirrored points of node `i`, `eff i` its points after the correction,
`points i` their number, `len` the number of rows. A crossing without coordinates is a crash (`parallel_intersection_tasks`,
src/training/intersection_calculation/mod.rs). -/
def run (e : Nat) (clu : List (List ℝ) → Option (List Nat)) (p : Parameters) (len : Nat) (points : Nat → Nat)
    (mirrored eff : Nat → List Point) : Stage (List Point) (Nat → Option (List ℚ × Bool)) :=
  comp (segmentation p mirrored)
    (fun _ x => if (intersectionTasks p.rate x.1).all
        (fun y => (interCoord e ((List.range p.nClusterNodes).flatMap eff) x.1 p.rate y).isSome) then some (x.1, x.2.1) else none)
    (scoring clu (fun y => (interCoord e ((List.range p.nClusterNodes).flatMap eff) [y.1] p.rate y).getD []) p len points)

/-- A run in which the stages from the segmentation on overlap can deliver vector `v` on node `i`; compare `Cluster.Delivers`. At the time of the
delivery the other nodes may be in any stage. -/
def Delivers {e w : Nat} (lib : Lib w) (resolution order : Nat) (p : Parameters) (series : List (Fin (e + 1) → ℝ)) (i : Nat)
    (v : Option (List (Option ℚ))) : Prop :=
  ∃ pts mirrored eff : Nat → List Point, Cluster.PointsOfAll lib p RotNet.NotEarly series pts ∧
    (p.selfCorrection → ∀ i < p.nClusterNodes, (pts i).mapM (mirrorPoint p.rate) = some (mirrored i)) ∧
    ∃ s, (run e (clustering resolution order p e) p series.length (fun i => (pts i).length) mirrored eff).Run pts s ∧
      (∀ j y, (segmentation p mirrored).out s.1 j = some y → eff j = if y.2.2 then mirrored j else pts j) ∧
      ∃ r, (run e (clustering resolution order p e) p series.length (fun i => (pts i).length) mirrored eff).out s i = some r ∧
        v = SubScores.finalize p.nClusterNodes r

end
end Joint
end S2G
