import Verif.Model.Cluster
import Verif.Model.CorrNet
import Verif.Model.EdgesInTime
import Verif.Model.Overlap
import Verif.Model.SubScores
import Verif.Model.Weights
import Verif.Model.NodeQA

/-!
# From the points to the delivered scores, on several nodes

`Training` with peers (src/training/mod.rs lines 183-279): the stages from the segmentation on, one after the other on every node.
The stages are those of `Model/Segmentation.lean`, `Model/CorrNet.lean`, `Model/Intersections.lean`, `Model/NodeEstimation.lean`,
`Model/NodeQA.lean`, `Model/Edges.lean`, `Model/Transposition.lean`, `Model/Weights.lean`, `Model/EdgesInTime.lean`,
`Model/Overlap.lean`, `Model/ParallelScore.lean` and `Model/SubScores.lean`. Every stage has a mailbox of its own here: messages of a
later stage which arrive early are buffered by the protocols of that stage.
-/

namespace S2G
namespace Cluster
noncomputable section

open Whole Points

variable {e w : Nat} {X : Type}

/-- The segmentation is over on all nodes (`RotationDoneMessage` and `SegmentedMessage`, src/training/mod.rs lines 183-203). `eff`: the points from now on; `stores`: the transitions of the data stores; `qs`: the
recorded questions. With self correction `Model/CorrNet.lean`, in schedules without the two races named there. -/
def Segmented (p : Parameters) (pts eff : Nat → List Point) (stores : Nat → List Trans) (qs : Nat → NodeQuestions) : Prop :=
  if p.selfCorrection then
    ∃ (mirrored : Nat → List Point) (s : CorrNet),
      (∀ i < p.nClusterNodes, (pts i).mapM (mirrorPoint p.rate) = some (mirrored i)) ∧
      CorrNet.Reachable true true p (fun i => (pts i).map toPt) (mirrorPt ((List.range p.nClusterNodes).flatMap mirrored)) s ∧
      (∀ i < p.nClusterNodes, s.done i = 1) ∧ (∀ i, eff i = if s.decided i = some true then mirrored i else pts i) ∧
      stores = s.store ∧ qs = fun i => ((s.loc i).map SegState.questions).getD NodeQuestions.clear
  else
    ∃ s : SegNet, SegNet.Reachable p (fun i => (pts i).map toPt) s ∧ (∀ i < p.nClusterNodes, s.net.done i = 1) ∧ eff = pts ∧
      stores = s.store ∧ qs = fun i => ((s.loc i).map SegState.questions).getD NodeQuestions.clear

/-- The stages after the segmentation, each of them over on all nodes; `points i` is `num_rotated` of node `i`, `len` the number of rows
of the data set (`dataset_stats.n`). The rotations of degrees, weights and scores are without the race of C18. -/
structure Scored (clu : List X → Option (List Nat)) (coord : Inter → X) (p : Parameters) (len : Nat) (points : Nat → Nat)
    (stores : Nat → List Trans) (qs : Nat → NodeQuestions)
    (it : InterNet) (nodes : Nat → List Node) (qn : QNet) (es edges : Nat → List Edge) (tr : TransNet)
    (deg : RingNet (Counts NodeKey)) (wt : RingNet (Counts EdgeKey)) (m : Nat → Nat) (cnt : Nat → List Nat) (ov : OvNet)
    (job : Nat → List Edge × List Nat) (par : Nat → ParScore) (sub : RingNet (List ℚ × Bool)) : Prop where
  /-- `calculate_intersections` and the exchange of intersections, src/training/mod.rs lines 195-203 -/
  inter : InterNet.Reachable p stores it
  interDone : ∀ i < p.nClusterNodes, it.net.done i = 1
  /-- `estimate_nodes`, lines 205-221 -/
  estimate : ∀ j < p.nClusterNodes, NodeEst.estimateNodes clu coord p j (it.store p j) = some (nodes j)
  /-- `estimate_edges`, lines 223-231: exchange of successor nodes, edges, sorting -/
  exchange : QNet.Reachable p.nClusterNodes qs (fun a => NodeEst.nodesOf (nodes a)) qn
  exchanged : ∀ j < p.nClusterNodes, qn.fin j = 1
  connect : ∀ j < p.nClusterNodes, Edges.connectNodes len (NodeEst.nodesOf (nodes j)) (qn.nfn j) = some (es j)
  sorted : ∀ j < p.nClusterNodes, edges j = Transposition.sortEdges (es j)
  /-- transposition, lines 233-247 -/
  transposition : TransNet.Reachable p.nClusterNodes len edges tr
  transposed : ∀ j < p.nClusterNodes, tr.net.done j = 1
  /-- rotation of degrees and weights -/
  degrees : RingNet.Reachable true p.nClusterNodes deg
  degreesPay : ∀ j < p.nClusterNodes, deg.pay j = Weights.nodeDegrees (edges j)
  degreesDone : ∀ j < p.nClusterNodes, deg.done j = 1
  weights : RingNet.Reachable true p.nClusterNodes wt
  weightsPay : ∀ j < p.nClusterNodes, wt.pay j = Weights.edgeWeight (tr.store j)
  weightsDone : ∀ j < p.nClusterNodes, wt.done j = 1
  /-- `init_scoring` (lines 249-257), src/training/scoring/mod.rs lines 58-108 -/
  resultLength : ∀ i < p.nClusterNodes, EdgesInTime.resultLength p.nClusterNodes i (points i) = some (m i)
  count : ∀ i < p.nClusterNodes, EdgesInTime.count (Transposition.rangeStart (len / p.nClusterNodes) i) (m i)
    ((tr.store i).map Edge.toId) = some (cnt i)
  overlap : OvNet.Reachable p.nClusterNodes p.queryLength tr.store cnt ov
  overlapped : ∀ i < p.nClusterNodes, ov.scored i = [job i]
  /-- the helpers of every node -/
  threads : ∀ i < p.nClusterNodes, ∃ sl s0, Scoring.scoreLength (job i).2 p.queryLength = some sl ∧
    ParScore.init (Scoring.helper (job i).1 (job i).2 (Weights.rotated wt i) (Weights.rotated deg i) p.queryLength) sl p.nThreads = some s0 ∧
    ParScore.Reachable s0 (par i) ∧ (par i).final = [sub.pay i]
  /-- rotation of the scores -/
  scores : RingNet.Reachable true p.nClusterNodes sub
  scoresDone : ∀ i < p.nClusterNodes, sub.done i = 1

/-- The coordinates of a crossing: computed by the node which has stored the step (`parallel_intersection_tasks`,
src/training/intersection_calculation/mod.rs). -/
def crossing (e : Nat) (p : Parameters) (pts : List Point) (stores : Nat → List Trans) (x : Inter) : Option (List ℝ) :=
  ((List.range p.nClusterNodes).find? (fun i => x.1 ∈ stores i)).bind (fun i => interCoord e pts (stores i) p.rate x)

/-- A run on several nodes can end with vector `v` on node `i` (`ScoringDone`, src/training/mod.rs lines 259-279; a node which has been given a path for the output writes it there). -/
def Delivers (lib : Lib w) (resolution order : Nat) (p : Parameters) (series : List (Fin (e + 1) → ℝ)) (i : Nat)
    (v : Option (List (Option ℚ))) : Prop :=
  ∃ pts eff stores qs, PointsOfAll lib p RotNet.NotEarly series pts ∧ Segmented p pts eff stores qs ∧
    (∀ j < p.nClusterNodes, ∀ x ∈ intersectionTasks p.rate (stores j),
      (interCoord e ((List.range p.nClusterNodes).flatMap eff) (stores j) p.rate x).isSome) ∧
    ∃ it nodes qn es edges tr deg wt m cnt ov job par sub,
      Scored (clustering resolution order p e)
        (fun x => (crossing e p ((List.range p.nClusterNodes).flatMap eff) stores x).getD []) p series.length
        (fun i => (pts i).length) stores qs it nodes qn es edges tr deg wt m cnt ov job par sub ∧
      v = SubScores.finalize p.nClusterNodes (SubScores.subscores sub i)

end
end Cluster
end S2G
