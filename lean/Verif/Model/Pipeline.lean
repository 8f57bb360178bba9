import Verif.Model.SelfCorrection
import Verif.Model.NodeEstimation
import Verif.Model.Edges
import Verif.Model.Transposition
import Verif.Model.ParallelScore

/-!
# The stages of `Training` one after the other, on one node

`src/training/mod.rs` lines 182-287: each stage sends itself the message which starts the next one. Here the stages from
segmentation to the scores are composed for a run without peers. The clustering (`Model/Kde.lean`), the coordinates of
intersections (`Model/Geometry.lean`) and the effect of mirroring on a point (`SelfCorrection.mirrorPt`) are parameters.
-/

namespace S2G
namespace Pipeline
variable {X : Type}

/-- `segment` without peers, src/training/segmentation/mod.rs lines 82-110, 317-320, 323-353: if self correction is on and there
are too many invalid steps, the state is cleared (the counter of invalid steps is not), the points are mirrored and the
segments are built again. -/
def segment (p : Parameters) (mirror : Pt → Pt) (pts : List Pt) : Option SegState := do
  let s ← SegState.buildSegments p 0 {} pts
  if p.selfCorrection && SelfCorrection.mirrors (SelfCorrection.localCount s) then
    SegState.buildSegments p 0 { invalid := s.invalid } (pts.map mirror)
  else some s

/-- From the points to the edges without peers: the handlers of `SegmentedMessage`, `IntersectionCalculationDone` and
`NodeEstimationDone`, src/training/mod.rs lines 197-236; `sort_edges` in `finalize_edge_estimation`,
src/training/edge_estimation/mod.rs lines 63-66. `len` is the number of rows of the data set (line 32). -/
def localEdges (clu : List X → Option (List Nat)) (coord : Inter → X) (mirror : Pt → Pt) (p : Parameters) (len : Nat)
    (pts : List Pt) : Option (List Edge) := do
  let s ← segment p mirror pts
  let x ← Inter.onResults p 0 {} (intersectionTasks p.rate s.stored)
  let nodes ← NodeEst.estimateNodes clu coord p 0 x.stored
  let es ← Edges.connectNodes len (NodeEst.nodesOf nodes) (fun _ => none)
  some (Transposition.sortEdges es)

/-- From the edges to the instructions for the helpers without peers: node degrees (src/training/mod.rs line 244), no
transposition (lines 246-250), `init_scoring` and `score` (src/training/scoring/mod.rs lines 58-108); `points` is
`num_rotated`. -/
def startScores (p : Parameters) (points : Nat) (edges : List Edge) : Option ParScore := do
  let r ← EdgesInTime.resultLength 1 0 points
  let eit ← EdgesInTime.count 0 r (edges.map Edge.toId)
  let sl ← Scoring.scoreLength eit p.queryLength
  ParScore.init (Scoring.helper edges eit (Weights.edgeWeight edges) (Weights.nodeDegrees edges) p.queryLength) sl p.nThreads

/-- The run without peers up to the answers of the helpers. -/
def localRun (clu : List X → Option (List Nat)) (coord : Inter → X) (mirror : Pt → Pt) (p : Parameters) (len : Nat)
    (pts : List Pt) : Option ParScore := do
  let es ← localEdges clu coord mirror p len pts
  startScores p pts.length es

/-- The vectors which are delivered: `finalize_parallel_score` without peers, src/training/scoring/mod.rs lines 184-187. -/
def delivered (s : ParScore) : List (Option (List (Option ℚ))) := s.final.map (fun f => Scoring.normalize f.1)

end Pipeline
end S2G
