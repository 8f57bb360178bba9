import Verif.Model.FloatScore
import Verif.Model.Pipeline

/-!
# The scores of a run on one node in single precision

`Model/Pipeline.lean` from the edges on, with the helpers of `Model/FloatScore.lean`.
-/

namespace S2G
namespace FloatRun
namespace Score

/-- From the edges to the instructions for the helpers without peers, as `Pipeline.startScores`: src/training/mod.rs lines 244-250,
src/training/scoring/mod.rs lines 67-108. -/
def start (p : Parameters) (points : Nat) (edges : List Edge) : Option ParScore := do
  let r ← EdgesInTime.resultLength 1 0 points
  let eit ← EdgesInTime.count 0 r (edges.map Edge.toId)
  let sl ← Scoring.scoreLength eit p.queryLength
  ParScore.init (helper edges eit (Weights.edgeWeight edges) (Weights.nodeDegrees edges) p.queryLength) sl p.nThreads

/-- The run from the points on, as `Pipeline.localRun`. -/
def run {X : Type} (clu : List X → Option (List Nat)) (coord : Inter → X) (mirror : Pt → Pt) (p : Parameters) (len : Nat)
    (pts : List Pt) : Option ParScore := do
  let es ← Pipeline.localEdges clu coord mirror p len pts
  start p pts.length es

/-- The vectors which are delivered, src/training/scoring/mod.rs lines 184-187. -/
def delivered (s : ParScore) : List (Option (List (Option ℚ))) := s.final.map (fun f => normalize f.1)

end Score
end FloatRun
end S2G
