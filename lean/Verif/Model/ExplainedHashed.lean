import Verif.Model.Explained
import Verif.Model.Hashed

/-!
# The explanation with the keys of `src/utils/float_approx.rs`

`calculate_dimension_uniqueness` (src/training/anomaly_contribution/mod.rs lines 47-79) counts the coordinates of the centres in a `HashMap`
with keys `FloatApprox`, for every segment which is crossed, also for those which are crossed once and are not clustered. As in
`Model/Hashed.lean` computing the hash of a number which is too large panics; everything else is as in `Model/Contribution.lean` and
`Model/Explained.lean`. (The medians, src/training/scoring/mod.rs lines 361-372, compare numbers between 0 and 1 only.)
-/

namespace S2G
namespace Contribution
noncomputable section
variable {X : Type} {nd : Nat}

/-- One column of `calculate_dimension_uniqueness`, src/training/anomaly_contribution/mod.rs lines 56-75: all coordinates are looked up (line 72),
and those with a label are counted (line 60). -/
def uniquenessColHashed (dim : List ℝ) (counts : List Nat) : Option (List ℚ) := do
  let _ ← dim.mapM Kde.approximate
  uniquenessCol dim counts

/-- `calculate_dimension_uniqueness`, lines 47-79. -/
def uniquenessHashed (centers : List (Fin nd → ℝ)) (counts : List Nat) : Option (List (Fin nd → ℚ)) := do
  let cols ← (List.finRange nd).mapM (fun d => uniquenessColHashed (centers.map (· d)) counts)
  some ((List.range centers.length).map (fun i d => ((cols.getD d [])[i]?).getD 0))

/-- `record_contributions`, lines 28-45. -/
def recordHashed (m : Contribs nd) (nodes : List Node) (centers : List (Fin nd → ℝ)) (counts : List Nat) : Option (Contribs nd) := do
  let scores ← uniquenessHashed centers counts
  nodes.foldlM (fun m v => do
    let r ← scores[v.cluster]?
    some (Function.update m v.nodeKey (some r))) m

/-- The handler of `ClusteringResponse`, src/training/node_estimation/mod.rs lines 231-260. -/
def recordSegmentHashed (m : Contribs nd) (xs : List Inter) (r : List Nat × List (Fin nd → ℝ)) : Option (Contribs nd) :=
  if r.1 = [] then some m else recordHashed m (NodeEst.segmentNodes xs r.1) r.2 (labelCounts r.1)

/-- The loop over the segments, as `recordLoop` (src/training/node_estimation/mod.rs lines 52-87 and 227-269). -/
def recordLoopHashed (clu : List X → Option (List Nat × List (Fin nd → ℝ))) (one : X → Fin nd → ℝ) (coord : Inter → X) (rate : Nat)
    (stored : List Inter) (seg : Nat) (m : Contribs nd) : Option (Contribs nd) := do
  let xs := stored.filter (fun x => x.2 = seg)
  let r ← segmentClusters clu one coord xs
  let m ← recordSegmentHashed m xs r
  if _h : seg + 1 < rate then recordLoopHashed clu one coord rate stored (seg + 1) m else some m
termination_by rate - seg

/-- All that is recorded at node `own`, as `recorded` (src/training/node_estimation/mod.rs lines 52-87). -/
def recordedHashed (clu : List X → Option (List Nat × List (Fin nd → ℝ))) (one : X → Fin nd → ℝ) (coord : Inter → X) (p : Parameters)
    (own : Nat) (stored : List Inter) : Option (Contribs nd) := do
  let start ← NodeEst.startSegment p own
  recordLoopHashed clu one coord p.rate stored start (fun _ => none)

/-- From the points to the explanation, as `localExplanation` (src/training/scoring/mod.rs lines 110-132 and 337-387). -/
def localExplanationHashed (clu : List X → Option (List Nat × List (Fin nd → ℝ))) (one : X → Fin nd → ℝ) (coord : Inter → X)
    (mirror : Pt → Pt) (p : Parameters) (len : Nat) (pts : List Pt) : Option (List (Fin nd → ℚ)) := do
  let s ← Pipeline.segment p mirror pts
  let x ← Inter.onResults p 0 {} (intersectionTasks p.rate s.stored)
  let m ← recordedHashed clu one coord p 0 x.stored
  let es ← Pipeline.localEdges (fun l => (clu l).map Prod.fst) coord mirror p len pts
  let r ← EdgesInTime.resultLength 1 0 pts.length
  let eit ← EdgesInTime.count 0 r (es.map Edge.toId)
  explain m es eit p.queryLength

end
end Contribution

namespace Whole
open Points
noncomputable section

/-- The clustering with its centres and the hashes, src/training/node_estimation/multi_kde/mod.rs lines 122-159. -/
def clustersHashed (resolution order : Nat) (p : Parameters) (e : Nat) (data : List (List ℝ)) : Option (List Nat × List (Fin (e + 1) → ℝ)) :=
  (Kde.clusterHashed p.nThreads resolution order (e + 1) data).map (fun r => (r.1, r.2.map (vec (e + 1))))

/-- `explanationWith` with the hashes. -/
def explanationWithHashed (resolution order : Nat) (p : Parameters) (e len : Nat) (mirror : Pt → Pt) (pts : List Pt) (eff : List Point)
    (stored : List Trans) : Option (List (Fin (e + 1) → ℚ)) :=
  if (intersectionTasks p.rate stored).all (fun x => (interCoord e eff stored p.rate x).isSome) then
    Contribution.localExplanationHashed (clustersHashed resolution order p e) (vec (e + 1))
      (fun x => (interCoord e eff stored p.rate x).getD []) mirror p len pts
  else none

/-- `explanation` with the hashes. -/
def explanationHashed (resolution order : Nat) (p : Parameters) (e len : Nat) (pts : List Point) : Option (List (Fin (e + 1) → ℚ)) := do
  let mirrored ← pts.mapM (mirrorPoint p.rate)
  let eff ← effectivePoints p mirrored pts
  let t ← Pipeline.segment p (mirrorPt mirrored) (pts.map toPt)
  explanationWithHashed resolution order p e len (mirrorPt mirrored) (pts.map toPt) eff t.stored

/-- `Explains` with the hashes. -/
def ExplainsHashed {e w : Nat} (lib : Lib w) (resolution order : Nat) (p : Parameters) (series : List (Fin (e + 1) → ℝ))
    (out : Option (List (Fin (e + 1) → ℚ))) : Prop :=
  ∃ pts, PointsOf lib p series pts ∧ scoreHashed resolution order p e series.length pts ≠ none ∧
    explanationHashed resolution order p e series.length pts = out

end
end Whole
end S2G
