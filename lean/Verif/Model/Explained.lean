import Verif.Model.Contribution
import Verif.Model.Whole

/-!
# The explanation in a run on one node

`src/training/node_estimation/mod.rs` lines 52-87 and 227-269 with `explainability`: the centres and the labels of each segment go to
the actor `AnomalyContribution`, whose mailbox keeps the order of messages, so that all are recorded before the first question
(`src/training/scoring/mod.rs` lines 110-132, sent after the scores are complete, lines 222-232). A panic of the actor ends the run.
The limit of C101 on the size of the numbers, which here also holds for segments with a single crossing, is added in
`Model/ExplainedHashed.lean` (C104).
-/

namespace S2G
namespace Contribution
variable {X V : Type} [DecidableEq V] {nd : Nat}

/-- Labels and centres of the intersections of one segment: `estimate_nodes`, src/training/node_estimation/mod.rs lines 52-87 (one
intersection is its own centre). -/
def segmentClusters (clu : List X → Option (List Nat × List (Fin nd → V))) (one : X → Fin nd → V) (coord : Inter → X)
    (xs : List Inter) : Option (List Nat × List (Fin nd → V)) :=
  match xs with
  | [] => some ([], [])
  | [x] => some ([0], [one (coord x)])
  | xs => clu (xs.map coord)

/-- What the handler of `ClusteringResponse` sends to `AnomalyContribution`, lines 231-260: nothing without labels. -/
def recordSegment (m : Contribs nd) (xs : List Inter) (r : List Nat × List (Fin nd → V)) : Option (Contribs nd) :=
  if r.1 = [] then some m else record m (NodeEst.segmentNodes xs r.1) r.2 (labelCounts r.1)

/-- The loop over the segments, as `NodeEst.estimateLoop`. -/
def recordLoop (clu : List X → Option (List Nat × List (Fin nd → V))) (one : X → Fin nd → V) (coord : Inter → X) (rate : Nat)
    (stored : List Inter) (seg : Nat) (m : Contribs nd) : Option (Contribs nd) := do
  let xs := stored.filter (fun x => x.2 = seg)
  let r ← segmentClusters clu one coord xs
  let m ← recordSegment m xs r
  if _h : seg + 1 < rate then recordLoop clu one coord rate stored (seg + 1) m else some m
termination_by rate - seg

/-- All that is recorded at node `own`. -/
def recorded (clu : List X → Option (List Nat × List (Fin nd → V))) (one : X → Fin nd → V) (coord : Inter → X) (p : Parameters)
    (own : Nat) (stored : List Inter) : Option (Contribs nd) := do
  let start ← NodeEst.startSegment p own
  recordLoop clu one coord p.rate stored start (fun _ => none)

/-- From the points to the explanation without peers, along `Pipeline.localEdges` and `Pipeline.startScores`. -/
def localExplanation (clu : List X → Option (List Nat × List (Fin nd → V))) (one : X → Fin nd → V) (coord : Inter → X)
    (mirror : Pt → Pt) (p : Parameters) (len : Nat) (pts : List Pt) : Option (List (Fin nd → ℚ)) := do
  let s ← Pipeline.segment p mirror pts
  let x ← Inter.onResults p 0 {} (intersectionTasks p.rate s.stored)
  let m ← recorded clu one coord p 0 x.stored
  let es ← Pipeline.localEdges (fun l => (clu l).map Prod.fst) coord mirror p len pts
  let r ← EdgesInTime.resultLength 1 0 pts.length
  let eit ← EdgesInTime.count 0 r (es.map Edge.toId)
  explain m es eit p.queryLength

end Contribution

namespace Whole
open Points
noncomputable section

/-- The clustering with its centres. -/
def clusters (resolution order : Nat) (p : Parameters) (e : Nat) (data : List (List ℝ)) : Option (List Nat × List (Fin (e + 1) → ℝ)) :=
  (Kde.cluster p.nThreads resolution order (e + 1) data).map (fun r => (r.1, r.2.map (vec (e + 1))))

/-- The stages from the segmentation to the explanation. -/
def explanationWith (resolution order : Nat) (p : Parameters) (e len : Nat) (mirror : Pt → Pt) (pts : List Pt) (eff : List Point)
    (stored : List Trans) : Option (List (Fin (e + 1) → ℚ)) :=
  if (intersectionTasks p.rate stored).all (fun x => (interCoord e eff stored p.rate x).isSome) then
    Contribution.localExplanation (clusters resolution order p e) (vec (e + 1)) (fun x => (interCoord e eff stored p.rate x).getD [])
      mirror p len pts
  else none

/-- The stages from the points to the explanation. -/
def explanation (resolution order : Nat) (p : Parameters) (e len : Nat) (pts : List Point) : Option (List (Fin (e + 1) → ℚ)) := do
  let mirrored ← pts.mapM (mirrorPoint p.rate)
  let eff ← effectivePoints p mirrored pts
  let t ← Pipeline.segment p (mirrorPt mirrored) (pts.map toPt)
  explanationWith resolution order p e len (mirrorPt mirrored) (pts.map toPt) eff t.stored

/-- A run on the series with `explainability`, which gets as far as the scores, ends with the outcome `out` of the explanation: the rows
which are written, or a panic. -/
def Explains {e w : Nat} (lib : Lib w) (resolution order : Nat) (p : Parameters) (series : List (Fin (e + 1) → ℝ))
    (out : Option (List (Fin (e + 1) → ℚ))) : Prop :=
  ∃ pts, PointsOf lib p series pts ∧ score resolution order p e series.length pts ≠ none ∧
    explanation resolution order p e series.length pts = out

end
end Whole
end S2G
