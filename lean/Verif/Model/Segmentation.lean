import Verif.Model.Transition
import Verif.Model.Protocols

/-!
# Model of `src/training/segmentation/mod.rs` and `src/data_store/node_questions`

`TransitionsForNodes` and `NodeQuestions` are hash maps with vectors as values; the code inserts a new vector
if the key is missing and pushes otherwise, which is modelled by total functions with default `[]`.
`none` is a panic.
-/

namespace S2G

/-- `NodeInQuestion`, src/data_store/node_questions/node_in_question.rs lines 3-9. -/
structure NIQ where
  prevId : Nat
  prevSeg : Nat
  pointId : Nat
  seg : Nat
  deriving Repr, DecidableEq

/-- `Vec::dedup`: removes consecutive repetitions. -/
def dedupConsecutive : List NIQ → List NIQ
  | [] => []
  | [a] => [a]
  | a :: b :: l => if a = b then dedupConsecutive (b :: l) else a :: dedupConsecutive (b :: l)

/-- `NodeQuestions`, src/data_store/node_questions/mod.rs lines 13-18: answering node → asking node → questions. -/
abbrev NodeQuestions := Nat → Nat → List NIQ

namespace NodeQuestions

/-- `add_niq`, src/data_store/node_questions/mod.rs lines 21-39. -/
def addNiq (q : NodeQuestions) (answering asking : Nat) (niq : NIQ) : NodeQuestions :=
  if asking ≠ answering then
    fun a b => if a = answering ∧ b = asking then dedupConsecutive (q a b ++ [niq]) else q a b
  else q

/-- `get_wanted_segment`, lines 72-84. -/
def getWantedSegment (p : Parameters) (t : Trans) (i : Nat) : Option (Nat × Nat) := do
  let wanted ← p.firstSegmentOfINextClusterNode t.src.seg (i + 1)
  some (wanted, (Int.emod ((wanted : Int) - 1) p.rate).toNat)

/-- The closure of lines 100-124 (previous transition known, split within the transition). -/
def niqWithinPrev (p : Parameters) (t prev : Trans) (i : Nat) : Option NIQ := do
  let (wanted, before) ← getWantedSegment p t i
  let (prevId, prevSeg) :=
    if wanted == t.firstIntersectionSegment p.rate && i == 0 then (prev.src.id, prev.dst.seg)
    else (t.src.id, before)
  some ⟨prevId, prevSeg, t.src.id, wanted % p.rate⟩

/-- The closure of lines 135-145 (no previous transition). -/
def niqWithin (p : Parameters) (t : Trans) (i : Nat) : Option NIQ := do
  let (wanted, before) ← getWantedSegment p t i
  some ⟨t.src.id, before, t.src.id, wanted % p.rate⟩

/-- The questions built by `ask`, lines 94-149. Asking without a previous transition between transitions
panics (line 148). -/
def questionsOf (p : Parameters) (t : Trans) (prev : Option Trans) (within : Bool) (span : Nat) :
    Option (List NIQ) :=
  match prev, within with
  | some prev, true => (List.range span).mapM (niqWithinPrev p t prev)
  | some prev, false =>
    some [⟨prev.src.id, prev.dst.seg, t.src.id, t.firstIntersectionSegment p.rate⟩]
  | none, true => (List.range span).mapM (niqWithin p t)
  | none, false => none

/-- One iteration of the loop in lines 151-157. -/
def addQuestion (p : Parameters) (q : NodeQuestions) (niq : NIQ) : Option NodeQuestions := do
  let asking ← p.segmentIdToAssignment niq.prevSeg
  let answering ← p.segmentIdToAssignment niq.seg
  some (q.addNiq answering asking niq)

/-- `ask`, lines 86-158. -/
def ask (q : NodeQuestions) (p : Parameters) (t : Trans) (prev : Option Trans) (within : Bool) (span : Nat) :
    Option NodeQuestions := do
  let niqs ← questionsOf p t prev within span
  niqs.foldlM (addQuestion p) q

/-- `clear`, lines 160-162. -/
def clear : NodeQuestions := fun _ _ => []

end NodeQuestions

/-- `cluster_node_diff`, src/training/mod.rs lines 95-99. -/
def clusterNodeDiff (p : Parameters) (fromNode toNode : Nat) : Nat :=
  (Int.emod ((toNode : Int) - fromNode) p.nClusterNodes).toNat

/-- The fields of `Segmentation` (src/training/segmentation/mod.rs lines 25-38) written by `build_segments`,
the transitions of the data store, and the local variables of the loop. -/
structure SegState where
  sendPoint : Option Pt := none
  sendTransition : Option Trans := none
  lastPoint : Option Pt := none
  lastTransition : Option Trans := none
  /-- local variable `last_to_node_id` -/
  lastToNode : Option Nat := none
  questions : NodeQuestions := NodeQuestions.clear
  /-- `foreign_data` / `transitions_for_nodes` -/
  forNodes : Nat → List Trans := fun _ => []
  /-- transitions of the data store -/
  stored : List Trans := []
  invalid : Nat := 0

namespace SegState

/-- `search_split_between_transitions`, src/training/segmentation/mod.rs lines 207-224. -/
def splitBetween (s : SegState) (p : Parameters) (prev : Option Trans) (t : Trans) (fromNode lastTo : Nat) :
    Option SegState :=
  if fromNode ≠ lastTo then do
    let q ← s.questions.ask p t prev false 1
    some { s with questions := q }
  else some s

/-- `search_split_within_transition`, lines 226-243. -/
def splitWithin (s : SegState) (p : Parameters) (prev : Option Trans) (t : Trans) (fromNode toNode : Nat) :
    Option SegState :=
  if fromNode ≠ toNode then do
    let q ← s.questions.ask p t prev true (clusterNodeDiff p fromNode toNode)
    some { s with questions := q }
  else some s

/-- `find_splits`, lines 187-205. -/
def findSplits (s : SegState) (p : Parameters) (prev : Option Trans) (lastTo : Option Nat) (t : Trans)
    (fromNode toNode : Nat) : Option SegState := do
  let s ← match lastTo with
    | some l => s.splitBetween p prev t fromNode l
    | none => some s
  s.splitWithin p prev t fromNode toNode

/-- Recording a valid transition: lines 131-136, 146-155 (= 403-407 and 417-430 in the handler). -/
def record (s : SegState) (own fromNode : Nat) (t : Trans) : SegState :=
  { s with
    stored := if fromNode = own then s.stored ++ [t] else s.stored
    forNodes := fun a => if a = fromNode then s.forNodes a ++ [t] else s.forNodes a }

/-- The branch of a valid transition in the loop, lines 128-161. The data store is written before and
`foreign_data` after `find_splits`, which touches neither of the two. -/
def onValid (s : SegState) (p : Parameters) (own : Nat) (t : Trans) : Option SegState := do
  let fromNode ← p.segmentIdToAssignment t.src.seg
  let toNode ← p.segmentIdToAssignment t.dst.seg
  let s ← s.findSplits p s.lastTransition s.lastToNode t fromNode toNode
  let s := s.record own fromNode t
  some { s with
    lastToNode := some toNode
    sendTransition := if s.sendTransition.isNone then some t else s.sendTransition
    lastTransition := some t }

/-- One iteration of the loop, lines 119-176. -/
def onPoint (p : Parameters) (own : Nat) (s : SegState) (pt : Pt) : Option SegState := do
  let s' ← match s.lastPoint with
    | some lp =>
      let t : Trans := ⟨lp, pt⟩
      if t.isValid p.rate then s.onValid p own t
      else if p.selfCorrection && t.crossesSegments && !t.hasValidDirection p.rate then
        some { s with invalid := s.invalid + 1 }
      else some s
    | none => if own ≠ 0 then some { s with sendPoint := some pt } else some s
  some { s' with lastPoint := some pt }

/-- `build_segments`, lines 112-185. `s0` carries over the fields which are not local to the function
(counters, questions, stored transitions); `last_point`, `last_transition`, `last_to_node_id` and
`foreign_data` start empty (lines 115-118). -/
def buildSegments (p : Parameters) (own : Nat) (s0 : SegState) (pts : List Pt) : Option SegState :=
  pts.foldlM (onPoint p own)
    { s0 with lastPoint := none, lastTransition := none, lastToNode := none, forNodes := fun _ => [] }

/-- `SendFirstPointMessage` handler up to the start of the direct exchange, lines 388-441. `take().unwrap()`
and `as_ref().unwrap()` panic if the node has not run `build_segments` yet or found no valid transition. -/
def onFirstPoint (p : Parameters) (own : Nat) (s : SegState) (pt : Pt) (first : Trans) : Option SegState := do
  let lp ← s.lastPoint
  let s := { s with lastPoint := none }
  let lt ← s.lastTransition
  let span : Trans := ⟨lp, pt⟩
  if span.isValid p.rate then do
    let fromNode ← p.segmentIdToAssignment span.src.seg
    let toNode ← p.segmentIdToAssignment span.dst.seg
    let lastTo ← p.segmentIdToAssignment lt.dst.seg
    let s ← s.findSplits p (some lt) (some lastTo) span fromNode toNode
    some (s.record own fromNode span)
  else do
    let fromNode ← p.segmentIdToAssignment first.src.seg
    let lastTo ← p.segmentIdToAssignment lt.dst.seg
    s.splitBetween p (some lt) first fromNode lastTo

end SegState

/-! ## The whole cluster -/

/-- State of the cluster during segmentation without self correction. -/
structure SegNet where
  /-- local state; `none` before the node ran `segment` -/
  loc : Nat → Option SegState
  /-- the `SendFirstPointMessage` on its way to node `i` -/
  first : Nat → Option (Pt × Trans)
  /-- the exchange of `SegmentMessage`s -/
  net : DirectNet (List Trans)
  /-- some actor has panicked -/
  crashed : Bool

namespace SegNet

/-- before any node entered the stage -/
def init : SegNet where
  loc := fun _ => none
  first := fun _ => none
  net := DirectNet.init (fun _ _ => [])
  crashed := false

/-- `distribute_segments` with the preceding `start` and `resolve_buffer`,
src/training/segmentation/mod.rs lines 101-109 and 444-453, 271-288. -/
def distribute (p : Parameters) (s : SegNet) (i : Nat) (l : SegState) : SegNet :=
  { s with net := DirectNet.startStep false p.nClusterNodes s.net i l.forNodes }

/-- `try_send_inter_node_points`, lines 245-269: with peers (`n ≥ 2`) the first point and the first transition
are sent to the previous node if both exist; `send_point` is only set for `i ≠ 0`. -/
def trySend (p : Parameters) (first : Nat → Option (Pt × Trans)) (i : Nat) (sendPoint : Option Pt)
    (sendTransition : Option Trans) : Nat → Option (Pt × Trans) :=
  match sendPoint, sendTransition with
  | some pt, some t =>
    if p.nClusterNodes ≤ 1 then first
    else Function.update first (if i = 0 then p.nClusterNodes - 1 else i - 1) (some (pt, t))
  | _, _ => first

/-- `segment` with `distribute_or_wait_for_segments`, lines 83-110, for self correction off. Both fields sent
are taken out of the state. The node waits unless it is the last one (`cluster_nodes.len() = n - 1`) or alone. -/
def segment (p : Parameters) (pts : Nat → List Pt) (s : SegNet) (i : Nat) : SegNet :=
  match SegState.buildSegments p i {} (pts i) with
  | none => { s with crashed := true }
  | some l =>
    let s1 : SegNet :=
      { s with
        loc := Function.update s.loc i (some { l with sendPoint := none, sendTransition := none })
        first := trySend p s.first i l.sendPoint l.sendTransition }
    if p.nClusterNodes ≥ 2 ∧ i ≠ p.nClusterNodes - 1 then s1 else distribute p s1 i l

/-- Node `i` handles the `SendFirstPointMessage`, lines 388-454. -/
def handleFirst (p : Parameters) (s : SegNet) (i : Nat) (pt : Pt) (t : Trans) : SegNet :=
  let s := { s with first := Function.update s.first i none }
  match s.loc i with
  | none => { s with crashed := true }
  | some l =>
    match l.onFirstPoint p i pt t with
    | none => { s with crashed := true }
    | some l' =>
      distribute p { s with loc := Function.update s.loc i (some { l' with forNodes := fun _ => [] }) } i l'

/-- One step of the cluster. -/
inductive Step (p : Parameters) (pts : Nat → List Pt) : SegNet → SegNet → Prop
  | segment (s : SegNet) (i : Nat) (hi : i < p.nClusterNodes) (h : s.loc i = none) (hc : s.crashed = false) :
      Step p pts s (segment p pts s i)
  | first (s : SegNet) (i : Nat) (pt : Pt) (t : Trans) (h : s.first i = some (pt, t))
      (hc : s.crashed = false) : Step p pts s (handleFirst p s i pt t)
  | exchange (s : SegNet) (pre post : List (DMsg (List Trans))) (m : DMsg (List Trans))
      (h : s.net.pool = pre ++ m :: post) (hc : s.crashed = false) :
      Step p pts s { s with net := DirectNet.handleStep s.net m (pre ++ post) }

/-- Reachable states: arbitrary schedules. -/
inductive Reachable (p : Parameters) (pts : Nat → List Pt) : SegNet → Prop
  | init : Reachable p pts init
  | step {s t} : Reachable p pts s → Step p pts s t → Reachable p pts t

/-- The transitions in the data store of node `i`: those added by `build_segments` and the first-point
handler, and those received (`add_materialized_transitions`, line 464, in processing order). -/
def store (s : SegNet) (i : Nat) : List Trans :=
  ((s.loc i).map SegState.stored).getD [] ++ (s.net.processed i).flatMap DMsg.body

end SegNet
end S2G
