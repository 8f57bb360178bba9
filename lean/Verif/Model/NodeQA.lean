import Verif.Model.Segmentation
import Verif.Model.NodeEstimation

/-!
# Model of the exchange of successor nodes, `src/training/node_estimation/mod.rs` lines 89-224 and 271-311

Every node sends its questions to all nodes (including itself), answers those addressed to it when it has received
the questions of all nodes, and takes in the answers.
-/

namespace S2G

/-- One element of `ForeignNodesAnswer`, src/training/node_estimation/messages.rs: `(prev_point_id, prev_segment_id,
point_id, node)`. -/
structure NodeAnswer where
  prevId : Nat
  prevSeg : Nat
  pointId : Nat
  node : Node
  deriving Repr, DecidableEq

/-- `next_foreign_node`: `(point id, segment) ↦ node` (the stored point id of the value is never read). -/
abbrev ForeignNodes := Nat × Nat → Option Node

namespace NodeQA

/-- The lookup of one question, lines 129-157 (`none`: one of the two panics). `nodesOf` is
`get_nodes_by_point_id`, which is `None` iff there are no nodes. -/
def lookup (nodesOf : Nat → List Node) (q : NIQ) : Option NodeAnswer :=
  ((nodesOf q.pointId).find? (fun v => v.seg = q.seg)).map (fun v => ⟨q.prevId, q.prevSeg, q.pointId, v⟩)

/-- One iteration of `search_for_asked_nodes`, lines 124-165. -/
def searchFor (nodesOf : Nat → List Node) (qs : Nat → List NIQ) (answers : Nat → List NodeAnswer) (asking : Nat) :
    Option (Nat → List NodeAnswer) := do
  let as ← (qs asking).mapM (lookup nodesOf)
  some (Function.update answers asking (answers asking ++ as))

/-- `search_for_asked_nodes`, lines 123-167: the asking nodes are the peers, not the node itself. -/
def searchAsked (n own : Nat) (nodesOf : Nat → List Node) (answers : Nat → List NodeAnswer) (qs : Nat → List NIQ) :
    Option (Nat → List NodeAnswer) :=
  (DirectNet.peers false n own).foldlM (searchFor nodesOf qs) answers

/-- `take_in_answers`, lines 210-216. -/
def takeIn (nfn : ForeignNodes) (as : List NodeAnswer) : ForeignNodes :=
  as.foldl (fun m a => Function.update m (a.prevId, a.prevSeg) (some a.node)) nfn

end NodeQA

/-- State of the cluster during the exchange. -/
structure QNet where
  /-- exchange of questions; body: asking node ↦ questions -/
  ask : DirectNet (Nat → List NIQ)
  /-- exchange of answers -/
  ans : DirectNet (List NodeAnswer)
  /-- collected answers: answering node, asking node -/
  answers : Nat → Nat → List NodeAnswer
  nfn : Nat → ForeignNodes
  /-- how often the node sent `NodeEstimationDone` -/
  fin : Nat → Nat
  /-- some actor has panicked -/
  crashed : Bool

namespace QNet
open NodeQA

/-- before any node has finished its own nodes -/
def init (qs : Nat → NodeQuestions) : QNet where
  ask := DirectNet.init (fun i a => qs i a)
  ans := DirectNet.init (fun _ _ => [])
  answers := fun _ _ => []
  nfn := fun _ _ => none
  fin := fun _ => 0
  crashed := false

/-- `ask_for_foreign_nodes`, lines 89-121, called when node `i` has estimated the nodes of its segments. -/
def start (n : Nat) (qs : Nat → NodeQuestions) (s : QNet) (i : Nat) : QNet :=
  if n ≤ 1 then
    { s with ask := { s.ask with started := Function.update s.ask.started i true }
             fin := Function.update s.fin i (s.fin i + 1) }
  else { s with ask := DirectNet.startStep true n s.ask i (qs i) }

/-- `start_anwering`, `answer_next`, lines 169-208. -/
def startAnswering (n : Nat) (s : QNet) (i : Nat) : QNet :=
  { s with
    ans := DirectNet.startStep true n s.ans i (s.answers i)
    answers := Function.update s.answers i (fun _ => []) }

/-- Handler of `AskForForeignNodes`, lines 274-288. -/
def handleAsk (n : Nat) (nodesOf : Nat → Nat → List Node) (s : QNet) (m : DMsg (Nat → List NIQ))
    (rest : List (DMsg (Nat → List NIQ))) : QNet :=
  let net := DirectNet.handleStep s.ask m rest
  if (s.ask.proto m.dst).isRunning then
    match searchAsked n m.dst (nodesOf m.dst) (s.answers m.dst) m.body with
    | none => { s with ask := net, crashed := true }
    | some as =>
      let s' := { s with ask := net, answers := Function.update s.answers m.dst as }
      if (net.proto m.dst).isRunning then s' else startAnswering n s' m.dst
  else { s with ask := net }

/-- Handler of `ForeignNodesAnswer`, lines 293-310. -/
def handleAns (s : QNet) (m : DMsg (List NodeAnswer)) (rest : List (DMsg (List NodeAnswer))) : QNet :=
  let net := DirectNet.handleStep s.ans m rest
  if (s.ans.proto m.dst).isRunning then
    { s with
      ans := net
      nfn := Function.update s.nfn m.dst (takeIn (s.nfn m.dst) m.body)
      fin := if (net.proto m.dst).isRunning then s.fin else Function.update s.fin m.dst (s.fin m.dst + 1) }
  else { s with ans := net }

/-- One step of the cluster. -/
inductive Step (n : Nat) (qs : Nat → NodeQuestions) (nodesOf : Nat → Nat → List Node) : QNet → QNet → Prop
  | start (s : QNet) (i : Nat) (hi : i < n) (h : s.ask.started i = false) (hc : s.crashed = false) :
      Step n qs nodesOf s (start n qs s i)
  | ask (s : QNet) (pre post : List (DMsg (Nat → List NIQ))) (m : DMsg (Nat → List NIQ))
      (h : s.ask.pool = pre ++ m :: post) (hc : s.crashed = false) :
      Step n qs nodesOf s (handleAsk n nodesOf s m (pre ++ post))
  | ans (s : QNet) (pre post : List (DMsg (List NodeAnswer))) (m : DMsg (List NodeAnswer))
      (h : s.ans.pool = pre ++ m :: post) (hc : s.crashed = false) :
      Step n qs nodesOf s (handleAns s m (pre ++ post))

/-- Reachable states: arbitrary schedules. -/
inductive Reachable (n : Nat) (qs : Nat → NodeQuestions) (nodesOf : Nat → Nat → List Node) : QNet → Prop
  | init : Reachable n qs nodesOf (init qs)
  | step {s t} : Reachable n qs nodesOf s → Step n qs nodesOf s t → Reachable n qs nodesOf t

end QNet
end S2G
