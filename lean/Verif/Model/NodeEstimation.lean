import Verif.Model.Intersections

/-!
# Model of node estimation, `src/training/node_estimation/mod.rs` (creation of nodes)

The clustering (`Model/Kde.lean`) and the coordinates of intersections (`Model/Geometry.lean`) are parameters.
-/

namespace S2G

/-- `IndependentNode`, src/data_store/node/independent.rs lines 5-10. -/
structure Node where
  seg : Nat
  cluster : Nat
  fromId : Nat
  deriving Repr, DecidableEq

namespace NodeEst
variable {X : Type}

/-- `current_segment_id` at the start of the stage, src/training/mod.rs lines 215-218. -/
def startSegment (p : Parameters) (own : Nat) : Option Nat := do
  let spn ← checkedDiv p.rate p.nClusterNodes
  some (spn * own)

/-- The labels of the intersections of one segment: `estimate_nodes`, src/training/node_estimation/mod.rs lines
52-87 (no intersections: no labels; one: label 0; more: clustering). -/
def segmentLabels (clu : List X → Option (List Nat)) (coord : Inter → X) (xs : List Inter) : Option (List Nat) :=
  match xs with
  | [] => some []
  | [_] => some [0]
  | xs => clu (xs.map coord)

/-- The nodes created from the labels in `Handler<ClusteringResponse>`, lines 231-238. -/
def segmentNodes (xs : List Inter) (labels : List Nat) : List Node :=
  (xs.zip labels).map (fun e => ⟨e.1.2, e.2, e.1.1.src.id⟩)

/-- The loop over the segments (`estimate_nodes` and `Handler<ClusteringResponse>` calling each other, lines 52-87
and 227-269): all segments from `seg` to `rate - 1`; `nodes` are the nodes in insertion order. -/
def estimateLoop (clu : List X → Option (List Nat)) (coord : Inter → X) (rate : Nat) (stored : List Inter)
    (seg : Nat) (nodes : List Node) : Option (List Node) := do
  let xs := stored.filter (fun x => x.2 = seg)
  let labels ← segmentLabels clu coord xs
  let nodes := nodes ++ segmentNodes xs labels
  if _h : seg + 1 < rate then estimateLoop clu coord rate stored (seg + 1) nodes else some nodes
termination_by rate - seg

/-- The whole creation of nodes at node `own`. -/
def estimateNodes (clu : List X → Option (List Nat)) (coord : Inter → X) (p : Parameters) (own : Nat)
    (stored : List Inter) : Option (List Node) := do
  let start ← startSegment p own
  estimateLoop clu coord p.rate stored start []

/-- `get_nodes_by_point_id`, src/data_store/index.rs lines 52-64: nodes of one step in insertion order. -/
def nodesOf (nodes : List Node) (pid : Nat) : List Node := nodes.filter (fun v => v.fromId = pid)

end NodeEst
end S2G
