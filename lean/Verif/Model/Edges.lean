import Verif.Model.NodeEstimation

/-!
# Model of edge estimation, `src/training/edge_estimation/mod.rs` and `edges_orderer.rs`
-/

namespace S2G

/-- `Edge`, src/data_store/edge/independent.rs and src/data_store/edge/mod.rs: from-node and to-node. -/
structure Edge where
  src : Node
  dst : Node
  deriving Repr, DecidableEq

namespace Edges

/-- Equality of nodes in the code: segment and cluster only, src/data_store/node/independent.rs lines 38-50. -/
def sameNode (v w : Node) : Bool := v.seg == w.seg && v.cluster == w.cluster

/-- Derived equality of `Option<NodeRef>`. -/
def sameOpt : Option Node → Option Node → Bool
  | none, none => true
  | some v, some w => sameNode v w
  | _, _ => false

/-- `EdgesOrderer`, src/training/edge_estimation/edges_orderer.rs lines 18-26. -/
structure Orderer where
  prevTrans : Option Node
  small : List Edge := []
  large : List Edge := []
  first : Option Node := none
  middle : Option Node := none
  last : Option Node := none

/-- `push`, lines 36-41. -/
def Orderer.push (o : Orderer) (e : Edge) : Orderer :=
  match o.last with
  | some _ => { o with large := o.large ++ [e] }
  | none => { o with small := o.small ++ [e] }

/-- `check_for_gap`, lines 43-62 (new state and result). -/
def Orderer.checkForGap (o : Orderer) (prev cur : Node) : Orderer × Bool :=
  if cur.seg ≠ prev.seg + 1 then
    ({ o with
        last := some prev
        middle := some ((o.small.head?.map Edge.src).getD prev)
        large := o.large ++ (o.prevTrans.map (fun v => ⟨v, cur⟩)).toList }, true)
  else (o, false)

/-- `add_node`, lines 69-83. -/
def Orderer.addNode (o : Orderer) (prev : Option Node) (cur : Node) : Orderer :=
  if sameOpt o.prevTrans prev && o.small.isEmpty && o.first.isNone then { o with first := some cur }
  else match prev with
    | some prev =>
      let (o, gap) := o.checkForGap prev cur
      if gap then o else o.push ⟨prev, cur⟩
    | none => o

/-- `into_vec`, lines 85-118 (`none`: the `expect` or the `unwrap` fails). -/
def Orderer.intoVec (o : Orderer) : Option (List Edge) :=
  match o.middle with
  | some middle => do
    let e ← o.large.getLast?
    let o := o.push ⟨e.dst, middle⟩
    some (o.large ++ o.small)
  | none =>
    match o.prevTrans with
    | some v => do
      let first ← o.first
      some (⟨v, first⟩ :: o.small)
    | none => some o.small

/-- The loop over the nodes of one step, src/training/edge_estimation/mod.rs lines 38-41. -/
def addNodes (o : Orderer) (prev : Option Node) (nodes : List Node) : Orderer × Option Node :=
  nodes.foldl (fun s cur => (s.1.addNode s.2 cur, some cur)) (o, prev)

/-- The edges of one step and the new previous node, src/training/edge_estimation/mod.rs lines 37-45. -/
def stepEdges (prev : Option Node) (nodes : List Node) : Option (Option Node × List Edge) := do
  let (o, prev) := addNodes { prevTrans := prev } prev nodes
  let es ← o.intoVec
  some (o.last.or prev, es)

/-- State of `connect_nodes`: `previous_node`, the edges, and `next_foreign_node`. -/
structure Conn where
  prev : Option Node
  edges : List Edge
  nfn : Nat × Nat → Option Node

/-- `next_foreign_node.remove(..)` and its use, src/training/edge_estimation/mod.rs lines 47-57. -/
def Conn.follow (c : Conn) (pid : Nat) : Conn :=
  match c.prev with
  | some cur =>
    match c.nfn (pid, cur.seg) with
    | some nxt => ⟨none, c.edges ++ [⟨cur, nxt⟩], fun k => if k = (pid, cur.seg) then none else c.nfn k⟩
    | none => c
  | none => c

/-- One iteration of the loop over points, src/training/edge_estimation/mod.rs lines 35-59; `nodes` are the nodes of
the point (`get_nodes_by_point_id` is `None` iff there are none). -/
def Conn.point (c : Conn) (pid : Nat) (nodes : List Node) : Option Conn :=
  if nodes.isEmpty then some c
  else do
    let (prev, es) ← stepEdges c.prev nodes
    some (Conn.follow ⟨prev, c.edges ++ es, c.nfn⟩ pid)

/-- `connect_nodes`, src/training/edge_estimation/mod.rs lines 25-61. -/
def connectNodes (len : Nat) (nodesOf : Nat → List Node) (nfn : Nat × Nat → Option Node) : Option (List Edge) := do
  let c ← (List.range len).foldlM (fun c pid => Conn.point c pid (nodesOf pid)) ⟨none, [], nfn⟩
  some c.edges

end Edges
end S2G
