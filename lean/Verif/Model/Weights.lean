import Verif.Model.Transposition
import Verif.Model.Ring

/-!
# Model of edge weights and node degrees, `src/training/scoring/weights.rs`

A `HashMap<K, usize>` is a function `K → Option Nat`. Keys of nodes are `(segment, cluster)` and keys of edges are pairs of
them, because equality and hash ignore the point id (src/data_store/node/independent.rs lines 38-50,
src/data_store/edge/mod.rs lines 36-47, derived in src/data_store/edge/materialized.rs line 7).
-/

namespace S2G

/-- What equality of nodes looks at. -/
abbrev NodeKey := Nat × Nat
/-- What equality of edges looks at. -/
abbrev EdgeKey := NodeKey × NodeKey

def Node.nodeKey (v : Node) : NodeKey := (v.seg, v.cluster)
def Edge.edgeKey (e : Edge) : EdgeKey := (e.src.nodeKey, e.dst.nodeKey)

/-- A `HashMap<K, usize>`. -/
abbrev Counts (K : Type) := K → Option Nat

namespace Counts
variable {K : Type} [DecidableEq K]

/-- the empty map -/
def empty : Counts K := fun _ => none

/-- `match map.get_mut(k) { Some(x) => *x += w, None => insert(k, w) }`, lines 77-84, 95-111, 171-178, 202-209. -/
def add (m : Counts K) (k : K) (w : Nat) : Counts K :=
  Function.update m k (some (match m k with | some x => x + w | none => w))

/-- The loop over a received map, lines 169-179 and 201-210. Every key occurs once in the received map, so the order of
the iteration does not matter. -/
def merge (m received : Counts K) : Counts K := fun k =>
  match received k with
  | none => m k
  | some w => (m.add k w) k

end Counts

namespace Weights

/-- `calculate_edge_weight`, lines 73-87. -/
def edgeWeight (edges : List Edge) : Counts EdgeKey :=
  edges.foldl (fun m e => m.add e.edgeKey 1) Counts.empty

/-- One iteration of the loop of `calculate_node_degrees`, lines 93-113; the state is `seen_edges` and `node_degrees`. -/
def degreeStep (s : List EdgeKey × Counts NodeKey) (e : Edge) : List EdgeKey × Counts NodeKey :=
  if e.edgeKey ∈ s.1 then s
  else (s.1 ++ [e.edgeKey], (s.2.add e.src.nodeKey 1).add e.dst.nodeKey 1)

/-- `calculate_node_degrees`, lines 89-116. -/
def nodeDegrees (edges : List Edge) : Counts NodeKey :=
  (edges.foldl degreeStep ([], Counts.empty)).2

/-- The map of node `i` during a rotation (`NodeDegrees` or `EdgeWeights`): the own map and the processed messages, lines
161-222. The own contribution is a copy of the own map, lines 128-135 and 149-151. -/
def rotated {K : Type} [DecidableEq K] (s : RingNet (Counts K)) (i : Nat) : Counts K :=
  ((s.processed i).map RMsg.body).foldl Counts.merge (s.pay i)

end Weights
end S2G
