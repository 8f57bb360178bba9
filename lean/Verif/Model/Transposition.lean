import Verif.Model.Edges
import Verif.Model.Protocols

/-!
# Model of the transposition, `src/training/transposition/mod.rs`

After edge estimation the edges are redistributed: every node gets the edges whose end belongs to its part of the time
line.
-/

namespace S2G

/-- `get_to_id`, src/data_store/edge/mod.rs lines 28-30 and src/data_store/edge/materialized.rs lines 22-24. -/
def Edge.toId (e : Edge) : Nat := e.dst.fromId

namespace Transposition

/-- `partition_len`, lines 30-31 (`none`: division by zero). -/
def partitionLen (len n : Nat) : Option Nat := checkedDiv len n

/-- `range_start_point`, lines 32-34. -/
def rangeStart (partitionLen own : Nat) : Nat := partitionLen * own

/-- The receiver of an edge, lines 54-64 (`none`: division by zero). -/
def target (n pl : Nat) (e : Edge) : Option Nat := do
  let id ← checkedDiv e.toId pl
  if id ≥ n then checkedSub n 1 else some id

/-- One iteration of the loop over the edges, lines 53-69. -/
def assignEdge (n pl : Nat) (as : Nat → List Edge) (e : Edge) : Option (Nat → List Edge) := do
  let id ← target n pl e
  some (if id < n then Function.update as id (as id ++ [e]) else as)

/-- `assign_edges_to_neighbours`, lines 45-76: receiver ↦ edges; the own entry goes back to the own data store. -/
def assignEdges (n pl : Nat) (edges : List Edge) : Option (Nat → List Edge) :=
  edges.foldlM (assignEdge n pl) (fun _ => [])

/-- `sort_edges`, src/data_store/mod.rs lines 191-194 (a stable sort). -/
def sortEdges (edges : List Edge) : List Edge := edges.mergeSort (fun a b => a.toId ≤ b.toId)

end Transposition

/-- State of the cluster during the transposition: the assignments of every node and the exchange of messages. -/
structure TransNet where
  assigned : Nat → Nat → List Edge
  net : DirectNet (List Edge)

namespace TransNet
open Transposition

/-- The edges in the data store of node `i`: the own part (lines 72-73) and the received ones (line 113). -/
def received (s : TransNet) (i : Nat) : List Edge :=
  s.assigned i i ++ (s.net.processed i).flatMap DMsg.body

/-- The edges of node `i` after `transpose_finalize`, lines 95-98. -/
def store (s : TransNet) (i : Nat) : List Edge := sortEdges (s.received i)

/-- Reachable states, when the series has `len` points and node `i` starts with `edges i`: every node enters the stage
at some time (lines 29-43), in any order. -/
def Reachable (n len : Nat) (edges : Nat → List Edge) (s : TransNet) : Prop :=
  ∃ pl, partitionLen len n = some pl ∧ (∀ i < n, assignEdges n pl (edges i) = some (s.assigned i)) ∧
    DirectNet.ReachableWith false n s.assigned s.net

end TransNet
end S2G
