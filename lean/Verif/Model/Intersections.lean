import Verif.Model.Segmentation

/-!
# Model of the distribution of intersections, `src/training/intersection_calculation/mod.rs`

An intersection is the pair of its transition and its segment; its coordinates are a function of both
(`Model/Geometry.lean`).
-/

namespace S2G

/-- `Intersection`, src/data_store/intersection.rs (transition and segment). -/
abbrev Inter := Trans × Nat

namespace Inter

/-- State of a node: intersections of the data store (in insertion order) and `foreign_intersections`
(a hash map from segment to vectors; missing keys are `[]`). -/
structure State where
  stored : List Inter := []
  foreign : Nat → List Inter := fun _ => []

/-- `assign_received_intersection`, lines 248-275. -/
def assign (p : Parameters) (own : Nat) (s : State) (x : Inter) : Option State := do
  let assigned ← p.segmentIdToAssignment x.2
  if own = assigned then some { s with stored := s.stored ++ [x] }
  else some { s with foreign := fun a => if a = x.2 then s.foreign a ++ [x] else s.foreign a }

/-- The `IntersectionResultMessage` handler, lines 278-308: all results of the single helper arrive in one message
(`n_total = 1`, line 166) in task order (src/training/intersection_calculation/helper.rs lines 45-47). -/
def onResults (p : Parameters) (own : Nat) (s : State) (results : List Inter) : Option State :=
  results.foldlM (assign p own) s

/-- The message built for peer `dst` in `rotate_foreign_assignments`, lines 228-243: all non-empty entries of the
segments assigned to `dst`. (The map of the message is listed in segment order here; the receiver iterates over it
in an unspecified order, so only the multiset of what it stores is meaningful.) -/
def outgoing (p : Parameters) (s : State) (dst : Nat) : List (Nat × List Inter) :=
  ((List.range p.rate).filter (fun seg => p.segmentIdToAssignment seg = some dst ∧ s.foreign seg ≠ [])).map
    (fun seg => (seg, s.foreign seg))

/-- What the receiver adds to its data store, lines 321-323: entries of own segments. Entries of other segments
would go to `foreign_intersections` again (lines 324-336) and be lost. -/
def absorbed (p : Parameters) (own : Nat) (body : List (Nat × List Inter)) : List Inter :=
  body.flatMap (fun e => if p.segmentIdToAssignment e.1 = some own then e.2 else [])

end Inter

/-- The whole cluster: the exchange of `IntersectionRotationMessage`s, and the local state of each node after its own
calculation (`calculate_intersections` with an empty transition list starts the exchange at once, lines 60-63 and
187-191, which is the same with an empty result list). -/
structure InterNet where
  loc : Nat → Inter.State
  net : DirectNet (List (Nat × List Inter))

namespace InterNet

/-- The intersections in the data store of node `i`. -/
def store (p : Parameters) (s : InterNet) (i : Nat) : List Inter :=
  (s.loc i).stored ++ (s.net.processed i).flatMap (fun m => Inter.absorbed p i m.body)

/-- Reachable states, when node `i` starts with transitions `trans i`: every node first computes its own results
and then takes part in the exchange, in any order. -/
def Reachable (p : Parameters) (trans : Nat → List Trans) (s : InterNet) : Prop :=
  (∀ i < p.nClusterNodes, Inter.onResults p i {} (intersectionTasks p.rate (trans i)) = some (s.loc i)) ∧
  DirectNet.ReachableWith false p.nClusterNodes (fun i => Inter.outgoing p (s.loc i)) s.net

end InterNet
end S2G
