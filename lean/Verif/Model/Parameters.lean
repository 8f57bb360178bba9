import Mathlib.Data.Nat.Basic

/-!
# Model of `src/parameters.rs`

Only the fields which influence control flow or arithmetic of the stages are kept.
`usize` is `Nat`. A division by zero (a Rust panic) is `none`.
-/

namespace S2G

/-- `Parameters`, src/parameters.rs lines 23-78 (fields used by the modelled stages). -/
structure Parameters where
  patternLength : Nat
  latent : Nat
  queryLength : Nat
  rate : Nat
  nThreads : Nat
  nClusterNodes : Nat
  selfCorrection : Bool
  deriving Repr, DecidableEq

/-- Rust `a / b` on `usize`: panics for `b = 0`. -/
def checkedDiv (a b : Nat) : Option Nat := if b = 0 then none else some (a / b)

/-- Rust `a % b` on `usize`: panics for `b = 0`. -/
def checkedMod (a b : Nat) : Option Nat := if b = 0 then none else some (a % b)

/-- Rust `a - b` on `usize`: panics on underflow (debug build). -/
def checkedSub (a b : Nat) : Option Nat := if b ≤ a then some (a - b) else none

namespace Parameters

/-- `segments_per_node`, src/parameters.rs lines 87-89. -/
def segmentsPerNode (p : Parameters) : Option Nat := checkedDiv p.rate p.nClusterNodes

/-- `segment_id_to_assignment`, src/parameters.rs lines 91-99. -/
def segmentIdToAssignment (p : Parameters) (segmentId : Nat) : Option Nat := do
  let spn ← p.segmentsPerNode
  let id ← checkedDiv segmentId spn
  if id ≥ p.nClusterNodes then checkedSub p.nClusterNodes 1 else some id

/-- `first_segment_of_i_next_cluster_node`, src/parameters.rs lines 101-105. -/
def firstSegmentOfINextClusterNode (p : Parameters) (segmentId i : Nat) : Option Nat := do
  let a ← p.segmentIdToAssignment segmentId
  let m ← checkedMod (a + i) p.nClusterNodes
  let spn ← p.segmentsPerNode
  some (m * spn)

end Parameters
end S2G
