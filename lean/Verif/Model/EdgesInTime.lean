import Verif.Model.Transposition

/-!
# Model of `count_edges_in_time`, `src/training/scoring/weights.rs` lines 22-71

The function only looks at the point ids of the ends of the edges.
-/

namespace S2G
namespace EdgesInTime

/-- The local variables `edges_in_time`, `last_point_id` and `last_len`, lines 29-31. -/
structure State where
  eit : List Nat := []
  last : Option Nat := none
  lastLen : Nat := 0

/-- `while edges_in_time.len() < n { edges_in_time.push(x) }`, lines 45-47 and 66-68. -/
def pad (l : List Nat) (n x : Nat) : List Nat := l ++ List.replicate (n - l.length) x

/-- The body of the loop, lines 39-54, for an edge with end `x.1` at index `x.2` (`none`: `last_point_id - start_point`
underflows, line 45). -/
def step (start : Nat) (s : State) (x : Nat × Nat) : Option State :=
  match s.last with
  | none => some { s with last := some x.1 }
  | some l =>
    if x.1 ≠ l then do
      let d ← checkedSub l start
      some { eit := pad s.eit d s.lastLen ++ [x.2], last := some x.1, lastLen := x.2 }
    else some s

/-- `count_edges_in_time`: the loop runs over the edges followed by a pseudo edge which ends at point 0 (lines 24-28 and
32-38), then the vector is padded (lines 57-68). `length` is the value of lines 57-65. -/
def count (start length : Nat) (ids : List Nat) : Option (List Nat) := do
  let s ← (ids ++ [0]).zipIdx.foldlM (step start) {}
  some (pad s.eit length s.lastLen)

/-- `result_length`, lines 57-65: `rotated` is the number of points of the node. -/
def resultLength (n own rotated : Nat) : Option Nat :=
  checkedSub rotated (if own = n - 1 then 1 else 0)

end EdgesInTime
end S2G
