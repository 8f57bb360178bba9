import Verif.Model.Scoring
import Verif.Model.Ring

/-!
# Model of the collection of the scores of all nodes, `src/training/scoring/mod.rs`

Every node sends its scores around the ring (`RingNet` with the scores and the flag `first_empty`; `origin` is
`cluster_node_id`), and when all have arrived, each node puts the vector together.
-/

namespace S2G
namespace SubScores
open Scoring

/-- The map `subscores` of node `i`: the own scores (lines 171-173) and the received ones (lines 320-322). -/
def subscores (s : RingNet (List ℚ × Bool)) (i : Nat) : Nat → Option (List ℚ × Bool) :=
  (s.processed i).foldl (fun m x => Function.update m x.origin (some x.body))
    (Function.update (fun _ => none) i (some (s.pay i)))

/-- The body of the loop of `finalize_scoring`, lines 208-215 (`none`: there are no scores before, or those of the previous
node are empty). -/
def addSub (scores : List (List ℚ)) (sub : List ℚ × Bool) : Option (List (List ℚ)) :=
  if sub.2 then do
    let lastScores ← scores.getLast?
    let last ← lastScores.getLast?
    some (scores ++ [fillUp last sub.1])
  else some (scores ++ [sub.1])

/-- The loop of `finalize_scoring`, lines 202-216 (`none`: a sub score is missing). -/
def collect (n : Nat) (subs : Nat → Option (List ℚ × Bool)) : Option (List (List ℚ)) :=
  (List.range n).foldlM (fun acc id => do
    let sub ← subs id
    addSub acc sub) []

/-- `finalize_scoring`, lines 199-228, up to the output. -/
def finalize (n : Nat) (subs : Nat → Option (List ℚ × Bool)) : Option (List (Option ℚ)) := do
  let scores ← collect n subs
  normalize scores.flatten

end SubScores
end S2G
