import Verif.Model.Weights
import Verif.Model.EdgesInTime
import Mathlib.Algebra.Order.Field.Rat
import Mathlib.Data.List.MinMax

/-!
# Model of the scores, `src/training/scoring/{helper,mod}.rs`

Numbers are rationals; the rounding of `f32` and overflows of `usize` products are outside the model. `none` is a panic.
-/

namespace S2G
namespace Scoring

/-- The constant of `score_p_degree`, src/training/scoring/helper.rs line 23. -/
def eps : ℚ := 1 / 10 ^ 8

/-- Slice `l[a..b]` (`none`: out of range). -/
def slice {α : Type} (l : List α) (a b : Nat) : Option (List α) :=
  if a ≤ b ∧ b ≤ l.length then some ((l.take b).drop a) else none

/-- One summand of `score_p_degree`, helper.rs lines 26-32 (`none`: unknown edge or node, or degree 0). -/
def term (w : Counts EdgeKey) (d : Counts NodeKey) (e : Edge) : Option ℚ := do
  let weight ← w e.edgeKey
  let degree ← d e.src.nodeKey
  let degree ← checkedSub degree 1
  some ((weight * degree : Nat) : ℚ)

/-- `score_p_degree` on the edges of a range, helper.rs lines 20-35. -/
def score (w : Counts EdgeKey) (d : Counts NodeKey) (window : List Edge) : Option (ℚ × Nat) := do
  let terms ← window.mapM (term w d)
  some (terms.sum / (eps + window.length), window.length)

/-- The edges looked at for position `i`, helper.rs lines 50-54 (`none`: index out of range; `i + q - 1` cannot underflow
if `q ≥ 1`). -/
def window (edges : List Edge) (eit : List Nat) (q i : Nat) : Option (List Edge) := do
  let a ← eit[i]?
  let k ← checkedSub (i + q) 1
  let b ← eit[k]?
  slice edges a (min (b + 1) edges.length)

/-- One iteration of the loop of the helper, helper.rs lines 53-66; the state is `single_scores` and `first_empty`. -/
def push (s : List ℚ × Bool) (r : ℚ × Nat) : List ℚ × Bool :=
  if r.2 = 0 then
    match s.1.getLast? with
    | some last => (s.1 ++ [last], s.2)
    | none => (s.1 ++ [0], true)
  else (s.1 ++ [-r.1], s.2)

/-- Handler of `ScoringHelperInstruction`, helper.rs lines 45-74. -/
def helper (edges : List Edge) (eit : List Nat) (w : Counts EdgeKey) (d : Counts NodeKey) (q start length : Nat) :
    Option (List ℚ × Bool) :=
  (List.range' start length).foldlM (fun s i => do
    let win ← window edges eit q i
    let r ← score w d win
    some (push s r)) ([], false)

/-- `score_length` in `score`, src/training/scoring/mod.rs lines 82-86 (`none`: `query_length` 0 or too few points). -/
def scoreLength (eit : List Nat) (q : Nat) : Option Nat := do
  let q1 ← checkedSub q 1
  checkedSub eit.length q1

/-- `fill_up_first_missing_points`, src/training/scoring/mod.rs lines 296-311: a zero is replaced by the entry before it
(after replacement), the first one by `initial`. -/
def fillUp (initial : ℚ) : List ℚ → List ℚ
  | [] => []
  | x :: xs =>
    let y := if x = 0 then initial else x
    y :: fillUp y xs

/-- `normalize_score`, src/training/scoring/mod.rs lines 190-197. `none`: the vector is empty (panic); an entry `none` is the
NaN of 0/0. -/
def normalize (l : List ℚ) : Option (List (Option ℚ)) := do
  let hi ← l.max?
  let lo ← l.min?
  some (l.map (fun x => if hi - lo = 0 then none else some ((x - lo) / (hi - lo))))

end Scoring
end S2G
