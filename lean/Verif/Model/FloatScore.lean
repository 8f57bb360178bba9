import Verif.Model.Scoring
import Verif.Model.FloatRun

/-!
# Model of the scores in single precision, `src/training/scoring/{helper,mod}.rs`

The same functions as in `Model/Scoring.lean`, with every operation on `f32` rounded (`FloatRun.round`: 24 digits, ties to even). Products of weights
and degrees are integers (`usize`) and converted afterwards. Signed zeros are one zero. Overflow and subnormal numbers are outside the model: sums
stay below 2^128, and the least mean which is not zero is 1 divided by the number of edges of a window.
-/

namespace S2G
namespace FloatRun
namespace Score

/-- Subtraction and division of `f32`. -/
def sub (x y : ℚ) : ℚ := round (x - y)
def div (x y : ℚ) : ℚ := round (x / y)

/-- The literal `0.00000001` as `f32`, src/training/scoring/helper.rs line 23. -/
def eps : ℚ := round Scoring.eps

/-- One summand, `as f32`, helper.rs lines 26-32. -/
def term (w : Counts EdgeKey) (d : Counts NodeKey) (e : Edge) : Option ℚ := (Scoring.term w d e).map round

/-- `alpha`, helper.rs line 23. -/
def alpha (len : Nat) : ℚ := add eps (round len)

/-- The sum of an iterator of `f32`, helper.rs line 33. -/
def sum (l : List ℚ) : ℚ := l.foldl add 0

/-- `score_p_degree`, helper.rs lines 20-35. -/
def score (w : Counts EdgeKey) (d : Counts NodeKey) (window : List Edge) : Option (ℚ × Nat) := do
  let terms ← window.mapM (term w d)
  some (div (sum terms) (alpha window.length), window.length)

/-- Handler of `ScoringHelperInstruction`, helper.rs lines 45-74. -/
def helper (edges : List Edge) (eit : List Nat) (w : Counts EdgeKey) (d : Counts NodeKey) (q start length : Nat) :
    Option (List ℚ × Bool) :=
  (List.range' start length).foldlM (fun s i => do
    let win ← Scoring.window edges eit q i
    let r ← score w d win
    some (Scoring.push s r)) ([], false)

/-- `normalize_score`, src/training/scoring/mod.rs lines 190-197; an entry `none` is the NaN of 0/0. -/
def normalize (l : List ℚ) : Option (List (Option ℚ)) := do
  let hi ← l.max?
  let lo ← l.min?
  some (l.map (fun x => if sub hi lo = 0 then none else some (div (sub x lo) (sub hi lo))))

end Score
end FloatRun
end S2G
