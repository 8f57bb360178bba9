import Verif.Model.SubScores
import Verif.Model.FloatWalk

/-!
# The scores of a cluster in single precision

`Model/SubScores.lean` with the normalisation of `Model/FloatScore.lean`. Between the helpers and the normalisation scores are only moved, negated
and repeated, hence the exchange of scores (`SubScores.collect`, `SubScores.subscores`) is the same in single precision.
-/

namespace S2G
namespace FloatRun
namespace Score

/-- `finalize_scoring`, src/training/scoring/mod.rs lines 199-228, up to the output. -/
def finalize (n : Nat) (subs : Nat → Option (List ℚ × Bool)) : Option (List (Option ℚ)) := do
  let scores ← SubScores.collect n subs
  normalize scores.flatten

end Score
end FloatRun
end S2G
