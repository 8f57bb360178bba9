import Verif.Model.PcaNet
import Verif.Model.ParallelScore
import Mathlib.Data.Int.Log
import Mathlib.Data.Rat.Floor

/-!
# The run on one node in machine numbers: where the schedule of the threads can change bits

Everything which the code computes with `f32` is here an arbitrary function of what it is given (`Machine`): nothing is assumed about
rounding, and no law of arithmetic. What remains is the order in which results of threads are put together: factors and means of the PCA
(`src/training/rotation/pca/helper.rs`), estimates of the density (`multi_kde/actors/gaussian_kde.rs`), scores
(`src/training/scoring/mod.rs`). The intersections have one helper (`src/training/intersection_calculation/mod.rs` lines 178-184), and
the maps which are iterated over hold integers or are sorted.
-/

namespace S2G
namespace FloatRun

/-- The computations of a run on one node, on numbers of the type `α`. -/
structure Machine (α : Type) where
  Data : Type
  Factor : Type
  Means : Type
  Pca : Type
  Points : Type
  Column : Type
  /-- number of columns of the series -/
  dims : Data → Nat
  /-- `local_r` of a helper after its set-up: data, dimension, number of threads, helper; pca/helper.rs lines 36-47 -/
  factor : Data → Nat → Nat → Nat → Factor
  /-- its `column_means` and `n` -/
  means : Data → Nat → Nat → Nat → Means
  /-- `combine_sent_r`, pca/helper.rs lines 110-122 -/
  comb : Factor → Factor → Factor
  /-- `finalize` of the helper and of the node, pca/helper.rs lines 124-152, pca/mod.rs lines 205-249 -/
  finish : Factor → List Means → Pca
  /-- the PCA without helpers, pca/mod.rs lines 92-114 and 205-249 -/
  alone : Data → Nat → Pca
  /-- everything from the results of the PCA to the coordinates of the intersections -/
  points : Data → List Pca → Points
  /-- the columns of coordinates of every segment, in the order in which they are clustered -/
  columns : Points → List Column
  /-- `evaluate` of a helper of the density: column, number of threads, helper, position in the grid; actors/helper.rs lines 60-86 -/
  answer : Column → Nat → Nat → Nat → α
  /-- everything from the densities to the scores of one helper of the scoring -/
  scores : Points → List (Nat → α) → Nat → Nat → Option (List ℚ × Bool)
  /-- number of scores -/
  positions : Points → Nat

variable {α : Type}

/-- The answers of the helpers in the order of their arrival, gaussian_kde.rs lines 153-158. -/
def addUp (add : α → α → α) : List (Nat → α) → Option (Nat → α)
  | [] => none
  | e :: es => some (es.foldl (fun est e j => add (est j) (e j)) e)

/-- The density is what the answers give in some order. -/
def Estimated (add : α → α → α) (answers : List (Nat → α)) (est : Nat → α) : Prop :=
  ∃ order, order.Perm answers ∧ addUp add order = some est

/-- The result of the PCA of dimension `i` in some schedule of `t` threads. -/
def Machine.PcaOf (m : Machine α) (t : Nat) (d : m.Data) (i : Nat) (c : m.Pca) : Prop :=
  if t ≤ 1 then c = m.alone d i
  else ∃ s f, HNet.Reachable t (m.factor d i t) m.comb s ∧ f ∈ s.fin ∧ c = m.finish f.1 (f.2.map (m.means d i t))

/-- The scores before normalisation which a run with `t` threads can deliver. -/
def Machine.Delivers (m : Machine α) (add : α → α → α) (t : Nat) (d : m.Data) (v : List ℚ × Bool) : Prop :=
  ∃ cs ests s0 s, List.Forall₂ (m.PcaOf t d) (List.range (m.dims d)) cs ∧
    List.Forall₂ (fun col est => Estimated add ((List.range t).map (m.answer col t)) est) (m.columns (m.points d cs)) ests ∧
    ParScore.init (m.scores (m.points d cs) ests) (m.positions (m.points d cs)) t = some s0 ∧ ParScore.Reachable s0 s ∧ v ∈ s.final

/-! ### Single precision -/

/-- Round to the nearest integer, ties to even. -/
def nearest (q : ℚ) : ℤ :=
  let f := ⌊q⌋
  if q - f < 1 / 2 then f else if 1 / 2 < q - f then f + 1 else if f % 2 = 0 then f else f + 1

/-- The `f32` nearest to a rational number (24 digits; no overflow, no subnormal numbers, one zero). -/
def round (x : ℚ) : ℚ :=
  let ulp : ℚ := (2 : ℚ) ^ (Int.log 2 |x| - 23)
  nearest (x / ulp) * ulp

/-- Addition of `f32`. -/
def add (x y : ℚ) : ℚ := round (x + y)

end FloatRun
end S2G
