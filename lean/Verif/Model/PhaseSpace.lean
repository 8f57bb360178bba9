import Verif.Model.Parameters
import Mathlib.Algebra.Field.Basic
import Mathlib.Algebra.BigOperators.Group.List.Basic
import Mathlib.Algebra.Group.Pi.Basic

/-!
# Model of the phase space embedding and the reference data set
(`src/data_manager/phase_spacer/mod.rs`, `src/data_manager/reference_dataset_builder/mod.rs`)

A data row of `d` columns is a function `Fin d → K`; the phase space is a list (points) of lists (positions in the
window) of such functions, i.e. the `Array3` of the code with axes (point, position, column).
-/

namespace S2G
namespace PhaseSpace
variable {K : Type} {d : Nat}

/-- `data.slice(s![a..b, ..]).sum_axis(Axis(0))`; `none`: slice out of bounds. -/
def sliceSum [AddCommMonoid K] (data : List (Fin d → K)) (a b : Nat) : Option (Fin d → K) :=
  if a ≤ b ∧ b ≤ data.length then some ((data.drop a).take (b - a)).sum else none

/-- First row, phase_spacer/mod.rs lines 36-47 (with i = 0). -/
def firstRow [AddCommMonoid K] (latent width : Nat) (data : List (Fin d → K)) : Option (List (Fin d → K)) :=
  (List.range width).mapM (fun j => sliceSum data j (j + latent))

/-- Row `i ≥ 1` from the previous row, phase_spacer/mod.rs lines 48-61: shift by one, append the sum of the window
`[i + L - latent - 1, i + L - 1)`. `none`: width 0, slice `..-1` out of bounds. -/
def nextRow [AddCommMonoid K] (patternLength latent width : Nat) (data : List (Fin d → K)) (i : Nat)
    (current : List (Fin d → K)) : Option (List (Fin d → K)) := do
  if width = 0 then none
  else
    let last ← sliceSum data (i + patternLength - latent - 1) (i + patternLength - 1)
    some (current.drop 1 ++ [last])

/-- Row `i`: phase_spacer/mod.rs lines 36-61 (`first` is `i = 0`). -/
def rowAt [AddCommMonoid K] (patternLength latent width : Nat) (data : List (Fin d → K)) (i : Nat)
    (current : List (Fin d → K)) : Option (List (Fin d → K)) :=
  if i = 0 then firstRow latent width data else nextRow patternLength latent width data i current

/-- Loop over the rows `i, i+1, …` (`count` of them), phase_spacer/mod.rs lines 34-62. -/
def rows [AddCommMonoid K] (patternLength latent width : Nat) (data : List (Fin d → K)) :
    Nat → Nat → List (Fin d → K) → Option (List (List (Fin d → K)))
  | 0, _, _ => some []
  | count + 1, i, current => do
    let row ← rowAt patternLength latent width data i current
    let rest ← rows patternLength latent width data count (i + 1) row
    some (row :: rest)

/-- `PhaseSpacer::build`, phase_spacer/mod.rs lines 17-65. `none`: `usize` underflow or slice out of bounds. -/
def build [AddCommMonoid K] (p : Parameters) (data : List (Fin d → K)) :
    Option (List (List (Fin d → K))) := do
  let l1 ← checkedSub p.patternLength 1
  let n ← checkedSub data.length l1
  let width ← checkedSub p.patternLength p.latent
  rows p.patternLength p.latent width data n 0 (List.replicate width 0)

/-- `linspace`, src/utils/ndarray_extensions/mod.rs lines 60-81 (`Array::linspace` per column): entry `i`. -/
def linspace [Field K] (min max : Fin d → K) (n i : Nat) : Fin d → K :=
  fun c => min c + (i : K) * ((max c - min c) / ((n - 1 : Nat) : K))

/-- `ReferenceDatasetBuilder::build`, reference_dataset_builder/mod.rs lines 23-54. -/
def referenceDataset [Field K] (p : Parameters) (min max : Fin d → K) :
    Option (List (List (Fin d → K))) := do
  let length := 100
  let width ← checkedSub p.patternLength p.latent
  (List.range length).mapM (fun i =>
    let v := linspace min max length i
    let t := (List.replicate p.patternLength (0 : Fin d → K)).map (· + v)
    (List.range width).mapM (fun j => sliceSum t j (j + p.latent)))

/-- Ids and rows as stored by `add_points_with_offset`, src/data_store/mod.rs lines 56-70, with the offset of
`apply_rotation_matrix`, src/training/rotation/mod.rs lines 231-244: `points_per_node * own_id`. -/
def pointIds (n k ownId count : Nat) : Option (List Nat) := do
  let perNode ← checkedDiv n k
  some (List.range' (perNode * ownId) count)

end PhaseSpace
end S2G
