import Verif.Model.DataReader
import Verif.Model.Stats
import Verif.Model.RotNet
import Verif.Model.Whole

/-!
# From the series to the rotated points, on any number of nodes

`DataManager` (src/data_manager/mod.rs) and the rotation (src/training/rotation/mod.rs) on all nodes of a cluster: the main node
hands out the rows of the file, the nodes agree on statistics, embed their rows, reduce every dimension with the common PCA and
rotate. The stages are those of `Model/DataReader.lean`, `Model/Stats.lean`, `Model/PhaseSpace.lean`, `Model/Pca.lean`,
`Model/RotNet.lean` and `Model/Points.lean`; numbers are real, as in `Model/Whole.lean`.
-/

namespace S2G
namespace Cluster
noncomputable section

open Pca Rotation Points Whole

variable {e w : Nat}

/-- Rows which a node does not count, src/data_manager/stats_collector/std.rs lines 30-35. -/
def cutoff (p : Parameters) (i : Nat) : Nat := if i = p.nClusterNodes - 1 then 0 else p.patternLength - 1

/-- What the nodes know when they enter the rotation. `parts`: the rows handed out by the main node (every node got its message);
`n`: `dataset_stats.n`; `first`: first row of the reference data set; `ps`: phase spaces; `xs i m`: what the helpers of node `i`
compute from its rows of dimension `m`. -/
structure Loaded (lib : Lib w) (p : Parameters) (series : List (Fin (e + 1) → ℝ)) (parts : Nat → List (Fin (e + 1) → ℝ)) (n : Nat)
    (first : List (Fin (e + 1) → ℝ)) (ps : Nat → List (List (Fin (e + 1) → ℝ))) (xs : Nat → Nat → Summary (w + 1)) : Prop where
  width : checkedSub p.patternLength p.latent = some (w + 1)
  read : DataReader.readCsv p.nClusterNodes (p.patternLength - 1) series =
    some ((List.range p.nClusterNodes).map (fun i => (i, parts i)))
  /-- `handleStd` adds the counts of the nodes (C09), each of which has rows (`mean_axis(..).unwrap()`) -/
  rows : ∃ ms : Nat → Stats.StdMsg (e + 1) ℝ Nat, (∀ i < p.nClusterNodes, Stats.calculateStd (cutoff p i) (parts i) i = some (ms i) ∧ 0 < (ms i).n) ∧
    n = ((List.range p.nClusterNodes).map (fun i => (ms i).n)).sum
  /-- minima and maxima over the rows of all nodes (C08) -/
  reference : ∃ lo hi ref, (∀ m, columnMin ((List.range p.nClusterNodes).flatMap parts) m = some (lo m) ∧
    columnMax ((List.range p.nClusterNodes).flatMap parts) m = some (hi m)) ∧
    PhaseSpace.referenceDataset p lo hi = some ref ∧ ref.head? = some first
  space : ∀ i < p.nClusterNodes, PhaseSpace.build p (parts i) = some (ps i) ∧ ps i ≠ []
  factors : ∀ i < p.nClusterNodes, ∀ m : Fin (e + 1), Summarised lib p.nThreads (column (ps i) m) (xs i m)

/-- Components and means which the main node computes from the combined factor and the means which have arrived: `finalize` and
`normalize`, src/training/rotation/pca/mod.rs lines 205-249; `PCAComponents` carries both to all nodes. `none`: fewer than three
components. -/
def resultOf (lib : Lib w) (xs : Nat → Nat → Summary (w + 1)) (y : List (Row (w + 1)) × List (Nat × Nat)) :
    Option (List (Row (w + 1)) × Row (w + 1)) :=
  let f := finalize lib.qr (y.2.map (fun a => ((xs a.2 a.1).means, (xs a.2 a.1).n))) y.1
  (lib.svd f.r).map (fun vs => (Pca.normalize vs, f.means))

/-- `get_rotation_matrix`, src/training/rotation/mod.rs lines 131-189, for all dimensions. `none`: one of them has no result, or
the code computes NaN. -/
def matrices (lib : Lib w) (xs : Nat → Nat → Summary (w + 1)) (first : List (Fin (e + 1) → ℝ))
    (res : Nat → Option (List (Row (w + 1)) × List (Nat × Nat))) : Option (Fin (e + 1) → Matrix (Fin 3) (Fin 3) ℝ) :=
  let R : Fin (e + 1) → Option (Matrix (Fin 3) (Fin 3) ℝ) := fun m =>
    ((res m).bind (resultOf lib xs)).bind (fun c => rotationMatrix (reduced c.1 c.2 (fun j => first.getD j 0 m)))
  if h : ∀ m, (R m).isSome then some (fun m => (R m).get (h m)) else none

/-- The states of the rotation stage in the schedules with the restriction `ok`. -/
def Rotating (lib : Lib w) (p : Parameters) (first : List (Fin (e + 1) → ℝ)) (xs : Nat → Nat → Summary (w + 1))
    (ok : RotNet (List (Row (w + 1))) (Option (Fin (e + 1) → Matrix (Fin 3) (Fin 3) ℝ)) → Nat →
      StageMsg (List (Row (w + 1))) (Option (Fin (e + 1) → Matrix (Fin 3) (Fin 3) ℝ)) → Prop)
    (s : RotNet (List (Row (w + 1))) (Option (Fin (e + 1) → Matrix (Fin 3) (Fin 3) ℝ))) : Prop :=
  RotNet.Reachable p.nClusterNodes (e + 1) (decide (1 < p.nThreads)) (fun m i => (xs i m).r) (combine lib.qr) (matrices lib xs first) ok s

/-- The points of node `i` after `apply_rotation_matrix`: the node has reduced all dimensions and has got a matrix. -/
def NodePoints (lib : Lib w) (p : Parameters) (n : Nat) (ps : Nat → List (List (Fin (e + 1) → ℝ))) (xs : Nat → Nat → Summary (w + 1))
    (s : RotNet (List (Row (w + 1))) (Option (Fin (e + 1) → Matrix (Fin 3) (Fin 3) ℝ))) (i : Nat) (pts : List Point) : Prop :=
  ∃ (R : Fin (e + 1) → Matrix (Fin 3) (Fin 3) ℝ) (c : Fin (e + 1) → List (Row (w + 1)) × Row (w + 1)), s.applied i = [some R] ∧ (∀ m : Fin (e + 1), (s.reduced i m).bind (resultOf lib xs) = some (c m)) ∧
    applyRotation R ((List.range (ps i).length).map (fun r m => reduced (c m).1 (c m).2 ((column (ps i) m).getD r 0))) n
      p.nClusterNodes i p.rate = some pts

/-- The points of all nodes of a run in which every node has rotated, in some schedule with the restriction `ok`. -/
def PointsOfAll (lib : Lib w) (p : Parameters)
    (ok : RotNet (List (Row (w + 1))) (Option (Fin (e + 1) → Matrix (Fin 3) (Fin 3) ℝ)) → Nat →
      StageMsg (List (Row (w + 1))) (Option (Fin (e + 1) → Matrix (Fin 3) (Fin 3) ℝ)) → Prop)
    (series : List (Fin (e + 1) → ℝ)) (pts : Nat → List Point) : Prop :=
  ∃ parts n first ps xs s, Loaded lib p series parts n first ps xs ∧ Rotating lib p first xs ok s ∧
    ∀ i < p.nClusterNodes, NodePoints lib p n ps xs s i (pts i)

end
end Cluster
end S2G
