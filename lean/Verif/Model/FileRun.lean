import Verif.Model.LoadNet

/-!
# One run of the whole cluster, from reading the file on

The data managers of `Model/LoadNet.lean` in front of the run of `Model/JointRotation.lean`: a node begins with the rotation as soon as *its* data manager has
handed over the data (`DataLoadedAndProcessed`, src/training/mod.rs lines 155-173), whatever the other nodes are doing.
-/

namespace S2G
namespace Joint
noncomputable section

open Pca Rotation Whole Points Cluster Stage

variable {e w : Nat}

/-- From `LoadDataMessage` to the map of scores of every node, src/data_manager/mod.rs lines 161-265 and src/training/mod.rs lines 155-279. -/
def fromFile (lib : Lib w) (resolution order : Nat) (p : Parameters) (series : List (Fin (e + 1) → ℝ)) (n : Nat) (first : List (Fin (e + 1) → ℝ))
    (ps : Nat → List (List (Fin (e + 1) → ℝ))) (xs : Nat → Nat → Summary (w + 1)) (pts mirrored eff : Nat → List Point) :
    Stage Unit (Nat → Option (List ℚ × Bool)) :=
  comp (LoadNet.loading p series) (fun _ _ => some ()) (training lib resolution order p series n first ps xs pts mirrored eff)

/-- The parameters of the rotation are what the data managers hand over: `first` is the first row of the reference data set, `ps i` the phase space of node `i`, `n`
the number of rows, and `xs i` are the results of the helpers of node `i` for its phase space (src/training/rotation/pca/mod.rs). -/
structure HandedOver (lib : Lib w) (p : Parameters) (series : List (Fin (e + 1) → ℝ)) (n : Nat) (first : List (Fin (e + 1) → ℝ))
    (ps : Nat → List (List (Fin (e + 1) → ℝ))) (xs : Nat → Nat → Summary (w + 1)) (s : (LoadNet.loading p series).S) : Prop where
  width : checkedSub p.patternLength p.latent = some (w + 1)
  data : ∀ i y, (LoadNet.loading p series).out s i = some y → y.1.head? = some first ∧ y.2.1 = ps i ∧ y.2.2 = n
  factors : ∀ i y, (LoadNet.loading p series).out s i = some y → ps i ≠ [] ∧ ∀ m : Fin (e + 1), Summarised lib p.nThreads (column (ps i) m) (xs i m)

/-- A run from reading the file on can deliver vector `v` on node `i`. Compare `TrainingDelivers`, where all nodes have their data before the first one begins with the
rotation. -/
def FileDelivers (lib : Lib w) (resolution order : Nat) (p : Parameters) (series : List (Fin (e + 1) → ℝ)) (i : Nat)
    (v : Option (List (Option ℚ))) : Prop :=
  ∃ n first ps xs pts mirrored eff s, (fromFile lib resolution order p series n first ps xs pts mirrored eff).Run (fun _ => ()) s ∧
    HandedOver lib p series n first ps xs s.1 ∧ Consistent lib resolution order p series n first ps xs pts mirrored eff s.2 ∧
      ∃ r, (fromFile lib resolution order p series n first ps xs pts mirrored eff).out s i = some r ∧ v = SubScores.finalize p.nClusterNodes r

end
end Joint
end S2G
