import Verif.Model.ClusterRun
import Verif.Model.Hashed

/-!
# Runs on several nodes with the keys of the cluster centres

`Model/ClusterRun.lean` with the hashes of `Model/Hashed.lean`: on every node `extract_labels_from_centers`
(src/training/node_estimation/multi_kde/mod.rs lines 122-159) computes the keys of the centres of its own segments.
-/

namespace S2G
namespace Cluster
noncomputable section

open Whole Points

variable {e w : Nat}

/-- `Delivers` (src/training/mod.rs lines 183-279) with the hashes of src/utils/float_approx.rs lines 15-20 and 55-62. -/
def DeliversHashed (lib : Lib w) (resolution order : Nat) (p : Parameters) (series : List (Fin (e + 1) → ℝ)) (i : Nat)
    (v : Option (List (Option ℚ))) : Prop :=
  ∃ pts eff stores qs, PointsOfAll lib p RotNet.NotEarly series pts ∧ Segmented p pts eff stores qs ∧
    (∀ j < p.nClusterNodes, ∀ x ∈ intersectionTasks p.rate (stores j),
      (interCoord e ((List.range p.nClusterNodes).flatMap eff) (stores j) p.rate x).isSome) ∧
    ∃ it nodes qn es edges tr deg wt m cnt ov job par sub,
      Scored (clusteringHashed resolution order p e)
        (fun x => (crossing e p ((List.range p.nClusterNodes).flatMap eff) stores x).getD []) p series.length
        (fun i => (pts i).length) stores qs it nodes qn es edges tr deg wt m cnt ov job par sub ∧
      v = SubScores.finalize p.nClusterNodes (SubScores.subscores sub i)

end
end Cluster
end S2G
