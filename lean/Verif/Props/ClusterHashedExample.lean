import Verif.Props.ClusterHashed
import Verif.Props.HashedExample

/-!
# C108: the limit of the keys on two nodes

The series of `HashedExample.lean` on two nodes.
-/

namespace S2G
namespace Cluster
open Pca Whole Points Pipeline

/-- The parameters of `HashedExample.lean`, but two nodes. -/
def limP : Parameters := { Whole.hP with nClusterNodes := 2 }

/-- **C108.** Instance of C108_larger: in large units no node delivers anything. -/
theorem C108_limit_counterexample : ∃ A : ℝ, 0 < A ∧ ∀ a, A ≤ a → ∀ i v,
    ¬ DeliversHashed Whole.hLib 250 0 limP (Whole.hSeries.map (a • ·)) i v := by
  obtain ⟨hl, _, hnum⟩ := Whole.hPoints.numbered (by decide)
  obtain ⟨m, hm, _⟩ := mirrored_some (rate := Whole.hP.rate) (by decide) hnum.coords
  obtain ⟨labels, table, c, x, hcl, hc, hx, hpos⟩ := centres_two (resolution := 250) (by omega)
  have hA : 0 < ((2 : ℝ) ^ 63 + 1) / (80 * x) := by positivity
  refine ⟨_, hA, fun a ha i v => ?_⟩
  refine C108_larger (p := limP) Whole.hLib_gram Whole.hLib_settled ⟨by decide, by decide⟩ (by decide) (by decide)
    (.inr ⟨by simp [limP], by simp [limP, Whole.hP, Whole.hSeries], by simp [limP, Whole.hP, Whole.hSeries]⟩) (by decide)
    Whole.hPoints hm (fun h => (by cases h)) (s := 1) (by decide) ?_ (labels := labels) (table := table) ?_ hc hx hpos.ne' ?_ i v
  · show 2 ≤ (crossings Whole.hP.rate (track Whole.hP m Whole.hPts) 1).length
    rw [Whole.hTrack]
    decide
  · show Kde.cluster 1 250 0 1 (segmentData Whole.hP 0 m Whole.hPts 1) = _
    rw [(hData m).1]
    exact hcl
  · rw [abs_of_pos hpos]
    rw [div_le_iff₀ (by positivity)] at ha
    linarith

end Cluster
end S2G
