import Verif.Props.NanRun
import Verif.Props.ClusterExample

/-!
# A constant column beside the wave

The theorems of `Verif/Props/NanRun.lean` about two columns: the first is always 5, the second is the wave of
`Verif/Props/ClusterExample.lean` with one outlier.
-/

namespace S2G
namespace Whole

open Pca Rotation Points Pipeline Cluster

/-- The first column is constant, the second has an outlier. -/
def flat : List (Fin 2 → ℝ) := [1, 0, -1, 0, 1, 0, -1, 100, 1, 0, -1, 0, 1, 0, -1].map (fun x => ![5, x])

theorem flat_constant : ∀ x ∈ flat, x 0 = 5 := by
  intro x hx
  obtain ⟨y, _, rfl⟩ := List.mem_map.1 hx
  rfl

theorem flat_settled (m : Fin 2) : Settled exLib (windows 2 (wP 4 1) flat m) := fun _ _ _ _ _ _ => rfl

theorem flat_pca : HasPca exLib (wP 4 1) flat := by
  intro m
  refine ⟨_, _, (pcaOf_iff exLib_gram (flat_settled m)).2 ⟨?_, .inl le_rfl, rfl, rfl⟩⟩
  unfold windows column
  simp [wP, flat]

/-- Any clustering with one label for each intersection, for instance one which puts everything into one cluster. -/
theorem oneCluster : NodeEst.OneLabelEach (fun l : List Nat => some (l.map (fun _ => 0))) := by
  intro l labels _ h
  cases h
  simp

/-- The run delivers NaN at every position, and nothing else; the outlier is not found. -/
example (v : Option (List (Option ℚ))) :
    (∃ R, DeliversN exLib (fun l : List Nat => some (l.map (fun _ => 0))) (fun t => t.2) (wP 4 1) flat R v) ↔ v = some (List.replicate 11 none) := by
  rw [C77_constant_run exLib_gram oneCluster _ (by simp [Parameters.WellFormed, wP]) rfl rfl (by simp [wP]) (by simp [wP]) (by simp [wP, flat])
    (.inr ⟨0, 5, Nat.zero_le _, flat_constant⟩) v]
  exact and_iff_right flat_pca

/-- `C77_matrix`: the matrix of the first column is NaN, and the condition of the theorem says so. -/
example : ∃ R cs, CoordsN exLib (wP 4 1) flat R cs ∧ R 0 = none := by
  obtain ⟨R, cs, h⟩ := (C77_reaches (w := 2) rfl).2 flat_pca
  exact ⟨R, cs, h, C77_constant exLib_gram h flat_constant⟩

/-- `C77_agrees` and `C77_reaches`: the wave alone has a matrix which is not NaN. -/
example : ∃ R cs, CoordsN exLib (wP 4 1) wave R cs ∧ (∀ m, R m ≠ none) ∧ (pointsN (wP 4 1).rate cs).isSome := by
  obtain ⟨q, hq, _⟩ := wave_points (rate := 4) (by omega) 1
  obtain ⟨R, cs, h1, h2, h3⟩ := (C77_agrees (q.map toPt)).1 ⟨q, hq, rfl⟩
  exact ⟨R, cs, h1, h2, by rw [h3]; rfl⟩

end Whole
end S2G
