import Verif.Props.Cluster
import Verif.Props.WholeExample

/-!
# A run on three nodes in numbers

The hypotheses of C74 hold for a wave of fifteen values, windows of three, the exact singular vectors, and one, two or three nodes.
-/

namespace S2G
namespace Cluster

open Pca Rotation Points Whole

/-- Pattern length 4, latent 1, query length 1, `rate` segments, one thread, `k` nodes. -/
def wP (rate k : Nat) : Parameters := ⟨4, 1, 1, rate, 1, k, false⟩

/-- A wave. -/
def wave : List (Fin 1 → ℝ) := [fun _ => 1, fun _ => 0, fun _ => -1, fun _ => 0, fun _ => 1, fun _ => 0, fun _ => -1, fun _ => 0,
  fun _ => 1, fun _ => 0, fun _ => -1, fun _ => 0, fun _ => 1, fun _ => 0, fun _ => -1]

/-- The windows. -/
def waveRows : List (Row 3) := [![1, 0, -1], ![0, -1, 0], ![-1, 0, 1], ![0, 1, 0], ![1, 0, -1], ![0, -1, 0], ![-1, 0, 1], ![0, 1, 0],
  ![1, 0, -1], ![0, -1, 0], ![-1, 0, 1], ![0, 1, 0]]

theorem wave_settled (rate k : Nat) (m : Fin 1) : Settled exLib (windows 2 (wP rate k) wave m) := fun _ _ _ _ _ _ => rfl

theorem wave_windows (rate k : Nat) (m : Fin 1) : windows 2 (wP rate k) wave m = waveRows := by
  unfold windows column wave wP waveRows
  simp only [List.length_cons, List.length_nil, List.map_map]
  norm_num [List.range_succ, PhaseSpace.specPoint, PhaseSpace.series]
  refine ⟨?_, ?_, ?_, ?_, ?_, ?_, ?_, ?_, ?_, ?_, ?_, ?_⟩ <;> funext j <;> fin_cases j <;> simp

theorem wave_mean : mean waveRows = 0 := by
  unfold waveRows mean
  funext j
  fin_cases j <;> simp

theorem wave_pca (rate k : Nat) (m : Fin 1) : PcaOf exLib 1 (windows 2 (wP rate k) wave m) exComps 0 := by
  refine (pcaOf_iff exLib_gram (wave_settled rate k m)).2 ⟨by rw [wave_windows]; simp [waveRows], .inl le_rfl, ?_, ?_⟩
  · rw [wave_windows, wave_mean]
  · show some (Pca.normalize _) = some exComps
    have h2 : 0 ≤ (√2)⁻¹ := by positivity
    unfold Pca.normalize exComps
    simp [normalizeRow, h2]

/-- Coordinates of the points. -/
noncomputable def waveCoords : List (List ℝ) := [[√2, 0], [0, exH], [-√2, 0], [0, -exH], [√2, 0], [0, exH], [-√2, 0], [0, -exH],
  [√2, 0], [0, exH], [-√2, 0], [0, -exH]]

theorem wave_coords : (waveRows.map (fun x (_ : Fin 1) => reduced exComps 0 x)).map (coordinates (fun _ => exR)) = waveCoords := by
  have h2 : √2 * √2 = 2 := Real.mul_self_sqrt (by norm_num)
  have h2' : 0 < √2 := by positivity
  have c0 : coordinates (fun _ => exR) (fun _ : Fin 1 => reduced exComps 0 ![1, 0, -1]) = [√2, 0] := by
    refine exCoords _ _ _ ?_ ?_ <;> simp [reduced, reduceRow, exComps, List.finRange_succ] <;> field_simp <;> nlinarith
  have c1 : coordinates (fun _ => exR) (fun _ : Fin 1 => reduced exComps 0 ![0, -1, 0]) = [0, exH] := by
    refine exCoords _ _ _ ?_ ?_ <;> simp [reduced, reduceRow, exComps, List.finRange_succ, exH]
  have c2 : coordinates (fun _ => exR) (fun _ : Fin 1 => reduced exComps 0 ![-1, 0, 1]) = [-√2, 0] := by
    refine exCoords _ _ _ ?_ ?_ <;> simp [reduced, reduceRow, exComps, List.finRange_succ] <;> field_simp <;> nlinarith
  have c3 : coordinates (fun _ => exR) (fun _ : Fin 1 => reduced exComps 0 ![0, 1, 0]) = [0, -exH] := by
    refine exCoords _ _ _ ?_ ?_ <;> simp [reduced, reduceRow, exComps, List.finRange_succ, exH]
  simp only [waveRows, waveCoords, List.map_cons, List.map_nil, c0, c1, c2, c3]

/-- A run on one node has points, whatever the number of segments. -/
theorem wave_points {rate : Nat} (hr : 0 < rate) (k : Nat) : ∃ q, PointsOf exLib (wP rate k) wave q ∧ q.map Point.coordinates = waveCoords := by
  have hw : checkedSub (wP rate k).patternLength (wP rate k).latent = some (2 + 1) := rfl
  obtain ⟨ref, h1, h2⟩ := reference_some hw (fun _ : Fin 1 => (-1 : ℝ)) (fun _ => 1)
  have hb := PhaseSpace.C14_windowed_sums (wP rate k) wave (by simp [wP]) (by simp [wP, wave])
  have hwin := fun m => wave_windows rate k m
  unfold windows at hwin
  have hrows := rows_map (w := 2) (fun _ => (exComps, 0)) ((List.range (wave.length - ((wP rate k).patternLength - 1))).map
    (PhaseSpace.specPoint (wP rate k) wave))
  have hrows' : ((List.range (wave.length - ((wP rate k).patternLength - 1))).map (PhaseSpace.specPoint (wP rate k) wave)).map
      (fun row (m : Fin 1) => reduced exComps 0 (fun j : Fin 3 => row.getD j 0 m)) = waveRows.map (fun x (_ : Fin 1) => reduced exComps 0 x) := by
    rw [← hwin 0]
    unfold column
    rw [List.map_map (l := List.map _ _)]
    apply List.map_congr_left
    intro row _
    funext m
    rw [Subsingleton.elim m 0]
    rfl
  obtain ⟨q, hq, hl, hco⟩ := C67_points (fun _ => exR) (waveRows.map (fun x (_ : Fin 1) => reduced exComps 0 x)) (n := wave.length) (k := 1) (i := 0)
    (rate := rate) (by omega) (by omega) hr
  refine ⟨q, ⟨fun _ => -1, fun _ => 1, _, ref, fun _ => exComps, fun _ => 0, _, fun _ => exR, fun m => ⟨?_, ?_⟩, hw, h1, hb,
    wave_pca rate k, h2, fun m => ?_, ?_⟩, ?_⟩
  · simp [columnMin, wave, Kde.colMin]
  · simp [columnMax, wave, Kde.colMax]
  · rw [← exRotation]
    have : (fun j : Fin 3 => (List.replicate (2 + 1) (fun _ : Fin 1 => ((wP rate k).latent : ℝ) * -1)).getD j 0 m) = fun _ => -1 := by
      funext j
      rw [getD_replicate_fin]
      simp [wP]
    rw [this]
  · rw [hrows, hrows']
    exact hq
  · rw [← wave_coords]
    have h3 : addPoints 0 rate ((waveRows.map (fun x (_ : Fin 1) => reduced exComps 0 x)).map (coordinates (fun _ => exR))) = some q := by
      simpa [applyRotation, checkedDiv] using hq
    exact addPoints_coordinates h3

theorem wave_fits {rate k : Nat} (hk : 0 < k) (hk3 : k ≤ 3) : Fits (wP rate k) wave.length := by
  unfold Fits wP wave
  have : k = 1 ∨ k = 2 ∨ k = 3 := by omega
  rcases this with rfl | rfl | rfl <;> simp

theorem wave_count {rate k : Nat} (hk : 0 < k) (hk3 : k ≤ 3) : ∀ i < k, 0 < count (wP rate k) wave.length i := by
  unfold count wP wave
  have : k = 1 ∨ k = 2 ∨ k = 3 := by omega
  rcases this with rfl | rfl | rfl <;> intro i _ <;> simp <;> split <;> omega

/-- C74 about the wave: up to three nodes, the nodes get points, and one after the other they are the twelve points of the run on
one node. -/
example {rate k : Nat} (hr : 0 < rate) (hk : 0 < k) (hk3 : k ≤ 3) : ∃ pts, PointsOfAll exLib (wP rate k) RotNet.NotEarly wave pts ∧
    ((List.range k).flatMap pts).map Point.coordinates = waveCoords := by
  obtain ⟨q, h1, h2⟩ := wave_points hr k
  obtain ⟨pts, h3, h4⟩ := (C74_exact exLib_gram (wave_settled rate k) (wave_fits hk hk3) hk3
    (fun i hi => ⟨wave_count hk hk3 i hi, .inl le_rfl⟩) q).1 h1
  exact ⟨pts, h3, by rw [← h2, ← h4]; rfl⟩

end Cluster
end S2G
