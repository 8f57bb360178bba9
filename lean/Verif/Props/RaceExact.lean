import Verif.Props.RingExact
import Verif.Props.Weights
import Verif.Props.SubScores
import Verif.Props.SelfCorrection

/-!
# Exact effect of the race of the ring rotation (C18) on its four uses

For a completed rotation (`RingNet.Traced`), "no race" means that no node had both buffered and waiting messages when it entered
the stage. The order of messages does not depend on their contents (`RingNet.Reachable.map`), so an execution is given by a run in
which node `j` contributes the number `j`; the contributions are inserted by `RingNet.map`.
-/

namespace S2G
open RingNet

/-- No node had both buffered and waiting messages when it entered the stage. -/
def NoRace (k : Nat) (f : Nat → Nat × Nat) : Prop := ∀ i < k, (f i).1 = 0 ∨ (f i).2 = 0

namespace RingNet

/-- With a race, one node misses the contribution of another one. -/
theorem race_misses {k : Nat} (hk : 2 ≤ k) {f : Nat → Nat × Nat} {s : RingNet Nat} (h : Traced k f s)
    (hpay : ∀ j < k, s.pay j = j) (hd : ∀ i < k, s.done i = 1) (hr : ¬ NoRace k f) :
    ∃ i < k, ∃ j < k, j ≠ i ∧ ∀ m ∈ s.processed i, m.body < k ∧ m.body ≠ j := by
  simp only [NoRace, not_forall, not_or] at hr
  obtain ⟨i0, hi0, h0⟩ := hr
  obtain ⟨i, hi, j, hj, hji, hm⟩ := C18_race_misses hk h hd ⟨i0, hi0, h0⟩
  refine ⟨i, hi, j, hj, hji, fun m hmem => ?_⟩
  obtain ⟨h1, h2, h3⟩ := body_pay hk h i hi m (by simp [history, hmem])
  rw [h3, hpay _ h1]
  exact ⟨h1, fun he => hm (List.mem_map.2 ⟨m, hmem, he⟩)⟩

theorem no_race_reachable {k : Nat} {f : Nat → Nat × Nat} {s : RingNet Nat} (h : Traced k f s) (hr : NoRace k f) :
    Reachable true k s := benign_iff.2 ⟨f, h, hr⟩

end RingNet

namespace Weights

/-- C45 (exact): a completed rotation gives every node the right weights, whatever the edges are, if and only if there was no race. -/
theorem C45_exact {k : Nat} (hk : 2 ≤ k) {f : Nat → Nat × Nat} {s : RingNet Nat} (h : Traced k f s)
    (hpay : ∀ j < k, s.pay j = j) (hd : ∀ i < k, s.done i = 1) :
    (∀ edges : Nat → List Edge, ∀ i < k, ∀ x, (rotated (s.map (fun j => edgeWeight (edges j))) i).val x =
      ((List.range k).flatMap edges).countP (fun e => e.edgeKey = x)) ↔ NoRace k f := by
  constructor
  · intro hall
    by_contra hr
    obtain ⟨i, hi, j, hj, hji, hm⟩ := race_misses hk h hpay hd hr
    let e : Edge := ⟨⟨0, 0, 1⟩, ⟨1, 0, 1⟩⟩
    have := hall (fun n => if n = j then [e] else []) i hi e.edgeKey
    rw [rotated, Counts.val_foldl_merge] at this
    simp only [RingNet.map, RMsg.map, List.map_map, Function.comp_def, hpay i hi, if_neg hji.symm] at this
    have hz : ((s.processed i).map (fun m => (edgeWeight (if m.body = j then [e] else [])).val e.edgeKey)).sum = 0 := by
      rw [List.sum_eq_zero_iff]
      intro y hy
      obtain ⟨m, hmem, rfl⟩ := List.mem_map.1 hy
      rw [if_neg (hm m hmem).2]
      rfl
    rw [hz] at this
    have hpos : 0 < ((List.range k).flatMap (fun n => if n = j then [e] else [])).countP (fun a => a.edgeKey = e.edgeKey) := by
      rw [List.countP_pos_iff]
      exact ⟨e, List.mem_flatMap.2 ⟨j, List.mem_range.2 hj, by simp⟩, by simp⟩
    have hown : (edgeWeight []).val e.edgeKey = 0 := rfl
    omega
  · intro hr edges i hi x
    refine (C45_global hk ((no_race_reachable h hr).map (fun j => edgeWeight (edges j))) (edges := edges) ?_ hi (hd i hi) x).1
    intro j hj
    simp [RingNet.map, hpay j hj]

/-- C46 (exact): a completed rotation gives every node the right degrees, for all edges of which equal ones are held by one node, if and
only if there was no race. -/
theorem C46_exact {k : Nat} (hk : 2 ≤ k) {f : Nat → Nat × Nat} {s : RingNet Nat} (h : Traced k f s)
    (hpay : ∀ j < k, s.pay j = j) (hd : ∀ i < k, s.done i = 1) :
    (∀ edges : Nat → List Edge, HeldOnce k edges → ∀ i < k, ∀ v, (rotated (s.map (fun j => nodeDegrees (edges j))) i).val v =
      degreeSpec (distinct ((List.range k).flatMap edges)) v) ↔ NoRace k f := by
  constructor
  · intro hall
    by_contra hr
    obtain ⟨i, hi, j, hj, hji, hm⟩ := race_misses hk h hpay hd hr
    let e : Edge := ⟨⟨0, 0, 1⟩, ⟨1, 0, 1⟩⟩
    have hone : HeldOnce k (fun n => if n = j then [e] else []) := by
      intro a _ b _ x hx y hy _
      simp only at hx hy
      split at hx
      · split at hy
        · omega
        · cases hy
      · cases hx
    have := hall (fun n => if n = j then [e] else []) hone i hi e.src.nodeKey
    rw [rotated, Counts.val_foldl_merge] at this
    simp only [RingNet.map, RMsg.map, List.map_map, Function.comp_def, hpay i hi, if_neg hji.symm] at this
    have hz : ((s.processed i).map (fun m => (nodeDegrees (if m.body = j then [e] else [])).val e.src.nodeKey)).sum = 0 := by
      rw [List.sum_eq_zero_iff]
      intro y hy
      obtain ⟨m, hmem, rfl⟩ := List.mem_map.1 hy
      rw [if_neg (hm m hmem).2]
      rfl
    rw [hz] at this
    have hpos : 0 < degreeSpec (distinct ((List.range k).flatMap (fun n => if n = j then [e] else []))) e.src.nodeKey := by
      unfold degreeSpec
      have : 0 < (distinct ((List.range k).flatMap (fun n => if n = j then [e] else []))).countP
          (fun a => a.1 = e.src.nodeKey) := by
        rw [List.countP_pos_iff]
        refine ⟨e.edgeKey, List.mem_dedup.2 (List.mem_map.2 ⟨e, List.mem_flatMap.2 ⟨j, List.mem_range.2 hj, by simp⟩, rfl⟩), ?_⟩
        simp [Edge.edgeKey]
      omega
    have hown : (nodeDegrees []).val e.src.nodeKey = 0 := rfl
    omega
  · intro hr edges hone i hi v
    refine (C46_global hk ((no_race_reachable h hr).map (fun j => nodeDegrees (edges j))) (edges := edges) ?_ hone hi (hd i hi) v).1
    intro j hj
    simp [RingNet.map, hpay j hj]

end Weights

namespace SubScores

/-- C53 (exact): after a completed rotation every node has the scores of all nodes if and only if there was no race; otherwise some
node crashes, whatever the scores are. -/
theorem C53_exact {k : Nat} (hk : 2 ≤ k) {f : Nat → Nat × Nat} {s : RingNet (List ℚ × Bool)} (h : Traced k f s)
    (hd : ∀ i < k, s.done i = 1) :
    ((∀ i < k, ∀ j < k, subscores s i j = some (s.pay j)) ↔ NoRace k f) ∧
    (¬ NoRace k f → ∃ i < k, finalize k (subscores s i) = none) := by
  have hmiss : ¬ NoRace k f → ∃ i < k, ∃ j < k, subscores s i j = none := by
    intro hr
    simp only [NoRace, not_forall, not_or] at hr
    obtain ⟨i0, hi0, h0⟩ := hr
    obtain ⟨i, hi, j, hj, hji, hm⟩ := C18_race_misses hk h hd ⟨i0, hi0, h0⟩
    exact ⟨i, hi, j, hj, (C53_missing_iff s i j).2 ⟨hji, hm⟩⟩
  refine ⟨⟨fun hall => ?_, fun hr i hi j hj => ?_⟩, fun hr => ?_⟩
  · by_contra hr
    obtain ⟨i, hi, j, hj, hn⟩ := hmiss hr
    rw [hall i hi j hj] at hn
    cases hn
  · exact C53_all_present hk (benign_iff.2 ⟨f, h, hr⟩) hi (hd i hi) hj
  · obtain ⟨i, hi, j, hj, hn⟩ := hmiss hr
    exact ⟨i, hi, (C53_crash_iff k _).2 (Or.inl ⟨j, hj, hn⟩)⟩

end SubScores

namespace SelfCorrection

/-- C29 (exact): a completed rotation gives every node the sum of all counts, whatever the counts are, if and only if there was no race. -/
theorem C29_totals_exact {k : Nat} (hk : 2 ≤ k) {f : Nat → Nat × Nat} {s : RingNet Nat} (h : Traced k f s)
    (hpay : ∀ j < k, s.pay j = j) (hd : ∀ i < k, s.done i = 1) :
    (∀ c : Nat → Count, ∀ i < k, totals (c i) ((s.processed i).map (fun m => c m.body)) =
      ⟨((List.range k).map (fun j => (c j).count)).sum, ((List.range k).map (fun j => (c j).clockwise)).sum⟩) ↔ NoRace k f := by
  constructor
  · intro hall
    by_contra hr
    obtain ⟨i, hi, j, hj, hji, hm⟩ := race_misses hk h hpay hd hr
    have := congrArg Count.count (hall (fun n => if n = j then ⟨1, 0⟩ else ⟨0, 0⟩) i hi)
    rw [totals_eq] at this
    simp only [if_neg hji.symm, List.map_map, Function.comp_def] at this
    have hz : ((s.processed i).map (fun m => (if m.body = j then (⟨1, 0⟩ : Count) else ⟨0, 0⟩).count)).sum = 0 := by
      rw [List.sum_eq_zero_iff]
      intro y hy
      obtain ⟨m, hmem, rfl⟩ := List.mem_map.1 hy
      rw [if_neg (hm m hmem).2]
    rw [hz] at this
    have hpos : 0 < ((List.range k).map (fun n => (if n = j then (⟨1, 0⟩ : Count) else ⟨0, 0⟩).count)).sum := by
      refine Nat.pos_of_ne_zero (fun h0 => ?_)
      rw [List.sum_eq_zero_iff] at h0
      have := h0 1 (List.mem_map.2 ⟨j, List.mem_range.2 hj, by simp⟩)
      omega
    omega
  · intro hr c i hi
    have hR := (no_race_reachable h hr).map c
    have := C29_totals hk hR hi (show (s.map c).done i = 1 from hd i hi)
    simp only [RingNet.map, RMsg.map, List.map_map, Function.comp_def, hpay i hi] at this
    rw [this]
    congr 2 <;>
    · apply List.map_congr_left
      intro j hj
      rw [List.mem_range] at hj
      rw [hpay j hj]

end SelfCorrection

/-- The hypotheses are met by an execution without race and, for at least three nodes, by one with a race. -/
theorem race_examples {k : Nat} (hk : 3 ≤ k) :
    (∃ (f : Nat → Nat × Nat) (s : RingNet Nat), Traced k f s ∧ (∀ j < k, s.pay j = j) ∧ (∀ i < k, s.done i = 1) ∧ NoRace k f) ∧
    ∃ (f : Nat → Nat × Nat) (s : RingNet Nat), Traced k f s ∧ (∀ j < k, s.pay j = j) ∧ (∀ i < k, s.done i = 1) ∧ ¬ NoRace k f := by
  constructor
  · obtain ⟨f, s, h, hp, hd, hr⟩ := C18_right_possible (by omega : 2 ≤ k) (fun j : Nat => j)
    exact ⟨f, s, h, fun j _ => by rw [hp], hd, hr⟩
  · obtain ⟨f, s, h, hp, hd, hr⟩ := C18_wrong_everywhere hk (fun j : Nat => j)
    refine ⟨f, s, h, fun j _ => by rw [hp], hd, fun hn => hr ?_⟩
    have := (C18_correct_iff (by omega) h hd).2 hn
    rwa [hp] at this

end S2G
