import Verif.Model.Parameters
import Mathlib.Logic.ExistsUnique
import Mathlib.Order.Basic

/-!
# C01, C02: segment ownership
-/

namespace S2G
namespace Parameters

/-- Accepted configurations: at least one node and at least one segment per node. -/
def WellFormed (p : Parameters) : Prop := 1 ≤ p.nClusterNodes ∧ p.nClusterNodes ≤ p.rate

instance (p : Parameters) : Decidable p.WellFormed := inferInstanceAs (Decidable (_ ∧ _))

theorem spn_eq {p : Parameters} (h : p.WellFormed) :
    p.segmentsPerNode = some (p.rate / p.nClusterNodes) := by
  have : p.nClusterNodes ≠ 0 := by have := h.1; omega
  simp [segmentsPerNode, checkedDiv, this]

theorem spn_pos {p : Parameters} (h : p.WellFormed) : 1 ≤ p.rate / p.nClusterNodes :=
  (Nat.one_le_div_iff h.1).2 h.2

/-- Closed form of the ownership function (used by the proofs below and by other modules). -/
theorem assignment_eq {p : Parameters} (h : p.WellFormed) (s : Nat) :
    p.segmentIdToAssignment s
      = some (min (s / (p.rate / p.nClusterNodes)) (p.nClusterNodes - 1)) := by
  have h1 := spn_pos h
  have h0 := h.1
  have hne : ¬ (p.rate / p.nClusterNodes = 0) := by omega
  simp only [segmentIdToAssignment, spn_eq h, checkedDiv, checkedSub, Option.bind_eq_bind,
    Option.bind_some, ge_iff_le]
  rw [if_neg hne]
  simp only [Option.bind_some]
  split
  · congr 1; omega
  · congr 1; omega

/-- C01a: every segment is owned by exactly one existing node. -/
theorem C01_owner_exists_unique {p : Parameters} (h : p.WellFormed) (s : Nat) :
    ∃! k, k < p.nClusterNodes ∧ p.segmentIdToAssignment s = some k := by
  have h0 := h.1
  refine ⟨_, ⟨?_, assignment_eq h s⟩, ?_⟩
  · omega
  · rintro k ⟨_, hk⟩
    rw [assignment_eq h s] at hk
    exact (Option.some.inj hk).symm

/-- C01b: ownership is monotone, so each node owns a contiguous block of segments. -/
theorem C01_owner_monotone {p : Parameters} (h : p.WellFormed) {s t k l : Nat} (hst : s ≤ t)
    (hs : p.segmentIdToAssignment s = some k) (ht : p.segmentIdToAssignment t = some l) :
    k ≤ l := by
  rw [assignment_eq h] at hs ht
  have := Nat.div_le_div_right (c := p.rate / p.nClusterNodes) hst
  simp only [Option.some.injEq] at hs ht
  omega

/-- C01b': the block of a node: nothing between two segments of a node belongs to another node. -/
theorem C01_owner_contiguous {p : Parameters} (h : p.WellFormed) {s t u k : Nat}
    (hsu : s ≤ u) (hut : u ≤ t)
    (hs : p.segmentIdToAssignment s = some k) (ht : p.segmentIdToAssignment t = some k) :
    p.segmentIdToAssignment u = some k := by
  obtain ⟨l, ⟨_, hu⟩, _⟩ := C01_owner_exists_unique h u
  have h1 := C01_owner_monotone h hsu hs hu
  have h2 := C01_owner_monotone h hut hu ht
  rw [hu]; congr 1; omega

/-- C01c: exact description of the block of node `k`. All nodes but the last own exactly
`rate / n` consecutive segments, the last one owns all remaining ones. -/
theorem C01_owner_block {p : Parameters} (h : p.WellFormed) {s k : Nat}
    (hk : k < p.nClusterNodes) :
    p.segmentIdToAssignment s = some k ↔
      k * (p.rate / p.nClusterNodes) ≤ s ∧
        (k + 1 < p.nClusterNodes → s < (k + 1) * (p.rate / p.nClusterNodes)) := by
  have h1 := spn_pos h
  rw [assignment_eq h, Option.some.injEq]
  have hdiv : s / (p.rate / p.nClusterNodes) < k + 1 ↔ s < (k + 1) * (p.rate / p.nClusterNodes) :=
    Nat.div_lt_iff_lt_mul h1
  have hdiv' : k ≤ s / (p.rate / p.nClusterNodes) ↔ k * (p.rate / p.nClusterNodes) ≤ s :=
    Nat.le_div_iff_mul_le h1
  rw [← hdiv, ← hdiv']
  omega

/-- C01d: every node owns at least one segment of the circle. -/
theorem C01_owner_surjective {p : Parameters} (h : p.WellFormed) {k : Nat}
    (hk : k < p.nClusterNodes) :
    ∃ s < p.rate, p.segmentIdToAssignment s = some k := by
  have h1 := spn_pos h
  have h2 : p.rate / p.nClusterNodes * p.nClusterNodes ≤ p.rate := Nat.div_mul_le_self _ _
  refine ⟨k * (p.rate / p.nClusterNodes), ?_, (C01_owner_block h hk).2 ⟨le_refl _, ?_⟩⟩
  · calc k * (p.rate / p.nClusterNodes) < (k+1) * (p.rate / p.nClusterNodes) := by
          rw [Nat.add_mul]; omega
      _ ≤ p.nClusterNodes * (p.rate / p.nClusterNodes) := Nat.mul_le_mul_right _ hk
      _ ≤ p.rate := by rw [Nat.mul_comm]; exact h2
  · intro _; rw [Nat.add_mul]; omega

/-- C01e: `first_segment_of_i_next_cluster_node` returns the smallest segment owned by the `i`-th
next node on the ring, and that segment lies on the circle. -/
theorem C01_first_segment {p : Parameters} (h : p.WellFormed) (s i : Nat) {k : Nat}
    (hk : p.segmentIdToAssignment s = some k) :
    ∃ f, p.firstSegmentOfINextClusterNode s i = some f ∧ f < p.rate ∧
      p.segmentIdToAssignment f = some ((k + i) % p.nClusterNodes) ∧
      ∀ t, p.segmentIdToAssignment t = some ((k + i) % p.nClusterNodes) → f ≤ t := by
  have h0 := h.1
  have h1 := spn_pos h
  have hlt : (k + i) % p.nClusterNodes < p.nClusterNodes := Nat.mod_lt _ h0
  have hne : p.nClusterNodes ≠ 0 := by omega
  refine ⟨(k + i) % p.nClusterNodes * (p.rate / p.nClusterNodes), ?_, ?_, ?_, ?_⟩
  · simp [firstSegmentOfINextClusterNode, hk, spn_eq h, checkedMod, hne]
  · obtain ⟨s', hs', hs''⟩ := C01_owner_surjective h hlt
    exact lt_of_le_of_lt ((C01_owner_block h hlt).1 hs'').1 hs'
  · refine (C01_owner_block h hlt).2 ⟨le_refl _, fun _ => ?_⟩
    rw [Nat.add_mul]; omega
  · intro t ht
    exact ((C01_owner_block h hlt).1 ht).1

/-- C02: the owner computation crashes exactly for configurations with fewer segments than nodes
(or without nodes). -/
theorem C02_crash_iff (p : Parameters) (s : Nat) :
    p.segmentIdToAssignment s = none ↔ p.rate < p.nClusterNodes ∨ p.nClusterNodes = 0 := by
  constructor
  · intro hn
    by_contra hcon
    have h : p.WellFormed := by constructor <;> omega
    rw [assignment_eq h] at hn
    simp at hn
  · rintro (h | h)
    · have h1 : p.nClusterNodes ≠ 0 := by omega
      simp [segmentIdToAssignment, segmentsPerNode, checkedDiv, h1, Nat.div_eq_of_lt h]
    · simp [segmentIdToAssignment, segmentsPerNode, checkedDiv, h]

/-- C02 (negation of the unconditional claim): an accepted configuration on which it crashes. -/
theorem C02_counterexample :
    ∃ p : Parameters, 1 ≤ p.rate ∧ 1 ≤ p.nClusterNodes ∧ p.segmentIdToAssignment 0 = none :=
  ⟨⟨50, 16, 75, 3, 1, 4, false⟩, by decide, by decide, by decide⟩

/-! Concrete instances of the hypotheses. -/

/-- rate 100 on 3 nodes: blocks 0-32, 33-65, 66-99. -/
def exParams : Parameters := ⟨50, 16, 75, 100, 1, 3, false⟩
example : exParams.WellFormed := by unfold WellFormed; decide
example : exParams.segmentIdToAssignment 32 = some 0 ∧ exParams.segmentIdToAssignment 33 = some 1 ∧
    exParams.segmentIdToAssignment 99 = some 2 ∧
    exParams.firstSegmentOfINextClusterNode 70 1 = some 0 := by decide

end Parameters
end S2G
