import Verif.Model.Transition
import Mathlib.Data.List.Perm.Basic
import Mathlib.Data.List.Nodup
import Mathlib.Data.List.Count
import Mathlib.Data.List.Range

/-!
# C26 (valid transitions), C30 (intersected segments)

The specification speaks about going forward on a circle of `rate` segments: `k` steps forward from `f` is
`(f + k) % rate`.
-/

namespace S2G
namespace Trans

/-- Specification: going `k` segments forward from `f` ends in `t`, and `k` is at least one border and at most
half a turn. -/
def ForwardBy (rate f t k : Nat) : Prop := 1 ≤ k ∧ 2 * k ≤ rate ∧ t = (f + k) % rate

theorem mod_cases {rate f k : Nat} (hf : f < rate) (hk : k ≤ rate) :
    (f + k) % rate = if f + k < rate then f + k else f + k - rate := by
  split
  · rw [Nat.mod_eq_of_lt (by assumption)]
  · rw [Nat.mod_eq_sub_mod (by omega), Nat.mod_eq_of_lt (by omega)]

theorem fdiv_two (rate : Nat) : Int.fdiv (rate : Int) 2 = ((rate / 2 : Nat) : Int) := by
  rw [Int.fdiv_eq_ediv_of_nonneg _ (by decide)]; omega

/-- C26: a step is kept as transition iff it moves forward by at least one segment border and at most half a
turn. -/
theorem C26_valid_iff {rate : Nat} (t : Trans) (hf : t.src.seg < rate) (ht : t.dst.seg < rate) :
    t.isValid rate = true ↔ ∃ k, ForwardBy rate t.src.seg t.dst.seg k := by
  unfold isValid crossesSegments hasValidDirection rawDiff ForwardBy
  simp only [fdiv_two, Bool.and_eq_true, Bool.or_eq_true, decide_eq_true_eq, bne_iff_ne, ne_eq]
  constructor
  · rintro ⟨hne, h | h⟩
    · refine ⟨t.dst.seg - t.src.seg, by omega, by omega, ?_⟩
      rw [mod_cases hf (by omega)]; split <;> omega
    · refine ⟨rate + t.dst.seg - t.src.seg, by omega, by omega, ?_⟩
      rw [mod_cases hf (by omega)]; split <;> omega
  · rintro ⟨k, h1, h2, h3⟩
    rw [mod_cases hf (by omega)] at h3
    split at h3 <;> omega

/-- The number of forward borders is determined by the two segments. -/
theorem forwardBy_unique {rate f t k l : Nat} (hf : f < rate) (hk : ForwardBy rate f t k)
    (hl : ForwardBy rate f t l) : k = l := by
  obtain ⟨k1, k2, k3⟩ := hk
  obtain ⟨l1, l2, l3⟩ := hl
  rw [mod_cases hf (by omega)] at k3 l3
  split at k3 <;> split at l3 <;> omega

/-- C26: of a crossing step and its reverse at least one is valid. -/
theorem C26_step_or_reverse {rate : Nat} (a b : Pt) (_ha : a.seg < rate) (hb : b.seg < rate)
    (hne : a.seg ≠ b.seg) : (Trans.mk a b).isValid rate = true ∨ (Trans.mk b a).isValid rate = true := by
  unfold isValid crossesSegments hasValidDirection rawDiff
  simp only [fdiv_two, Bool.and_eq_true, Bool.or_eq_true, decide_eq_true_eq, bne_iff_ne, ne_eq]
  omega

/-- C26: both a step and its reverse are valid only if they are exactly half a turn apart. -/
theorem C26_both_iff {rate : Nat} (a b : Pt) (_ha : a.seg < rate) (hb : b.seg < rate) :
    ((Trans.mk a b).isValid rate = true ∧ (Trans.mk b a).isValid rate = true) ↔
      (2 * ((a.seg : Int) - b.seg).natAbs = rate) := by
  unfold isValid crossesSegments hasValidDirection rawDiff
  simp only [fdiv_two, Bool.and_eq_true, Bool.or_eq_true, decide_eq_true_eq, bne_iff_ne, ne_eq]
  omega

theorem intersectionCount_eq {rate : Nat} (t : Trans) (hf : t.src.seg < rate) (ht : t.dst.seg < rate)
    {k : Nat} (h : ForwardBy rate t.src.seg t.dst.seg k) : t.intersectionCount rate = k := by
  obtain ⟨k1, k2, k3⟩ := h
  rw [mod_cases hf (by omega)] at k3
  have hd : t.segmentDiff = ((t.dst.seg : Int) - t.src.seg).natAbs := rfl
  simp only [intersectionCount]
  split at k3
  · rw [if_neg (by omega)]; omega
  · by_cases c : t.segmentDiff > rate / 2
    · rw [if_pos c, if_neg (by omega), if_pos (by omega)]; omega
    · rw [if_neg c]; omega

/-- C30: for a valid transition from segment `f` to segment `t` the computed intersections are with the
segments `f+1, f+2, …, t` (modulo `rate`), in this order. -/
theorem C30_segments {rate : Nat} (t : Trans) (hf : t.src.seg < rate) (ht : t.dst.seg < rate)
    (hv : t.isValid rate = true) :
    ∃ k, ForwardBy rate t.src.seg t.dst.seg k ∧
      t.intersectionSegments rate = (List.range k).map (fun j => (t.src.seg + (j + 1)) % rate) ∧
      (t.intersectionSegments rate).Nodup ∧
      (t.intersectionSegments rate).getLast? = some t.dst.seg := by
  obtain ⟨k, hk⟩ := (C26_valid_iff t hf ht).1 hv
  have heq : t.intersectionSegments rate = (List.range k).map (fun j => (t.src.seg + (j + 1)) % rate) := by
    rw [intersectionSegments, intersectionCount_eq t hf ht hk, List.range'_eq_map_range, List.map_map]
    apply List.map_congr_left
    intro j _
    simp [Nat.add_comm 1 j]
  obtain ⟨k1, k2, k3⟩ := hk
  refine ⟨k, ⟨k1, k2, k3⟩, heq, ?_, ?_⟩
  · rw [heq]
    apply List.Nodup.map_on _ List.nodup_range
    intro x hx y hy hxy
    rw [List.mem_range] at hx hy
    rw [mod_cases hf (by omega), mod_cases hf (by omega)] at hxy
    split at hxy <;> split at hxy <;> omega
  · rw [heq]
    obtain ⟨m, rfl⟩ : ∃ m, k = m + 1 := ⟨k - 1, by omega⟩
    rw [List.range_succ]
    simp [k3]

/-- C30, seen from one segment: segment `s` is intersected (then exactly once, see `Nodup` above) iff it is
one of the segments entered on the way from `f` forward to `t`; nothing else is intersected. -/
theorem C30_mem_iff {rate : Nat} (t : Trans) (hf : t.src.seg < rate) (ht : t.dst.seg < rate)
    {k : Nat} (hk : ForwardBy rate t.src.seg t.dst.seg k) (s : Nat) :
    s ∈ t.intersectionSegments rate ↔ ∃ j, 1 ≤ j ∧ j ≤ k ∧ s = (t.src.seg + j) % rate := by
  rw [intersectionSegments, intersectionCount_eq t hf ht hk]
  simp only [List.mem_map, List.mem_range'_1]
  constructor
  · rintro ⟨a, h, rfl⟩; exact ⟨a, by omega, by omega, rfl⟩
  · rintro ⟨a, h1, h2, rfl⟩; exact ⟨a, by omega, rfl⟩

theorem intersectionSegments_lt {rate : Nat} (hr : 0 < rate) (t : Trans) :
    ∀ s ∈ t.intersectionSegments rate, s < rate := by
  intro s hs
  rw [intersectionSegments, List.mem_map] at hs
  obtain ⟨_, _, rfl⟩ := hs
  exact Nat.mod_lt _ hr

/-- C30 for a whole node: the helper receives every pair (transition, intersected segment) exactly as often as
the transition is stored. -/
theorem C30_tasks {rate : Nat} (ts : List Trans) (t : Trans) (s : Nat)
    (hv : ∀ u ∈ ts, u.isValid rate = true ∧ u.src.seg < rate ∧ u.dst.seg < rate) :
    (intersectionTasks rate ts).count (t, s) =
      ts.count t * (if s ∈ t.intersectionSegments rate then 1 else 0) := by
  rw [intersectionTasks, List.count_reverse]
  induction ts with
  | nil => simp
  | cons u ts ih =>
    have ih := ih (fun w hw => hv w (List.mem_cons_of_mem _ hw))
    obtain ⟨h1, h2, h3⟩ := hv u (List.mem_cons_self ..)
    obtain ⟨_, _, _, hn, _⟩ := C30_segments u h2 h3 h1
    rw [List.flatMap_cons, List.count_append, ih, List.count_cons, Nat.add_mul, Nat.add_comm]
    congr 1
    by_cases hut : u = t
    · subst hut
      have hcm := List.count_map_of_injective (u.intersectionSegments rate) (fun s => (u, s))
        (fun a b h => (Prod.mk.inj h).2) s
      rw [hcm]
      simp only [beq_self_eq_true, if_true, Nat.one_mul]
      rw [hn.count]
    · have : (u == t) = false := by simpa using hut
      rw [this, List.count_eq_zero_of_not_mem]
      · simp
      · simp [hut]

/-! ### Concrete instances of the hypotheses -/

/-- rate 100, a step from segment 98 over the origin to segment 1 -/
example : (Trans.mk ⟨7, 98⟩ ⟨8, 1⟩).isValid 100 = true ∧
    (Trans.mk ⟨7, 98⟩ ⟨8, 1⟩).intersectionSegments 100 = [99, 0, 1] := by decide
/-- its reverse is not valid -/
example : (Trans.mk ⟨8, 1⟩ ⟨7, 98⟩).isValid 100 = false := by decide
/-- half a turn: both directions valid -/
example : (Trans.mk ⟨0, 7⟩ ⟨1, 2⟩).isValid 10 = true ∧ (Trans.mk ⟨0, 2⟩ ⟨1, 7⟩).isValid 10 = true := by decide
example : ForwardBy 10 7 2 5 := by unfold ForwardBy; decide
/-- odd rate -/
example : (Trans.mk ⟨0, 4⟩ ⟨1, 1⟩).isValid 5 = true ∧ (Trans.mk ⟨0, 1⟩ ⟨1, 4⟩).isValid 5 = false := by decide
example : intersectionTasks 5 [⟨⟨0, 4⟩, ⟨1, 1⟩⟩] = [(⟨⟨0, 4⟩, ⟨1, 1⟩⟩, 1), (⟨⟨0, 4⟩, ⟨1, 1⟩⟩, 0)] := by decide

end Trans
end S2G
