import Verif.Model.EdgesInTime
import Mathlib.Data.List.Induction

/-!
# C47: the number of edges up to every point
-/

namespace S2G
namespace EdgesInTime

/-- Specification: for every point the number of edges which end there or earlier. -/
def spec (start length : Nat) (ids : List Nat) : List Nat :=
  (List.range length).map (fun k => ids.countP (fun x => x ≤ start + k))

theorem pad_spec {f : Nat → Nat} {n m x : Nat} (hnm : n ≤ m) (h : ∀ k, n ≤ k → k < m → f k = x) :
    pad ((List.range n).map f) m x = (List.range m).map f := by
  unfold pad
  rw [List.length_map, List.length_range]
  obtain ⟨d, rfl⟩ := Nat.exists_eq_add_of_le hnm
  rw [Nat.add_sub_cancel_left, List.range_add, List.map_append, List.map_map]
  congr 1
  symm
  rw [List.eq_replicate_iff]
  refine ⟨by simp, ?_⟩
  intro b hb
  obtain ⟨k, hk, rfl⟩ := List.mem_map.1 hb
  rw [List.mem_range] at hk
  exact h _ (Nat.le_add_right _ _) (Nat.add_lt_add_left hk _)

/-- What is known after a sorted, non-empty part of the edges. -/
structure Inv (start : Nat) (pre : List Nat) (s : State) (l : Nat) : Prop where
  last : s.last = some l
  top : ∀ x ∈ pre, x ≤ l
  lastLen : s.lastLen = pre.countP (fun x => x < l)
  eit : ∃ n, s.eit = (List.range n).map (fun k => pre.countP (fun x => x ≤ start + k)) ∧ start + n ≤ max start l ∧
    ∀ x ∈ pre, x < l → start ≤ x ∧ x < start + n
  first : start ≤ l ∨ (s.eit = [] ∧ ∀ x ∈ pre, x = l)

theorem flush {start : Nat} {pre : List Nat} {s : State} {l : Nat} (h : Inv start pre s l) (hl : start ≤ l) :
    pad s.eit (l - start) s.lastLen ++ [pre.length] =
      (List.range (l - start + 1)).map (fun k => pre.countP (fun x => x ≤ start + k)) := by
  obtain ⟨n, he, hn, hx⟩ := h.eit
  rw [he, h.lastLen, pad_spec (m := l - start) (by omega), List.range_succ, List.map_append]
  · congr 1
    simp only [List.map_cons, List.map_nil, List.cons.injEq, and_true]
    rw [show start + (l - start) = l by omega]
    symm
    rw [List.countP_eq_length]
    simpa using h.top
  · intro k hk1 hk2
    apply List.countP_congr
    intro x hx'
    simp only [decide_eq_true_eq]
    constructor
    · intro hle; omega
    · intro hlt
      have := hx x hx' hlt
      omega

theorem foldl_inv {start : Nat} (pre : List Nat) (hne : pre ≠ []) (hs : pre.Pairwise (· ≤ ·))
    (hlow : (∀ x ∈ pre, start ≤ x) ∨ ∀ x ∈ pre, ∀ y ∈ pre, x = y) :
    ∃ s l, pre.zipIdx.foldlM (step start) {} = some s ∧ l ∈ pre ∧ Inv start pre s l := by
  induction pre using List.reverseRecOn with
  | nil => exact absurd rfl hne
  | append_singleton pre x ih =>
    rw [List.zipIdx_append, List.foldlM_append]
    rcases List.eq_nil_or_concat pre with rfl | ⟨pre', y, rfl⟩
    · refine ⟨⟨[], some x, 0⟩, x, rfl, by simp, rfl, by simp, by simp, ⟨0, rfl, by omega, by simp⟩, Or.inr ⟨rfl, by simp⟩⟩
    · rw [List.concat_eq_append] at *
      generalize hpre : pre' ++ [y] = pre at *
      have hp := List.pairwise_append.1 hs
      obtain ⟨s, l, hf, hl, hI⟩ := ih (by rw [← hpre]; simp) hp.1 (by
        rcases hlow with h | h
        · exact Or.inl (fun z hz => h z (by simp [hz]))
        · exact Or.inr (fun z hz w hw => h z (by simp [hz]) w (by simp [hw])))
      rw [hf]
      have hlx : l ≤ x := hp.2.2 l hl x (by simp)
      simp only [List.zipIdx_cons, List.zipIdx_nil, Nat.zero_add, Option.bind_eq_bind, Option.bind_some, List.foldlM_cons,
        List.foldlM_nil, step, hI.last]
      by_cases hx : x = l
      · subst hx
        refine ⟨s, x, by simp, by simp, hI.last, ?_, ?_, ?_, ?_⟩
        · intro z hz
          rcases List.mem_append.1 hz with hz | hz
          · exact hI.top z hz
          · rw [List.mem_singleton.1 hz]
        · rw [hI.lastLen, List.countP_append]; simp
        · obtain ⟨n, he, hn, hxx⟩ := hI.eit
          refine ⟨n, ?_, hn, ?_⟩
          · rw [he]
            apply List.map_congr_left
            intro k hk
            rw [List.mem_range] at hk
            rw [List.countP_append, List.countP_singleton, if_neg, Nat.add_zero]
            simp only [decide_eq_true_eq]
            omega
          · intro z hz hlt
            rcases List.mem_append.1 hz with hz | hz
            · exact hxx z hz hlt
            · rw [List.mem_singleton.1 hz] at hlt; omega
        · rcases hI.first with h | ⟨h1, h2⟩
          · exact Or.inl h
          · refine Or.inr ⟨h1, ?_⟩
            intro z hz
            rcases List.mem_append.1 hz with hz | hz
            · exact h2 z hz
            · exact List.mem_singleton.1 hz
      · have hstart : start ≤ l := by
          rcases hlow with h | h
          · exact h l (by simp [hl])
          · exact absurd (h x (by simp) l (by simp [hl])) hx
        rw [if_pos hx, checkedSub, if_pos hstart]
        refine ⟨_, x, rfl, by simp, rfl, ?_, ?_, ?_, Or.inl (by omega)⟩
        · intro z hz
          rcases List.mem_append.1 hz with hz | hz
          · exact Nat.le_trans (hI.top z hz) hlx
          · rw [List.mem_singleton.1 hz]
        · simp only
          rw [List.countP_append, List.countP_singleton, if_neg (by simp), Nat.add_zero]
          symm
          rw [List.countP_eq_length]
          intro z hz
          have := hI.top z hz
          simp only [decide_eq_true_eq]
          omega
        · refine ⟨l - start + 1, ?_, by omega, ?_⟩
          · simp only
            rw [flush hI hstart]
            apply List.map_congr_left
            intro k hk
            rw [List.mem_range] at hk
            rw [List.countP_append, List.countP_singleton, if_neg, Nat.add_zero]
            simp only [decide_eq_true_eq]
            omega
          · intro z hz hlt
            rcases List.mem_append.1 hz with hz | hz
            · have h1 := hI.top z hz
              refine ⟨?_, by omega⟩
              rcases hlow with h | h
              · exact h z (by simp [hz])
              · exact absurd (h x (by simp) l (by simp [hl])) hx
            · rw [List.mem_singleton.1 hz] at hlt; omega

/-- C47: for edges sorted by time, within the time range of the node and not all at point 0, entry `k` is the number of
edges which end at point `start + k` or earlier. -/
theorem C47_count {start length : Nat} {ids : List Nat} (hs : ids.Pairwise (· ≤ ·)) (hlow : ∀ x ∈ ids, start ≤ x)
    (hhigh : ∀ x ∈ ids, x < start + length) (h0 : ids = [] ∨ ∃ x ∈ ids, x ≠ 0) :
    count start length ids = some (spec start length ids) := by
  unfold count
  by_cases hne : ids = []
  · subst hne
    simp only [List.nil_append, List.zipIdx_cons, List.zipIdx_nil, List.foldlM_cons, List.foldlM_nil, step,
      Option.bind_eq_bind, Option.bind_some, Option.pure_def]
    congr 1
    exact pad_spec (n := 0) (f := fun k => [].countP (fun x => x ≤ start + k)) (Nat.zero_le _) (fun _ _ _ => rfl)
  · obtain ⟨s, l, hf, hl, hI⟩ := foldl_inv ids hne hs (Or.inl hlow)
    have hl0 : l ≠ 0 := by
      rcases h0 with h | ⟨x, hx, hx0⟩
      · exact absurd h hne
      · have := hI.top x hx
        omega
    rw [List.zipIdx_append, List.foldlM_append, hf]
    simp only [List.zipIdx_cons, List.zipIdx_nil, Nat.zero_add, Option.bind_eq_bind, Option.bind_some, List.foldlM_cons,
      List.foldlM_nil, step, hI.last, Option.pure_def]
    have hh := hhigh l hl
    rw [if_pos (fun e => hl0 e.symm), checkedSub, if_pos (hlow l hl)]
    simp only [Option.bind_some]
    congr 1
    rw [flush hI (hlow l hl)]
    have hlow' := hlow l hl
    apply pad_spec (by omega)
    intro k hk1 hk2
    rw [List.countP_eq_length]
    intro x hx
    have := hI.top x hx
    simp only [decide_eq_true_eq]
    omega

/-- C47 (shape): one entry per point, never decreasing, never more than the number of edges; the last entry is the number of
edges. -/
theorem C47_shape {start length : Nat} {ids : List Nat} (hs : ids.Pairwise (· ≤ ·)) (hlow : ∀ x ∈ ids, start ≤ x)
    (hhigh : ∀ x ∈ ids, x < start + length) (h0 : ids = [] ∨ ∃ x ∈ ids, x ≠ 0) :
    ∃ eit, count start length ids = some eit ∧ eit.length = length ∧ eit.Pairwise (· ≤ ·) ∧ (∀ x ∈ eit, x ≤ ids.length) ∧
      ∀ x ∈ eit.getLast?, x = ids.length := by
  refine ⟨_, C47_count hs hlow hhigh h0, by simp [spec], ?_, ?_, ?_⟩
  · unfold spec
    rw [List.pairwise_map]
    refine (List.pairwise_lt_range (n := length)).imp ?_
    intro a b hab
    apply List.countP_mono_left
    intro x _ hx
    simp only [decide_eq_true_eq] at hx ⊢
    omega
  · intro x hx
    obtain ⟨k, _, rfl⟩ := List.mem_map.1 hx
    exact List.countP_le_length
  · intro x hx
    cases length with
    | zero => cases hx
    | succ m =>
      unfold spec at hx
      rw [List.range_succ, List.map_append, List.getLast?_append_of_ne_nil _ (by simp)] at hx
      simp only [List.map_cons, List.map_nil, List.getLast?_singleton, Option.mem_def, Option.some.injEq] at hx
      rw [← hx, List.countP_eq_length]
      intro y hy
      have := hhigh y hy
      simp only [decide_eq_true_eq]
      omega

/-- C47 (what fails): if there are edges and all of them end at point 0, none of them is counted: the pseudo edge is taken
for one of them. -/
theorem C47_zero {length : Nat} {ids : List Nat} (hne : ids ≠ []) (h0 : ∀ x ∈ ids, x = 0) (start : Nat) :
    count start length ids = some (List.replicate length 0) := by
  obtain ⟨s, l, hf, hl, hI⟩ := foldl_inv (start := start) ids hne
    (List.pairwise_of_forall_mem_list (fun a ha b hb => by rw [h0 a ha, h0 b hb]))
    (Or.inr (fun x hx y hy => by rw [h0 x hx, h0 y hy]))
  obtain rfl := h0 l hl
  unfold count
  rw [List.zipIdx_append, List.foldlM_append, hf]
  simp only [List.zipIdx_cons, List.zipIdx_nil, Nat.zero_add, Option.bind_eq_bind, Option.bind_some, List.foldlM_cons,
    List.foldlM_nil, step, hI.last, Option.pure_def, ne_eq, not_true_eq_false, if_false]
  obtain ⟨n, he, hn, -⟩ := hI.eit
  have hn0 : n = 0 := by omega
  subst hn0
  rw [he, hI.lastLen]
  simp [pad]

/-- C47 (crash): for sorted edges the function crashes exactly if an edge ends before the time range of the node and not all
edges end at point 0. -/
theorem C47_crash_iff {start length : Nat} {ids : List Nat} (hs : ids.Pairwise (· ≤ ·)) :
    count start length ids = none ↔ (∃ x ∈ ids, x < start) ∧ ∃ x ∈ ids, x ≠ 0 := by
  constructor
  · intro h
    by_cases hz : ∃ x ∈ ids, x ≠ 0
    · refine ⟨?_, hz⟩
      by_contra hc
      push Not at hc
      obtain ⟨x, hx, _⟩ := hz
      obtain ⟨s, l, hf, hl, hI⟩ := foldl_inv ids (List.ne_nil_of_mem hx) hs (Or.inl hc)
      unfold count at h
      rw [List.zipIdx_append, List.foldlM_append, hf] at h
      simp only [List.zipIdx_cons, List.zipIdx_nil, Nat.zero_add, Option.bind_eq_bind, Option.bind_some, List.foldlM_cons,
        List.foldlM_nil, step, hI.last, Option.pure_def, checkedSub, if_pos (hc l hl)] at h
      split at h <;> simp at h
    · exfalso
      push Not at hz
      by_cases hne : ids = []
      · subst hne
        simp [count, step] at h
      · rw [C47_zero hne hz] at h
        cases h
  · rintro ⟨⟨x, hx, hlt⟩, y, hy, hy0⟩
    obtain ⟨a, rest, rfl⟩ : ∃ a rest, ids = a :: rest := by
      cases ids with
      | nil => cases hx
      | cons a rest => exact ⟨a, rest, rfl⟩
    have ha : a < start := by
      rcases List.mem_cons.1 hx with rfl | hx
      · exact hlt
      · exact lt_of_le_of_lt ((List.pairwise_cons.1 hs).1 x hx) hlt
    have key : ∀ (l : List (Nat × Nat)) (s : State), s.last = some a → (∃ z ∈ l, z.1 ≠ a) →
        l.foldlM (step start) s = none := by
      intro l
      induction l with
      | nil => rintro s _ ⟨z, hz, _⟩; cases hz
      | cons z l ih =>
        rintro s hsl ⟨w, hw, hwa⟩
        rw [List.foldlM_cons]
        by_cases hz : z.1 = a
        · have : step start s z = some s := by simp [step, hsl, hz]
          rw [this]
          refine ih s hsl ⟨w, ?_, hwa⟩
          rcases List.mem_cons.1 hw with rfl | hw
          · exact absurd hz hwa
          · exact hw
        · have : step start s z = none := by
            simp only [step, hsl, ne_eq, hz, not_false_eq_true, if_true, checkedSub]
            rw [if_neg (by omega)]
            rfl
          rw [this]
          rfl
    have : (((a :: rest) ++ [0]).zipIdx.foldlM (step start) {}) = none := by
      rw [List.cons_append, List.zipIdx_cons, List.foldlM_cons]
      change ((rest ++ [0]).zipIdx (0 + 1)).foldlM (step start) ⟨[], some a, 0⟩ = none
      apply key _ _ rfl
      have hmem : ∃ v ∈ rest ++ [0], v ≠ a := by
        by_cases ha0 : a = 0
        · rcases List.mem_cons.1 hy with rfl | hy
          · exact absurd ha0 hy0
          · exact ⟨y, by simp [hy], by rw [ha0]; exact hy0⟩
        · exact ⟨0, by simp, fun e => ha0 e.symm⟩
      obtain ⟨v, hv, hva⟩ := hmem
      have : v ∈ ((rest ++ [0]).zipIdx (0 + 1)).map Prod.fst := by rw [List.zipIdx_map_fst]; exact hv
      obtain ⟨z, hz, rfl⟩ := List.mem_map.1 this
      exact ⟨z, hz, hva⟩
    unfold count
    rw [this]
    rfl

/-! ### Concrete instances -/

/-- C47: every node but the last has one entry per point; the last has one less, since no edge ends at the last point. The
last node crashes exactly without points. -/
theorem C47_entries (n own points : Nat) :
    (own + 1 < n → resultLength n own points = some points) ∧
    (own + 1 = n → (resultLength n own points = none ↔ points = 0) ∧ ∀ r, resultLength n own points = some r → r + 1 = points) := by
  unfold resultLength checkedSub
  refine ⟨fun h => ?_, fun h => ?_⟩
  · rw [if_neg (by omega : ¬ own = n - 1)]
    simp
  · rw [if_pos (by omega : own = n - 1)]
    by_cases hp : 1 ≤ points
    · rw [if_pos hp]
      refine ⟨by simp; omega, fun r hr => ?_⟩
      have := Option.some.inj hr
      omega
    · rw [if_neg hp]
      exact ⟨by simp; omega, by simp⟩

example : resultLength 2 0 3 = some 3 ∧ resultLength 2 1 3 = some 2 ∧ resultLength 2 1 0 = none := by decide

example : count 10 6 [11, 11, 14] = some [0, 2, 2, 2, 3, 3] := by decide
example : count 10 6 [11, 11, 14] = some (spec 10 6 [11, 11, 14]) :=
  C47_count (by decide) (by decide) (by decide) (Or.inr ⟨11, by decide, by decide⟩)
/-- The edges of the first step alone are not counted. -/
theorem C47_counterexample : count 0 3 [0, 0] = some [0, 0, 0] ∧ spec 0 3 [0, 0] = [2, 2, 2] := by decide
example : count 10 6 [9, 11] = none := by decide

end EdgesInTime
end S2G
