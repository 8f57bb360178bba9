import Verif.Model.Stats
import Verif.Util
import Verif.Props.DataReader
import Mathlib.Order.Bounds.Basic
import Mathlib.Algebra.Order.Field.Rat
import Mathlib.Algebra.BigOperators.Ring.List
import Mathlib.Tactic.FieldSimp
import Mathlib.Tactic.Ring
import Mathlib.Tactic.NormNum
import Mathlib.Tactic.Linarith
import Mathlib.Algebra.Order.Field.Basic
import Mathlib.Data.List.Induction
import Mathlib.Order.Fin.Basic
import Mathlib.Algebra.CharP.Defs

/-!
# C08, C09, C10: statistics of the distributed data set
-/

namespace S2G
set_option linter.unusedSectionVars false
namespace Stats
variable {d : Nat} {S : Type}

/-! ## Minimum and maximum -/
section MinMax
variable {α : Type} [LinearOrder α] [BoundedOrder α]

/-- Specification: all values of column `j` over all nodes. -/
def columnValues (parts : List (S × List (Fin d → α))) (j : Fin d) : Set α :=
  {x | ∃ p ∈ parts, ∃ r ∈ p.2, r j = x}

theorem foldMin_le (j : Fin d) (rows : List (Fin d → α)) (a : α) :
    let m := rows.foldl (fun smallest r => if smallest > r j then r j else smallest) a
    (m ≤ a) ∧ (∀ r ∈ rows, m ≤ r j) ∧ (m = a ∨ ∃ r ∈ rows, r j = m) := by
  induction rows generalizing a with
  | nil => simp
  | cons r rows ih =>
    simp only [List.foldl_cons]
    obtain ⟨h1, h2, h3⟩ := ih (if a > r j then r j else a)
    have hle : (if a > r j then r j else a) ≤ a ∧ (if a > r j then r j else a) ≤ r j := by
      split
      · rename_i h; exact ⟨le_of_lt h, le_rfl⟩
      · rename_i h; exact ⟨le_rfl, not_lt.1 h⟩
    refine ⟨h1.trans hle.1, ?_, ?_⟩
    · intro x hx
      rcases List.mem_cons.1 hx with rfl | hx
      · exact h1.trans hle.2
      · exact h2 x hx
    · rcases h3 with h3 | ⟨x, hx, h3⟩
      · split at h3
        · rename_i hc; right; exact ⟨r, by simp, by rw [if_pos hc]; exact h3.symm⟩
        · rename_i hc; left; rw [if_neg hc]; exact h3
      · right; exact ⟨x, by simp [hx], h3⟩

theorem foldMax_ge (j : Fin d) (rows : List (Fin d → α)) (a : α) :
    let m := rows.foldl (fun largest r => if largest < r j then r j else largest) a
    (a ≤ m) ∧ (∀ r ∈ rows, r j ≤ m) ∧ (m = a ∨ ∃ r ∈ rows, r j = m) := by
  induction rows generalizing a with
  | nil => simp
  | cons r rows ih =>
    simp only [List.foldl_cons]
    obtain ⟨h1, h2, h3⟩ := ih (if a < r j then r j else a)
    have hle : a ≤ (if a < r j then r j else a) ∧ r j ≤ (if a < r j then r j else a) := by
      split
      · rename_i h; exact ⟨le_of_lt h, le_rfl⟩
      · rename_i h; exact ⟨le_rfl, not_lt.1 h⟩
    refine ⟨hle.1.trans h1, ?_, ?_⟩
    · intro x hx
      rcases List.mem_cons.1 hx with rfl | hx
      · exact hle.2.trans h1
      · exact h2 x hx
    · rcases h3 with h3 | ⟨x, hx, h3⟩
      · split at h3
        · rename_i hc; right; exact ⟨r, by simp, by rw [if_pos hc]; exact h3.symm⟩
        · rename_i hc; left; rw [if_neg hc]; exact h3
      · right; exact ⟨x, by simp [hx], h3⟩

/-- What the merged minimum/maximum is after the messages of `parts`: a bound of all values, attained or neutral. -/
structure MMInv (parts : List (S × List (Fin d → α))) (mn mx : Fin d → α) : Prop where
  mn_le : ∀ j, ∀ x ∈ columnValues parts j, mn j ≤ x
  mn_at : ∀ j, mn j = ⊤ ∨ mn j ∈ columnValues parts j
  mx_ge : ∀ j, ∀ x ∈ columnValues parts j, x ≤ mx j
  mx_at : ∀ j, mx j = ⊥ ∨ mx j ∈ columnValues parts j

theorem mminv_single (p : S × List (Fin d → α)) : MMInv [p] (minAxis p.2) (maxAxis p.2) := by
  refine ⟨?_, ?_, ?_, ?_⟩
  · rintro j x ⟨q, hq, r, hr, rfl⟩
    simp at hq; subst hq
    exact (foldMin_le j q.2 ⊤).2.1 r hr
  · intro j
    rcases (foldMin_le j p.2 ⊤).2.2 with h | ⟨r, hr, h⟩
    · exact Or.inl h
    · exact Or.inr ⟨p, by simp, r, hr, h⟩
  · rintro j x ⟨q, hq, r, hr, rfl⟩
    simp at hq; subst hq
    exact (foldMax_ge j q.2 ⊥).2.1 r hr
  · intro j
    rcases (foldMax_ge j p.2 ⊥).2.2 with h | ⟨r, hr, h⟩
    · exact Or.inl h
    · exact Or.inr ⟨p, by simp, r, hr, h⟩

theorem columnValues_append (ps qs : List (S × List (Fin d → α))) (j : Fin d) :
    columnValues (ps ++ qs) j = columnValues ps j ∪ columnValues qs j := by
  ext x
  simp only [columnValues, List.mem_append, Set.mem_ofPred_eq, Set.mem_union]
  constructor
  · rintro ⟨p, hp | hp, h⟩
    · exact Or.inl ⟨p, hp, h⟩
    · exact Or.inr ⟨p, hp, h⟩
  · rintro (⟨p, hp, h⟩ | ⟨p, hp, h⟩)
    · exact ⟨p, Or.inl hp, h⟩
    · exact ⟨p, Or.inr hp, h⟩

theorem mminv_merge {ps qs : List (S × List (Fin d → α))} {mn mx mn' mx' : Fin d → α}
    (h : MMInv ps mn mx) (h' : MMInv qs mn' mx') :
    MMInv (ps ++ qs) (fun j => min (mn' j) (mn j)) (fun j => max (mx' j) (mx j)) := by
  refine ⟨?_, ?_, ?_, ?_⟩ <;> intro j <;> simp only [columnValues_append]
  · rintro x (hx | hx)
    · exact (min_le_right _ _).trans (h.mn_le j x hx)
    · exact (min_le_left _ _).trans (h'.mn_le j x hx)
  · rcases le_total (mn' j) (mn j) with hle | hle
    · rw [min_eq_left hle]
      rcases h'.mn_at j with h1 | h1
      · exact Or.inl h1
      · exact Or.inr (Or.inr h1)
    · rw [min_eq_right hle]
      rcases h.mn_at j with h1 | h1
      · exact Or.inl h1
      · exact Or.inr (Or.inl h1)
  · rintro x (hx | hx)
    · exact (h.mx_ge j x hx).trans (le_max_right _ _)
    · exact (h'.mx_ge j x hx).trans (le_max_left _ _)
  · rcases le_total (mx' j) (mx j) with hle | hle
    · rw [max_eq_right hle]
      rcases h.mx_at j with h1 | h1
      · exact Or.inl h1
      · exact Or.inr (Or.inl h1)
    · rw [max_eq_left hle]
      rcases h'.mx_at j with h1 | h1
      · exact Or.inl h1
      · exact Or.inr (Or.inr h1)

/-- Run of the main node over the messages of the nodes. -/
def runMinMax (n : Nat) (parts : List (S × List (Fin d → α))) : MinMaxState d α S :=
  (parts.map (fun p => calculateMinmax p.2 p.1)).foldl (handleMinMax n) {}

theorem runMinMax_inv (n : Nat) (parts : List (S × List (Fin d → α))) (hne : parts ≠ [])
    (hle : parts.length ≤ n) :
    ∃ mn mx, MMInv parts mn mx ∧ runMinMax n parts =
      { nodes := parts.map Prod.fst, min := some mn, max := some mx,
        out := if parts.length = n then parts.map (fun p => (p.1, mn, mx)) else [] } := by
  induction parts using List.reverseRecOn with
  | nil => exact absurd rfl hne
  | append_singleton ps p ih =>
    have hrun : runMinMax n (ps ++ [p]) = handleMinMax n (runMinMax n ps) (calculateMinmax p.2 p.1) := by
      simp [runMinMax]
    rw [hrun]
    by_cases hps : ps = []
    · subst hps
      refine ⟨_, _, mminv_single p, ?_⟩
      simp only [runMinMax, List.map_nil, List.foldl_nil, handleMinMax, calculateMinmax, List.nil_append,
        List.map_cons]
      simp [eq_comm]
    · have hlen : ps.length < n := by simp at hle; omega
      obtain ⟨mn, mx, hinv, hst⟩ := ih hps (by omega)
      refine ⟨_, _, mminv_merge hinv (mminv_single p), ?_⟩
      rw [hst]
      have : ¬ ps.length = n := by omega
      simp [handleMinMax, calculateMinmax, this, Function.comp_def]

/-- C08: for every order in which the messages of the nodes arrive at the main node, it answers every node exactly
once, and the answer holds the least and the greatest value of every column over all rows of all nodes. -/
theorem C08_global_minmax (parts es : List (S × List (Fin d → α))) (hperm : es.Perm parts)
    (hdata : ∃ p ∈ parts, p.2 ≠ []) :
    let out := (runMinMax parts.length es).out
    (out.map Prod.fst).Perm (parts.map Prod.fst) ∧
    ∀ o ∈ out, ∀ j : Fin d,
      IsLeast (columnValues parts j) (o.2.1 j) ∧ IsGreatest (columnValues parts j) (o.2.2 j) := by
  have hcv : ∀ j : Fin d, columnValues es j = columnValues parts j := by
    intro j; ext x; simp only [columnValues, Set.mem_ofPred_eq, hperm.mem_iff]
  obtain ⟨p, hp, hpne⟩ := hdata
  have hne : es ≠ [] := by
    intro h; subst h; have := hperm.symm.eq_nil; subst this; simp at hp
  obtain ⟨mn, mx, hinv, hst⟩ := runMinMax_inv parts.length es hne hperm.length_eq.le
  simp only [hst, hperm.length_eq, if_true]
  refine ⟨by simpa [Function.comp_def] using hperm.map Prod.fst, ?_⟩
  intro o ho j
  obtain ⟨q, _, rfl⟩ := List.mem_map.1 ho
  obtain ⟨r, hr⟩ := List.exists_mem_of_ne_nil _ hpne
  have hv : r j ∈ columnValues parts j := ⟨p, hp, r, hr, rfl⟩
  constructor
  · refine ⟨?_, fun x hx => hinv.mn_le j x (by rw [hcv]; exact hx)⟩
    rcases hinv.mn_at j with h | h
    · have := hinv.mn_le j _ (by rw [hcv]; exact hv)
      rw [h, top_le_iff] at this
      simp only [h, ← this]; exact hv
    · rw [hcv] at h; exact h
  · refine ⟨?_, fun x hx => hinv.mx_ge j x (by rw [hcv]; exact hx)⟩
    rcases hinv.mx_at j with h | h
    · have := hinv.mx_ge j _ (by rw [hcv]; exact hv)
      rw [h, le_bot_iff] at this
      simp only [h, ← this]; exact hv
    · rw [hcv] at h; exact h

/-- C08: no answer is sent before all nodes have reported. -/
theorem C08_not_early (n : Nat) (es : List (S × List (Fin d → α))) (h : es.length < n) :
    (runMinMax n es).out = [] := by
  by_cases hne : es = []
  · subst hne; rfl
  · obtain ⟨mn, mx, _, hst⟩ := runMinMax_inv n es hne h.le
    rw [hst]; simp [Nat.ne_of_lt h]

end MinMax

/-! ## Count, mean and standard deviation -/
section Std
variable {K : Type} [Field K] [CharZero K]

/-- Specification: sum of squared deviations from the mean. -/
def sumSq (rows : List (Fin d → K)) (j : Fin d) : K :=
  (rows.map (fun r => (r j - mean rows j) ^ 2)).sum

/-- Message of a node with (already cut) rows. -/
theorem calculateStd_zero (rows : List (Fin d → K)) (source : S) (hne : rows ≠ []) :
    calculateStd 0 rows source = some ⟨rows.length, mean rows, sumSq rows, source⟩ := by
  have hn : (rows.length : K) ≠ 0 := by
    simpa using hne
  simp only [calculateStd, Nat.zero_le, if_true, Nat.sub_zero, List.take_length]
  congr 2
  funext j
  unfold sumSq
  congr 1
  apply List.map_congr_left
  intro r _
  field_simp

/-- A node's message depends only on its rows without the overlap. -/
theorem calculateStd_cut (cutoff : Nat) (rows : List (Fin d → K)) (source : S)
    (h : cutoff ≤ rows.length) :
    calculateStd cutoff rows source = calculateStd 0 (rows.take (rows.length - cutoff)) source := by
  simp only [calculateStd, h, if_true, Nat.zero_le, Nat.sub_zero, List.take_length]

/-- The message of a node with the non-empty own rows `p.2`. -/
def stdMsg (p : S × List (Fin d → K)) : StdMsg d K S := ⟨p.2.length, mean p.2, sumSq p.2, p.1⟩

/-- Run of the main node. -/
def runStd (n : Nat) (parts : List (S × List (Fin d → K))) : StdState d K S :=
  (parts.map stdMsg).foldl (handleStd n) {}

/-- All rows, in arrival order of the nodes. -/
def allRows (parts : List (S × List (Fin d → K))) : List (Fin d → K) := (parts.map Prod.snd).flatten

theorem mean_append (a b : List (Fin d → K)) (ha : a ≠ []) (hb : b ≠ []) (j : Fin d) :
    mean (a ++ b) j =
      (mean a j * (a.length : K) + mean b j * (b.length : K)) / ((a.length + b.length : Nat) : K) := by
  have h1 : (a.length : K) ≠ 0 := by simpa using ha
  have h2 : (b.length : K) ≠ 0 := by simpa using hb
  simp only [mean, List.map_append, List.sum_append, List.length_append]
  rw [div_mul_cancel₀ _ h1, div_mul_cancel₀ _ h2]

/-- the accumulated (n, mean) after the first messages are the count and mean of all their rows -/
theorem runStd_acc (n : Nat) (ps : List (S × List (Fin d → K))) (hne : ps ≠ [])
    (hrows : ∀ p ∈ ps, p.2 ≠ []) (hlt : ps.length < n) :
    ∃ m2, (runStd n ps).acc = some ((allRows ps).length, mean (allRows ps), m2) ∧
      (runStd n ps).nodes = ps.map Prod.fst ∧ (runStd n ps).out = [] := by
  induction ps using List.reverseRecOn with
  | nil => exact absurd rfl hne
  | append_singleton ps p ih =>
    have hrun : runStd n (ps ++ [p]) = handleStd n (runStd n ps) (stdMsg p) := by simp [runStd]
    rw [hrun]
    by_cases hps : ps = []
    · subst hps
      refine ⟨sumSq p.2, ?_, ?_, ?_⟩
      · simp only [runStd, List.map_nil, List.foldl_nil, handleStd, List.nil_append]
        rw [if_pos (by simpa using hlt)]
        simp [stdMsg, allRows]
      · simp only [runStd, List.map_nil, List.foldl_nil, handleStd, List.nil_append]
        rw [if_pos (by simpa using hlt)]; rfl
      · simp only [runStd, List.map_nil, List.foldl_nil, handleStd, List.nil_append]
        rw [if_pos (by simpa using hlt)]
    · have hlen : ps.length < n := by simp at hlt; omega
      obtain ⟨m2, hacc, hnodes, hout⟩ := ih hps (fun x hx => hrows x (by simp [hx])) hlen
      have hcond : ((runStd n ps).nodes ++ [(stdMsg p).source]).length < n := by
        rw [hnodes]; simpa using hlt
      have hall : allRows (ps ++ [p]) = allRows ps ++ p.2 := by simp [allRows]
      have hne1 : allRows ps ≠ [] := by
        obtain ⟨q, hq⟩ := List.exists_mem_of_ne_nil _ hps
        intro h
        have := List.flatten_eq_nil_iff.1 h q.2 (List.mem_map.2 ⟨q, hq, rfl⟩)
        exact hrows q (by simp [hq]) this
      have hp2 : p.2 ≠ [] := hrows p (by simp)
      refine ⟨(mergeStd ((allRows ps).length, mean (allRows ps), m2) (stdMsg p)).2.2, ?_, ?_, ?_⟩
      · simp only [handleStd]
        rw [if_pos hcond]
        simp only [hacc, mergeStd]
        rw [hall]
        have : mean (allRows ps ++ p.2) = fun j =>
          (mean (allRows ps) j * ((allRows ps).length : K) + (stdMsg p).mean j * ((stdMsg p).n : K)) /
            (((allRows ps).length + (stdMsg p).n : Nat) : K) := by
          funext j; exact mean_append _ _ hne1 hp2 j
        rw [this, List.length_append]
        rfl
      · simp only [handleStd]; rw [if_pos hcond]; simp [hnodes, stdMsg]
      · simp only [handleStd]; rw [if_pos hcond]; simp [hout]

theorem allRows_length_perm {ps qs : List (S × List (Fin d → K))} (h : ps.Perm qs) :
    (allRows ps).length = (allRows qs).length := (h.map _).flatten.length_eq

theorem mean_perm {a b : List (Fin d → K)} (h : a.Perm b) : mean a = mean b := by
  funext j; simp [mean, (h.map (fun r : Fin d → K => r j)).sum_eq, h.length_eq]

/-- C09a: for every arrival order, every node is answered exactly once and told the total number of rows. -/
theorem C09_count (parts es : List (S × List (Fin d → K))) (hperm : es.Perm parts)
    (hne : parts ≠ []) (hrows : ∀ p ∈ parts, p.2 ≠ []) :
    ((runStd parts.length es).out.map Prod.fst).Perm (parts.map Prod.fst) ∧
    ∀ o ∈ (runStd parts.length es).out, o.2.2 = (allRows parts).length := by
  have hees : es ≠ [] := by rintro rfl; exact hne hperm.symm.eq_nil
  have hl := hperm.length_eq
  rw [← allRows_length_perm hperm]
  have hsplit := List.dropLast_append_getLast hees
  set ps := es.dropLast
  set p := es.getLast hees
  rw [← hsplit]
  have hrun : runStd parts.length (ps ++ [p]) = handleStd parts.length (runStd parts.length ps) (stdMsg p) := by
    simp [runStd]
  have hlps : ps.length + 1 = parts.length := by
    rw [← hl, ← hsplit]; simp
  have hperm' : (ps ++ [p]).Perm parts := by rw [hsplit]; exact hperm
  rw [hrun]
  by_cases hps : ps = []
  · rw [hps] at hlps ⊢
    simp only [runStd, List.map_nil, List.foldl_nil, handleStd, List.nil_append]
    rw [if_neg (by simp at *; omega)]
    rw [hps] at hperm'
    refine ⟨by simpa [stdMsg, Function.comp_def] using hperm'.map Prod.fst, ?_⟩
    intro o ho
    simp only [List.map_cons, List.map_nil, List.mem_singleton] at ho
    subst ho
    simp [allRows, stdMsg]
  · obtain ⟨m2, hacc, hnodes, hout⟩ := runStd_acc parts.length ps hps
      (fun x hx => hrows x (hperm'.mem_iff.1 (by simp [hx]))) (by omega)
    simp only [handleStd]
    rw [if_neg (by rw [hnodes]; simp; omega)]
    simp only [hacc, mergeStd, hnodes, hout, List.nil_append]
    refine ⟨by simpa [stdMsg, Function.comp_def] using hperm'.map Prod.fst, ?_⟩
    intro o ho
    obtain ⟨a, _, rfl⟩ := List.mem_map.1 ho
    simp [allRows, stdMsg]

/-- C09b: the merged mean after any proper subset of the nodes (in any order) is the mean of all their rows. -/
theorem C09_mean (n : Nat) (ps qs : List (S × List (Fin d → K))) (hperm : ps.Perm qs) (hne : ps ≠ [])
    (hrows : ∀ p ∈ ps, p.2 ≠ []) (hlt : ps.length < n) :
    ∃ m2, (runStd n ps).acc = some ((allRows qs).length, mean (allRows qs), m2) := by
  obtain ⟨m2, h, _⟩ := runStd_acc n ps hne hrows hlt
  refine ⟨m2, ?_⟩
  rw [h, allRows_length_perm hperm,
    show mean (allRows ps) = mean (allRows qs) from mean_perm ((hperm.map Prod.snd).flatten)]

/-- C09: the message a node sends describes exactly its rows without the overlap. -/
theorem C09_message (cutoff : Nat) (rows : List (Fin d → K)) (source : S) (h : cutoff < rows.length) :
    calculateStd cutoff rows source = some (stdMsg (source, rows.take (rows.length - cutoff))) := by
  rw [calculateStd_cut cutoff rows source h.le, calculateStd_zero]
  · rfl
  · intro h0
    have : (rows.take (rows.length - cutoff)).length = 0 := by rw [h0]; rfl
    rw [List.length_take] at this
    omega

theorem mean_append_same {a b : List (Fin d → K)} {j : Fin d} {mu : K} (ha : a ≠ []) (hb : b ≠ [])
    (h1 : mean a j = mu) (h2 : mean b j = mu) : mean (a ++ b) j = mu := by
  have h3 : ((a.length + b.length : Nat) : K) ≠ 0 := by
    have := List.length_pos_iff.2 ha
    exact_mod_cast (by omega : a.length + b.length ≠ 0)
  rw [mean_append a b ha hb, h1, h2, div_eq_iff h3]
  push_cast; ring

theorem sumSq_append_same {a b : List (Fin d → K)} {j : Fin d} {mu : K} (ha : a ≠ []) (hb : b ≠ [])
    (h1 : mean a j = mu) (h2 : mean b j = mu) : sumSq (a ++ b) j = sumSq a j + sumSq b j := by
  simp [sumSq, mean_append_same ha hb h1 h2, h1, h2]

/-- If all node means agree, the merge is exact. -/
theorem mergeFold_same (mu : K) (j : Fin d) : ∀ (qs : List (S × List (Fin d → K))) (rows : List (Fin d → K)),
    rows ≠ [] → mean rows j = mu → (∀ p ∈ qs, p.2 ≠ [] ∧ mean p.2 j = mu) →
    ∀ acc : Nat × (Fin d → K) × (Fin d → K), acc.1 = rows.length → acc.2.1 j = mu → acc.2.2 j = sumSq rows j →
    let r := (qs.map stdMsg).foldl mergeStd acc
    r.1 = (rows ++ allRows qs).length ∧ r.2.1 j = mu ∧ r.2.2 j = sumSq (rows ++ allRows qs) j := by
  intro qs
  induction qs with
  | nil => intro rows _ hm _ acc h1 h2 h3; simp [allRows, h1, h2, h3]
  | cons q qs ih =>
    intro rows hne hm hq acc h1 h2 h3
    obtain ⟨hq1, hq2⟩ := hq q (by simp)
    have hall : rows ++ allRows (q :: qs) = (rows ++ q.2) ++ allRows qs := by simp [allRows]
    rw [hall]
    simp only [List.map_cons, List.foldl_cons]
    have hN : ((rows.length + q.2.length : Nat) : K) ≠ 0 := by
      have := List.length_pos_iff.2 hne
      exact_mod_cast (by omega : rows.length + q.2.length ≠ 0)
    obtain ⟨n, m, v⟩ := acc
    simp only at h1 h2 h3
    subst h1
    refine ih (rows ++ q.2) (by simp [hne]) (mean_append_same hne hq1 hm hq2)
      (fun p hp => hq p (by simp [hp])) _ (by simp [mergeStd, stdMsg]) ?_ ?_
    · simp only [mergeStd, stdMsg, h2, hq2]
      rw [div_eq_iff hN]; push_cast; ring
    · simp only [mergeStd, stdMsg, h2, hq2, h3]
      rw [sumSq_append_same hne hq1 hm hq2]; ring

theorem runStd_fold (n : Nat) : ∀ (ps : List (S × List (Fin d → K))) (p : S × List (Fin d → K)),
    ps.length + 1 < n →
    (runStd n (p :: ps)).acc = some ((ps.map stdMsg).foldl mergeStd (p.2.length, mean p.2, sumSq p.2)) ∧
    (runStd n (p :: ps)).nodes.length = ps.length + 1 ∧ (runStd n (p :: ps)).out = [] := by
  intro ps
  induction ps using List.reverseRecOn with
  | nil =>
    intro p h
    have h : 1 < n := by simpa using h
    simp [runStd, handleStd, stdMsg, h]
  | append_singleton ps q ih =>
    intro p h
    simp only [List.length_append, List.length_singleton] at h
    obtain ⟨h1, h2, h3⟩ := ih p (by omega)
    have hrun : runStd n (p :: (ps ++ [q])) = handleStd n (runStd n (p :: ps)) (stdMsg q) := by
      simp [runStd]
    rw [hrun]
    simp only [handleStd]
    rw [if_pos (by simp [h2]; omega)]
    refine ⟨?_, by simp [h2], h3⟩
    simp [h1]

/-- C09c: if the column means of all nodes agree (in particular, with a single node), the reported variance is the
sample variance of all rows, for every arrival order. -/
theorem C09_variance_same_means (parts es : List (S × List (Fin d → K))) (hperm : es.Perm parts)
    (hne : parts ≠ []) (j : Fin d) (mu : K) (hrows : ∀ p ∈ parts, p.2 ≠ [] ∧ mean p.2 j = mu) :
    ∀ o ∈ (runStd parts.length es).out,
      o.2.1 j = sumSq (allRows parts) j / (((allRows parts).length - 1 : Nat) : K) := by
  have hsq : sumSq (allRows es) j = sumSq (allRows parts) j := by
    have hp : (allRows es).Perm (allRows parts) := (hperm.map Prod.snd).flatten
    unfold sumSq
    rw [mean_perm hp]
    exact (hp.map _).sum_eq
  rw [← hsq, ← allRows_length_perm hperm, ← hperm.length_eq]
  have hrows' : ∀ p ∈ es, p.2 ≠ [] ∧ mean p.2 j = mu := fun p hp => hrows p (hperm.mem_iff.1 hp)
  have hees : es ≠ [] := by rintro rfl; exact hne hperm.symm.eq_nil
  clear hperm hne hrows hsq
  obtain ⟨p, ps, rfl⟩ := List.exists_cons_of_ne_nil hees
  obtain ⟨hp1, hp2⟩ := hrows' p (by simp)
  have hfold := mergeFold_same mu j ps p.2 hp1 hp2 (fun q hq => hrows' q (by simp [hq]))
    (p.2.length, mean p.2, sumSq p.2) rfl hp2 rfl
  have hall : p.2 ++ allRows ps = allRows (p :: ps) := by simp [allRows]
  rw [hall] at hfold
  rcases List.eq_nil_or_concat ps with rfl | ⟨ps', q, rfl⟩
  · intro o ho
    simp [runStd, handleStd, stdMsg] at ho
    subst ho
    simp [allRows]
  · rw [List.concat_eq_append] at *
    have hrun : runStd (p :: (ps' ++ [q])).length (p :: (ps' ++ [q])) =
      handleStd (p :: (ps' ++ [q])).length (runStd (p :: (ps' ++ [q])).length (p :: ps')) (stdMsg q) := by
      simp [runStd]
    obtain ⟨h1, h2, h3⟩ := runStd_fold (p :: (ps' ++ [q])).length ps' p (by simp)
    intro o ho
    rw [hrun] at ho
    simp only [handleStd] at ho
    rw [if_neg (by rw [List.length_append, h2]; simp)] at ho
    simp only [h1, h3, List.nil_append] at ho
    obtain ⟨a, _, rfl⟩ := List.mem_map.1 ho
    simp only [List.map_append, List.map_cons, List.map_nil, List.foldl_append, List.foldl_cons,
      List.foldl_nil] at hfold
    simp only [hfold.1, hfold.2.2]

/-- Specification: the error of the merged sum of squares. For every message after the first one, the squared difference between
the mean of the node and the mean of the rows before it, times the weight of the code (one) minus the weight of the parallel
formula of Chan et al. (`rows` are the rows before the message). -/
def mergeError (rows : List (Fin d → K)) (j : Fin d) : List (S × List (Fin d → K)) → K
  | [] => 0
  | q :: qs => (mean q.2 j - mean rows j) ^ 2 *
      (1 - (rows.length : K) * (q.2.length : K) / ((rows.length : K) + (q.2.length : K))) + mergeError (rows ++ q.2) j qs

theorem sumSq_eq (rows : List (Fin d → K)) (j : Fin d) :
    sumSq rows j = (rows.map (fun r => r j ^ 2)).sum - (rows.length : K) * mean rows j ^ 2 := by
  by_cases hne : rows = []
  · subst hne; simp [sumSq]
  have hn : (rows.length : K) ≠ 0 := by simpa using hne
  have hgen : ∀ (l : List (Fin d → K)) (c : K), (l.map (fun r => (r j - c) ^ 2)).sum =
      (l.map (fun r => r j ^ 2)).sum - 2 * c * (l.map (fun r => r j)).sum + (l.length : K) * c ^ 2 := by
    intro l c
    induction l with
    | nil => simp
    | cons a l ih => simp only [List.map_cons, List.sum_cons, ih, List.length_cons]; push_cast; ring
  have hs : (rows.map (fun r => r j)).sum = (rows.length : K) * mean rows j := by
    simp only [mean]; rw [mul_div_cancel₀ _ hn]
  rw [sumSq, hgen, hs]; ring

/-- The parallel formula of Chan et al. -/
theorem sumSq_append {a b : List (Fin d → K)} (ha : a ≠ []) (hb : b ≠ []) (j : Fin d) :
    sumSq (a ++ b) j = sumSq a j + sumSq b j +
      (mean b j - mean a j) ^ 2 * ((a.length : K) * (b.length : K) / ((a.length : K) + (b.length : K))) := by
  have h3 : (a.length : K) + (b.length : K) ≠ 0 := by
    have := List.length_pos_iff.2 ha
    exact_mod_cast (by omega : a.length + b.length ≠ 0)
  rw [sumSq_eq, sumSq_eq, sumSq_eq, mean_append a b ha hb]
  simp only [List.map_append, List.sum_append, List.length_append]
  push_cast
  field_simp
  ring

theorem mergeFold_exact (j : Fin d) : ∀ (qs : List (S × List (Fin d → K))) (rows : List (Fin d → K)) (e : K),
    rows ≠ [] → (∀ p ∈ qs, p.2 ≠ []) →
    ∀ acc : Nat × (Fin d → K) × (Fin d → K), acc.1 = rows.length → acc.2.1 j = mean rows j → acc.2.2 j = sumSq rows j + e →
    let r := (qs.map stdMsg).foldl mergeStd acc
    r.1 = (rows ++ allRows qs).length ∧ r.2.1 j = mean (rows ++ allRows qs) j ∧
      r.2.2 j = sumSq (rows ++ allRows qs) j + (e + mergeError rows j qs) := by
  intro qs
  induction qs with
  | nil => intro rows e _ _ acc h1 h2 h3; simp [allRows, h1, h2, h3, mergeError]
  | cons q qs ih =>
    intro rows e hne hq acc h1 h2 h3
    have hq1 := hq q (by simp)
    have hall : rows ++ allRows (q :: qs) = (rows ++ q.2) ++ allRows qs := by simp [allRows]
    rw [hall]
    simp only [List.map_cons, List.foldl_cons]
    have hN : ((rows.length + q.2.length : Nat) : K) ≠ 0 := by
      have := List.length_pos_iff.2 hne
      exact_mod_cast (by omega : rows.length + q.2.length ≠ 0)
    obtain ⟨n, m, v⟩ := acc
    simp only at h1 h2 h3
    subst h1
    have := ih (rows ++ q.2) (e + (mean q.2 j - mean rows j) ^ 2 *
        (1 - (rows.length : K) * (q.2.length : K) / ((rows.length : K) + (q.2.length : K)))) (by simp [hne])
      (fun p hp => hq p (by simp [hp])) (mergeStd (rows.length, m, v) (stdMsg q)) (by simp [mergeStd, stdMsg]) ?_ ?_
    · refine ⟨this.1, this.2.1, ?_⟩
      rw [this.2.2, mergeError]; ring
    · simp only [mergeStd, stdMsg, h2]
      rw [mean_append _ _ hne hq1]
    · simp only [mergeStd, stdMsg, h2, h3]
      rw [sumSq_append hne hq1, div_self hN]; ring

/-- C09: for every arrival order, the exact reported variance: the sample variance of all rows, plus the error of the weights
(`mergeError`). -/
theorem C09_variance_exact (p : S × List (Fin d → K)) (ps : List (S × List (Fin d → K)))
    (hrows : ∀ q ∈ p :: ps, q.2 ≠ []) (j : Fin d) :
    ∀ o ∈ (runStd (p :: ps).length (p :: ps)).out,
      o.2.1 j = (sumSq (allRows (p :: ps)) j + mergeError p.2 j ps) / (((allRows (p :: ps)).length - 1 : Nat) : K) := by
  have hfold := mergeFold_exact j ps p.2 0 (hrows p (by simp)) (fun q hq => hrows q (by simp [hq]))
    (p.2.length, mean p.2, sumSq p.2) rfl rfl (by simp)
  have hall : p.2 ++ allRows ps = allRows (p :: ps) := by simp [allRows]
  rw [hall, zero_add] at hfold
  rcases List.eq_nil_or_concat ps with rfl | ⟨ps', q, rfl⟩
  · intro o ho
    simp [runStd, handleStd, stdMsg] at ho
    subst ho
    simp [allRows, mergeError]
  · rw [List.concat_eq_append] at *
    have hrun : runStd (p :: (ps' ++ [q])).length (p :: (ps' ++ [q])) =
      handleStd (p :: (ps' ++ [q])).length (runStd (p :: (ps' ++ [q])).length (p :: ps')) (stdMsg q) := by
      simp [runStd]
    obtain ⟨h1, h2, h3⟩ := runStd_fold (p :: (ps' ++ [q])).length ps' p (by simp)
    intro o ho
    rw [hrun] at ho
    simp only [handleStd] at ho
    rw [if_neg (by rw [List.length_append, h2]; simp)] at ho
    simp only [h1, h3, List.nil_append] at ho
    obtain ⟨a, _, rfl⟩ := List.mem_map.1 ho
    simp only [List.map_append, List.map_cons, List.map_nil, List.foldl_append, List.foldl_cons,
      List.foldl_nil] at hfold
    simp only [hfold.1, hfold.2.2]

section Ordered
variable {F : Type} [Field F] [LinearOrder F] [IsStrictOrderedRing F]

/-- With at least three rows on every node the weight of the code is smaller than the right one. -/
theorem mergeError_sign (j : Fin d) : ∀ (qs : List (S × List (Fin d → F))) (rows : List (Fin d → F)),
    3 ≤ rows.length → (∀ q ∈ qs, 3 ≤ q.2.length) → mergeError rows j qs ≤ 0 ∧
      (mergeError rows j qs = 0 ↔ ∀ q ∈ qs, mean q.2 j = mean rows j) := by
  intro qs
  induction qs with
  | nil => intro rows _ _; simp [mergeError]
  | cons q qs ih =>
    intro rows hr hq
    have hq3 := hq q (by simp)
    obtain ⟨h1, h2⟩ := ih (rows ++ q.2) (by simp; omega) (fun p hp => hq p (by simp [hp]))
    have hA : (3 : F) ≤ rows.length := by exact_mod_cast hr
    have hB : (3 : F) ≤ q.2.length := by exact_mod_cast hq3
    have hw : 1 - (rows.length : F) * (q.2.length : F) / ((rows.length : F) + (q.2.length : F)) < 0 := by
      rw [sub_neg, lt_div_iff₀ (by linarith), one_mul]
      nlinarith
    have ht : (mean q.2 j - mean rows j) ^ 2 *
        (1 - (rows.length : F) * (q.2.length : F) / ((rows.length : F) + (q.2.length : F))) ≤ 0 :=
      mul_nonpos_of_nonneg_of_nonpos (sq_nonneg _) hw.le
    refine ⟨by rw [mergeError]; linarith, ?_⟩
    have hrne : rows ≠ [] := by rintro rfl; simp at hr
    have hqne : q.2 ≠ [] := by intro h; rw [h] at hq3; simp at hq3
    constructor
    · intro h0
      rw [mergeError] at h0
      have ht0 : (mean q.2 j - mean rows j) ^ 2 *
          (1 - (rows.length : F) * (q.2.length : F) / ((rows.length : F) + (q.2.length : F))) = 0 := by linarith
      have hz : mean q.2 j = mean rows j := by
        rcases mul_eq_zero.1 ht0 with h | h
        · exact sub_eq_zero.1 (pow_eq_zero_iff (by norm_num) |>.1 h)
        · exact absurd h hw.ne
      have hrest := h2.1 (by linarith)
      have happ : mean (rows ++ q.2) j = mean rows j := mean_append_same hrne hqne rfl hz
      intro x hx
      rcases List.mem_cons.1 hx with rfl | hx
      · exact hz
      · rw [hrest x hx, happ]
    · intro hall
      have hz := hall q (by simp)
      have happ : mean (rows ++ q.2) j = mean rows j := mean_append_same hrne hqne rfl hz
      have hrest := h2.2 (fun x hx => by rw [hall x (by simp [hx]), happ])
      rw [mergeError, hrest, hz]; ring

/-- C09: with at least three rows on every node, for every arrival order, the reported variance of a column is never too large, and
it is right exactly if the column has the same mean on all nodes. -/
theorem C09_variance_iff (parts es : List (S × List (Fin d → F))) (hperm : es.Perm parts) (hne : parts ≠ []) (j : Fin d)
    (hrows : ∀ p ∈ parts, 3 ≤ p.2.length) :
    ∀ o ∈ (runStd parts.length es).out,
      o.2.1 j ≤ sumSq (allRows parts) j / (((allRows parts).length - 1 : Nat) : F) ∧
      (o.2.1 j = sumSq (allRows parts) j / (((allRows parts).length - 1 : Nat) : F) ↔
        ∀ p ∈ parts, ∀ q ∈ parts, mean p.2 j = mean q.2 j) := by
  have hsq : sumSq (allRows es) j = sumSq (allRows parts) j := by
    have hp : (allRows es).Perm (allRows parts) := (hperm.map Prod.snd).flatten
    unfold sumSq
    rw [mean_perm hp]
    exact (hp.map _).sum_eq
  have hmeans : (∀ p ∈ parts, ∀ q ∈ parts, mean p.2 j = mean q.2 j) ↔ ∀ p ∈ es, ∀ q ∈ es, mean p.2 j = mean q.2 j := by
    simp only [hperm.mem_iff]
  rw [hmeans, ← hsq, ← allRows_length_perm hperm, ← hperm.length_eq]
  have hrows' : ∀ p ∈ es, 3 ≤ p.2.length := fun p hp => hrows p (hperm.mem_iff.1 hp)
  have hees : es ≠ [] := by rintro rfl; exact hne hperm.symm.eq_nil
  clear hperm hne hrows hsq hmeans
  obtain ⟨p, ps, rfl⟩ := List.exists_cons_of_ne_nil hees
  intro o ho
  have hp3 := hrows' p (by simp)
  rw [C09_variance_exact p ps (fun q hq h => by have := hrows' q hq; rw [h] at this; simp at this) j o ho]
  obtain ⟨hs1, hs2⟩ := mergeError_sign j ps p.2 hp3 (fun q hq => hrows' q (by simp [hq]))
  have hpos : (0 : F) < (((allRows (p :: ps)).length - 1 : Nat) : F) := by
    have : 3 ≤ (allRows (p :: ps)).length := by simp [allRows]; omega
    exact_mod_cast (by omega : 0 < (allRows (p :: ps)).length - 1)
  refine ⟨by rw [div_le_div_iff_of_pos_right hpos]; linarith, ?_⟩
  rw [div_left_inj' hpos.ne']
  constructor
  · intro h
    have h0 := hs2.1 (by linarith)
    have hall : ∀ x ∈ p :: ps, mean x.2 j = mean p.2 j := by
      intro x hx
      rcases List.mem_cons.1 hx with rfl | hx
      · rfl
      · exact h0 x hx
    intro x hx y hy
    rw [hall x hx, hall y hy]
  · intro h
    rw [hs2.2 (fun q hq => h q (by simp [hq]) p (by simp)), add_zero]

end Ordered

example : ((runStd 2 [(0, [fun _ => 0, fun _ => 0, fun _ => 0]), (1, [fun _ => 2, fun _ => 2, fun _ => 2])] :
    StdState 1 ℚ Nat).out).map (fun o => o.2.1 0) = [4 / 5, 4 / 5] := by
  simp [runStd, handleStd, stdMsg, mergeStd, sumSq, mean]
  norm_num

/-- C09d: the merged standard deviation is wrong in general: rows 0 on one node and 2, 2 on the other give the
variance 2 instead of 4/3. -/
theorem C09_variance_counterexample :
    let parts : List (Nat × List (Fin 1 → ℚ)) := [(0, [fun _ => 0]), (1, [fun _ => 2, fun _ => 2])]
    (∀ o ∈ (runStd 2 parts).out, o.2.1 0 = 2) ∧
    sumSq (allRows parts) 0 / (((allRows parts).length - 1 : Nat) : ℚ) = 4 / 3 := by
  refine ⟨?_, ?_⟩
  · simp [runStd, handleStd, stdMsg, mergeStd, sumSq, mean]
  · simp [allRows, sumSq, mean]
    norm_num

/-- C09e: with three nodes the reported variance depends on the arrival order of the messages. -/
theorem C09_arrival_order_counterexample :
    let a : Nat × List (Fin 1 → ℚ) := (0, [fun _ => 0])
    let b : Nat × List (Fin 1 → ℚ) := (1, [fun _ => 0])
    let c : Nat × List (Fin 1 → ℚ) := (2, [fun _ => 4])
    (∀ o ∈ (runStd 3 [a, b, c]).out, o.2.1 0 = 8) ∧ (∀ o ∈ (runStd 3 [a, c, b]).out, o.2.1 0 = 10) := by
  refine ⟨?_, ?_⟩
  · simp [runStd, handleStd, stdMsg, mergeStd, sumSq, mean]
    norm_num
  · simp [runStd, handleStd, stdMsg, mergeStd, sumSq, mean]
    norm_num

/-- C09f: removing the overlap from the windows handed out by the CSV reader (C05) leaves every row of the file
exactly once, so the total count is the number of rows of the file. -/
theorem C09_rows_of_windows {rows : List (Fin d → K)} {k L : Nat} (hk : 1 < k) (_hL1 : 1 ≤ L)
    (hLp : L ≤ rows.length / k) (hr : rows.length % k ≤ L - 1) :
    ((List.range k).map (fun i =>
      let w := DataReader.window rows k L i
      w.take (w.length - (if i = k - 1 then 0 else L - 1)))).flatten = rows := by
  have hN : rows.length / k * k ≤ rows.length := Nat.div_mul_le_self _ _
  set p := rows.length / k with hp
  have hcomm : p * k = k * p := Nat.mul_comm _ _
  have hpre : ∀ m, m < k → ((List.range m).map (fun i =>
      let w := DataReader.window rows k L i
      w.take (w.length - (if i = k - 1 then 0 else L - 1)))).flatten = rows.take (m * p) := by
    intro m
    induction m with
    | zero => simp
    | succ m ih =>
      intro hm
      rw [List.range_succ, List.map_append, List.flatten_append, ih (by omega)]
      have h3 : (m + 2) * p ≤ k * p := Nat.mul_le_mul_right p (by omega)
      have h4 : (m + 2) * p = (m + 1) * p + p := by ring
      have h5 : (m + 1) * p = m * p + p := by ring
      simp only [List.map_cons, List.map_nil, List.flatten_cons, List.flatten_nil, List.append_nil,
        DataReader.window, ← hp]
      rw [Nat.min_eq_left (by omega), if_neg (by omega), DataReader.fromTo_length _ (by omega)]
      simp only [DataReader.rowsFromTo]
      rw [List.drop_take, List.take_take, Nat.min_eq_left (by omega)]
      conv_rhs => rw [h5, List.take_add]
      congr 2
      omega
  have hlast := hpre (k - 1) (by omega)
  conv_lhs => rw [show k = (k - 1) + 1 by omega, List.range_succ, List.map_append, List.flatten_append]
  rw [show k - 1 + 1 = k by omega, hlast]
  have h6 : (k - 1) * p + p = k * p := by
    have : (k - 1 + 1) * p = (k - 1) * p + p := by ring
    rw [← this, Nat.sub_add_cancel (by omega)]
  simp only [List.map_cons, List.map_nil, List.flatten_cons, List.flatten_nil, List.append_nil,
    DataReader.window, ← hp, if_true, Nat.sub_zero, List.take_length, DataReader.rowsFromTo]
  have h7 : (k - 1 + 1) * p = k * p := by rw [Nat.sub_add_cancel (by omega)]
  rw [h7]
  have hdm := Nat.div_add_mod rows.length k
  rw [← hp] at hdm
  rw [Nat.min_eq_right (by omega), List.take_length, List.take_append_drop]

end Std

/-! ## Completion -/

/-- C10: whichever of the two statistics completes first, preprocessing starts exactly once, with the second one. -/
theorem C10_exactly_once {V : Type} (mn mx sd : V) (n : Nat) (es : List (DoneMsg V))
    (hperm : es.Perm [.minMax mn mx, .std sd n]) :
    (es.foldl handleDone {}).preprocessStarted = 1 ∧
    (∀ es', es' <+: es → es'.length < es.length → (es'.foldl handleDone {}).preprocessStarted = 0) ∧
    (es.foldl handleDone {}).min = some mn ∧ (es.foldl handleDone {}).max = some mx ∧
    (es.foldl handleDone {}).std = some sd ∧ (es.foldl handleDone {}).n = some n := by
  have key : ∀ e1 e2 : DoneMsg V, ∀ es' : List (DoneMsg V), es' <+: [e1, e2] → es'.length < 2 →
      es' = [] ∨ es' = [e1] := by
    intro e1 e2 es' h hl
    have := List.prefix_iff_eq_take.1 h
    match es', hl with
    | [], _ => exact Or.inl rfl
    | [x], _ => right; simpa using this
  rcases perm_pair hperm with rfl | rfl
  · refine ⟨rfl, ?_, rfl, rfl, rfl, rfl⟩
    intro es' h hl
    rcases key _ _ es' h hl with rfl | rfl <;> rfl
  · refine ⟨rfl, ?_, rfl, rfl, rfl, rfl⟩
    intro es' h hl
    rcases key _ _ es' h hl with rfl | rfl <;> rfl

/-! Concrete instances. -/
example : ∃ p ∈ [((0 : Nat), [(fun _ => true : Fin 1 → Bool)])], p.2 ≠ [] := by simp
example : (runMinMax 2 [((1 : Nat), [(fun _ => 3 : Fin 1 → Fin 9), fun _ => 5]), (0, [fun _ => 7])]).out.map
    (fun o => (o.1, o.2.1 0, o.2.2 0)) = [(1, 3, 7), (0, 3, 7)] := by decide
example : [DoneMsg.std 5 3, DoneMsg.minMax 1 9].Perm [DoneMsg.minMax 1 9, DoneMsg.std 5 3] := List.Perm.swap _ _ _

end Stats
end S2G
