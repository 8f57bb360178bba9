import Verif.Model.Kde
import Verif.Util
import Mathlib.Data.List.Basic
import Mathlib.Tactic.Linarith

/-!
# C34: labels, C35: peaks, C36: closest peak
-/

namespace S2G
namespace Kde

/-! ## C35 -/

section peaks
variable {α : Type} [LinearOrder α]

/-- Specification: index `i` is a strict local maximum of order `order`, where positions outside of the list are
replaced by the nearest end. -/
def IsPeak (order : Nat) (est : List α) (i : Nat) : Prop :=
  ∃ v, est[i]? = some v ∧ ∀ s, 1 ≤ s → s ≤ order →
    (∀ a, est[min (i + s) (est.length - 1)]? = some a → a < v) ∧ (∀ b, est[i - s]? = some b → b < v)

/-- Comparison of one shift. -/
def Beats (est : List α) (s i : Nat) : Prop :=
  ∃ v a b, est[i]? = some v ∧ est[min (i + s) (est.length - 1)]? = some a ∧ est[i - s]? = some b ∧ a < v ∧ b < v

theorem shiftPeaks_spec {est : List α} {s : Nat} (hs : s ≤ est.length) (hne : est ≠ []) :
    ∃ r, shiftPeaks est s = some r ∧ r.length = est.length ∧ ∀ i, r[i]? = some true ↔ Beats est s i := by
  have hlen : 0 < est.length := List.length_pos_iff.2 hne
  have h1 : est[est.length - 1]? = some est[est.length - 1] := List.getElem?_eq_getElem (by omega)
  have h0 : est[0]? = some est[0] := List.getElem?_eq_getElem hlen
  unfold shiftPeaks
  rw [h1, h0]
  simp only [Option.bind_eq_bind, Option.bind_some, checkedSub, if_pos hs]
  refine ⟨_, rfl, ?_, ?_⟩
  · simp only [List.length_map, List.length_zip, List.length_append, List.length_drop, List.length_replicate,
      List.length_take]
    omega
  · intro i
    have hplus : i < est.length → (est.drop s ++ List.replicate s est[est.length - 1])[i]?
        = est[min (i + s) (est.length - 1)]? := by
      intro hi
      rw [List.getElem?_append]
      split
      · rename_i h
        rw [List.length_drop] at h
        rw [List.getElem?_drop, show min (i + s) (est.length - 1) = s + i by omega]
      · rename_i h
        rw [List.length_drop] at h
        rw [List.getElem?_replicate, List.length_drop, if_pos (by omega),
          show min (i + s) (est.length - 1) = est.length - 1 by omega, h1]
    have hminus : i < est.length → (List.replicate s est[0] ++ est.take (est.length - s))[i]? = est[i - s]? := by
      intro hi
      rw [List.getElem?_append]
      split
      · rename_i h
        rw [List.length_replicate] at h
        rw [List.getElem?_replicate, if_pos h, show i - s = 0 by omega, h0]
      · rename_i h
        rw [List.length_replicate] at h
        rw [List.length_replicate, List.getElem?_take, if_pos (by omega)]
    by_cases hi : i < est.length
    · have e0 : est[i]? = some est[i] := List.getElem?_eq_getElem hi
      have ea : est[min (i + s) (est.length - 1)]? = some (est[min (i + s) (est.length - 1)]'(by omega)) :=
        List.getElem?_eq_getElem (by omega)
      have eb : est[i - s]? = some (est[i - s]'(by omega)) := List.getElem?_eq_getElem (by omega)
      have hz : ((est.zip (est.drop s ++ List.replicate s est[est.length - 1])).zip
          (List.replicate s est[0] ++ est.take (est.length - s)))[i]?
          = some ((est[i], est[min (i + s) (est.length - 1)]'(by omega)), est[i - s]'(by omega)) := by
        rw [List.getElem?_zip_eq_some]
        refine ⟨?_, (hminus hi).trans eb⟩
        rw [List.getElem?_zip_eq_some]
        exact ⟨e0, (hplus hi).trans ea⟩
      rw [List.getElem?_map, hz]
      simp only [Option.map_some, Option.some.injEq, Bool.and_eq_true, decide_eq_true_eq]
      constructor
      · rintro ⟨ha, hb⟩
        exact ⟨_, _, _, e0, ea, eb, ha, hb⟩
      · rintro ⟨v, a, b, hv, ha, hb, h⟩
        rw [e0] at hv; rw [ea] at ha; rw [eb] at hb
        cases hv; cases ha; cases hb
        exact h
    · constructor
      · intro h
        have := (List.getElem?_eq_some_iff.1 h).1
        simp only [List.length_map, List.length_zip] at this
        omega
      · rintro ⟨v, a, b, hv, _⟩
        rw [List.getElem?_eq_none (by omega)] at hv
        cases hv

theorem peakLoop_spec {est : List α} (hne : est ≠ []) (shifts : List Nat) (hs : ∀ s ∈ shifts, s ≤ est.length)
    (results : List Bool) (hr : results.length = est.length) :
    ∃ r, peakLoop est shifts results = some r ∧ r.length = est.length ∧
      ∀ i, r[i]? = some true ↔ (results[i]? = some true ∧ ∀ s ∈ shifts, Beats est s i) := by
  induction shifts generalizing results with
  | nil => exact ⟨results, rfl, hr, by simp⟩
  | cons s rest ih =>
    obtain ⟨cur, hc, hcl, hcs⟩ := shiftPeaks_spec (hs s (List.mem_cons_self ..)) hne
    have hres : ∀ i, ((results.zip cur).map (fun x => x.1 && x.2))[i]? = some true ↔
        (results[i]? = some true ∧ Beats est s i) := by
      intro i
      rw [← hcs i, List.getElem?_map]
      by_cases hi : i < est.length
      · have e1 : results[i]? = some (results[i]'(by omega)) := List.getElem?_eq_getElem (by omega)
        have e2 : cur[i]? = some (cur[i]'(by omega)) := List.getElem?_eq_getElem (by omega)
        have : (results.zip cur)[i]? = some (results[i]'(by omega), cur[i]'(by omega)) := by
          rw [List.getElem?_zip_eq_some]; exact ⟨e1, e2⟩
        rw [this, e1, e2]
        simp
      · rw [List.getElem?_eq_none (by rw [List.length_zip]; omega), List.getElem?_eq_none (by omega)]
        simp
    have hl' : ((results.zip cur).map (fun x => x.1 && x.2)).length = est.length := by
      rw [List.length_map, List.length_zip]; omega
    simp only [peakLoop, hc, Option.bind_eq_bind, Option.bind_some]
    split
    · rename_i hany
      refine ⟨_, rfl, hl', ?_⟩
      intro i
      have hf : ¬ ((results.zip cur).map (fun x => x.1 && x.2))[i]? = some true := by
        intro h
        have hm : true ∈ (results.zip cur).map (fun x => x.1 && x.2) := List.mem_of_getElem? h
        have : ((results.zip cur).map (fun x => x.1 && x.2)).any id = true :=
          List.any_eq_true.2 ⟨true, hm, rfl⟩
        rw [this] at hany
        cases hany
      refine iff_of_false hf ?_
      rintro ⟨h1, h2⟩
      exact hf ((hres i).2 ⟨h1, h2 s (List.mem_cons_self ..)⟩)
    · obtain ⟨r, h1, h2, h3⟩ := ih (fun a ha => hs a (List.mem_cons_of_mem _ ha)) _ hl'
      refine ⟨r, h1, h2, ?_⟩
      intro i
      rw [h3, hres]
      simp only [List.forall_mem_cons, and_assoc]

/-- C35: for a non-empty density and an order of at most its length, `find_peak_index` returns exactly the clamped
strict local maxima, in ascending order. -/
theorem C35_peaks {order : Nat} {est : List α} (hne : est ≠ []) (ho : order ≤ est.length) :
    ∃ idx, findPeakIndex order est = some idx ∧ idx.Pairwise (· < ·) ∧
      ∀ i, i ∈ idx ↔ i < est.length ∧ IsPeak order est i := by
  have hlen : 0 < est.length := List.length_pos_iff.2 hne
  obtain ⟨r, h1, h2, h3⟩ := peakLoop_spec hne (List.range' 1 order)
    (by intro s hs; rw [List.mem_range'_1] at hs; omega) (List.replicate est.length true) (by simp)
  refine ⟨(List.range est.length).filter (fun i => decide (r[i]? = some true)), ?_, ?_, ?_⟩
  · simp [findPeakIndex, h1]
  · exact List.Pairwise.filter _ List.pairwise_lt_range
  · intro i
    rw [List.mem_filter, List.mem_range]
    refine and_congr_right (fun hi => ?_)
    rw [decide_eq_true_iff, h3]
    have e0 : est[i]? = some est[i] := List.getElem?_eq_getElem hi
    constructor
    · rintro ⟨_, h⟩
      refine ⟨est[i], e0, ?_⟩
      intro s hs1 hs2
      obtain ⟨v, a, b, hv, ha, hb, hav, hbv⟩ := h s (List.mem_range'_1.2 ⟨hs1, by omega⟩)
      rw [e0] at hv
      cases hv
      refine ⟨fun a' ha' => ?_, fun b' hb' => ?_⟩
      · rw [ha] at ha'; cases ha'; exact hav
      · rw [hb] at hb'; cases hb'; exact hbv
    · rintro ⟨v, hv, h⟩
      refine ⟨by rw [List.getElem?_replicate, if_pos hi], ?_⟩
      intro s hs
      rw [List.mem_range'_1] at hs
      obtain ⟨ha, hb⟩ := h s hs.1 (by omega)
      have ea : est[min (i + s) (est.length - 1)]? = some (est[min (i + s) (est.length - 1)]'(by omega)) :=
        List.getElem?_eq_getElem (by omega)
      have eb : est[i - s]? = some (est[i - s]'(by omega)) := List.getElem?_eq_getElem (by omega)
      exact ⟨v, _, _, hv, ea, eb, ha _ ea, hb _ eb⟩

/-- C35: the first and the last index are never peaks. -/
theorem C35_border {order : Nat} (ho : 1 ≤ order) {est : List α} :
    ¬ IsPeak order est 0 ∧ ¬ IsPeak order est (est.length - 1) := by
  constructor
  · rintro ⟨v, hv, h⟩
    exact lt_irrefl v ((h 1 (by omega) ho).2 v (by simpa using hv))
  · rintro ⟨v, hv, h⟩
    exact lt_irrefl v ((h 1 (by omega) ho).1 v (by
      rw [show min (est.length - 1 + 1) (est.length - 1) = est.length - 1 by omega]; exact hv))

/-- C35 (crash): an empty density crashes. -/
theorem C35_empty_crash {order : Nat} (ho : 1 ≤ order) : findPeakIndex order ([] : List α) = none := by
  obtain ⟨k, rfl⟩ : ∃ k, order = k + 1 := ⟨order - 1, by omega⟩
  simp [findPeakIndex, List.range'_succ, peakLoop, shiftPeaks]

example : findPeakIndex 1 ([1, 2, 1, 3, 3, 1, 5] : List Nat) = some [1] := by decide
example : findPeakIndex 2 ([1, 2, 1, 4, 1, 0] : List Nat) = some [3] := by decide

end peaks

/-! ## C36 -/

theorem closestLoop_spec (x best : ℝ) (ps : List ℝ) :
    closestLoop x best ps ∈ best :: ps ∧ (∀ q ∈ best :: ps, |closestLoop x best ps - x| ≤ |q - x|) ∧
      ∃ pre post, best :: ps = pre ++ closestLoop x best ps :: post ∧
        ∀ q ∈ pre, |closestLoop x best ps - x| < |q - x| := by
  induction ps generalizing best with
  | nil => exact ⟨by simp [closestLoop], by simp [closestLoop], [], [], by simp [closestLoop], by simp⟩
  | cons p ps ih =>
    simp only [closestLoop]
    split
    · rename_i hlt
      obtain ⟨h1, h2, pre, post, h3, h4⟩ := ih p
      refine ⟨List.mem_cons_of_mem _ h1, ?_, best :: pre, post, by rw [h3]; rfl, ?_⟩
      · intro q hq
        rcases List.mem_cons.1 hq with rfl | hq
        · exact le_trans (h2 p (List.mem_cons_self ..)) hlt.le
        · exact h2 q hq
      · intro q hq
        rcases List.mem_cons.1 hq with rfl | hq
        · exact lt_of_le_of_lt (h2 p (List.mem_cons_self ..)) hlt
        · exact h4 q hq
    · rename_i hge
      obtain ⟨h1, h2, pre, post, h3, h4⟩ := ih best
      refine ⟨?_, ?_, ?_⟩
      · rcases List.mem_cons.1 h1 with h | h
        · rw [h]; exact List.mem_cons_self ..
        · exact List.mem_cons_of_mem _ (List.mem_cons_of_mem _ h)
      · intro q hq
        rcases List.mem_cons.1 hq with rfl | hq
        · exact h2 q (List.mem_cons_self ..)
        · rcases List.mem_cons.1 hq with rfl | hq
          · exact le_trans (h2 best (List.mem_cons_self ..)) (not_lt.1 hge)
          · exact h2 q (List.mem_cons_of_mem _ hq)
      · cases pre with
        | nil =>
          simp only [List.nil_append, List.cons.injEq] at h3
          refine ⟨[], p :: ps, ?_, by simp⟩
          rw [← h3.1]; rfl
        | cons b pre =>
          simp only [List.cons_append, List.cons.injEq] at h3
          refine ⟨best :: p :: pre, post, ?_, ?_⟩
          · rw [List.cons_append, List.cons_append, ← h3.2]
          · have hb := h4 b (List.mem_cons_self ..)
            rw [← h3.1] at hb
            intro q hq
            rcases List.mem_cons.1 hq with rfl | hq
            · exact hb
            · rcases List.mem_cons.1 hq with rfl | hq
              · exact lt_of_lt_of_le hb (not_lt.1 hge)
              · exact h4 q (List.mem_cons_of_mem _ hq)

/-- C36: every value is assigned to a peak of minimal distance, the first one in case of ties. -/
theorem C36_closest {peaks : List ℝ} {x c : ℝ} (h : closestPeak peaks x = some c) :
    c ∈ peaks ∧ (∀ q ∈ peaks, |c - x| ≤ |q - x|) ∧
      ∃ pre post, peaks = pre ++ c :: post ∧ ∀ q ∈ pre, |c - x| < |q - x| := by
  cases peaks with
  | nil => cases h
  | cons p ps =>
    simp only [closestPeak, Option.some.injEq] at h
    rw [← h]
    exact closestLoop_spec x p ps

/-- C36: with at least one peak there is an assignment. -/
theorem C36_total {peaks : List ℝ} (hp : peaks ≠ []) (x : ℝ) : ∃ c, closestPeak peaks x = some c := by
  cases peaks with
  | nil => exact absurd rfl hp
  | cons p ps => exact ⟨_, rfl⟩

example : closestPeak [(0 : ℝ), 2, 4] 3 = some 2 := by norm_num [closestPeak, closestLoop]

/-! ## C34 -/

section labels
variable {C : Type} [DecidableEq C]

/-- Invariant of the label loop after the centres `cs`. -/
structure LabelInv (s : LabelState C) (cs : List C) : Prop where
  key : s.key = s.map.length
  entries : s.map = (s.map.map (·.1)).zipIdx
  nodup : (s.map.map (·.1)).Nodup
  mem : ∀ c, c ∈ s.map.map (·.1) ↔ c ∈ cs
  labels : s.labels = cs.map (fun c => (s.map.map (·.1)).idxOf c)
  dense : ∀ i k l : Nat, s.labels[i]? = some l → k < l → ∃ j, j < i ∧ s.labels[j]? = some k

theorem find?_zipIdx (l : List C) (c : C) (n : Nat) :
    (l.zipIdx n).find? (fun e => decide (e.1 = c)) = if c ∈ l then some (c, n + l.idxOf c) else none := by
  induction l generalizing n with
  | nil => simp
  | cons a l ih =>
    rw [List.zipIdx_cons, List.find?_cons]
    by_cases h : a = c
    · simp [h]
    · have h' : ¬ c = a := fun e => h e.symm
      simp only [h, decide_false, ih, List.mem_cons, h', false_or]
      by_cases hm : c ∈ l
      · simp only [hm, if_true, Option.some.injEq, Prod.mk.injEq, true_and]
        rw [List.idxOf_cons_ne _ h]; omega
      · simp [hm]

theorem labelInv (cs : List C) : LabelInv (cs.foldl labelStep {}) cs := by
  induction cs using List.reverseRecOn with
  | nil => exact ⟨rfl, rfl, by simp, by simp, rfl, by simp⟩
  | append_singleton l c ih =>
    rw [List.foldl_append, List.foldl_cons, List.foldl_nil]
    generalize hs : l.foldl labelStep {} = s at ih
    obtain ⟨h1, h2, h3, h4, h5, h6⟩ := ih
    have hf : s.map.find? (fun e => decide (e.1 = c))
        = if c ∈ s.map.map (·.1) then some (c, (s.map.map (·.1)).idxOf c) else none := by
      conv_lhs => rw [h2]
      have := find?_zipIdx (s.map.map (·.1)) c 0
      simpa using this
    unfold labelStep
    by_cases hm : c ∈ s.map.map (·.1)
    · rw [hf, if_pos hm]
      refine ⟨h1, h2, h3, ?_, ?_, ?_⟩
      · intro d
        rw [h4 d, List.mem_append, List.mem_singleton]
        constructor
        · exact Or.inl
        · rintro (h | rfl)
          · exact h
          · exact (h4 d).1 hm
      · simp [h5]
      · intro i k v hi hk
        dsimp only at hi ⊢
        by_cases hil : i < s.labels.length
        · rw [List.getElem?_append_left hil] at hi
          obtain ⟨j, hj, hjk⟩ := h6 i k v hi hk
          exact ⟨j, hj, by rw [List.getElem?_append_left (by omega)]; exact hjk⟩
        · have hlt := (List.getElem?_eq_some_iff.1 hi).1
          rw [List.length_append, List.length_singleton] at hlt
          have hie : i = s.labels.length := by omega
          subst hie
          simp only [List.getElem?_append_right (le_refl _), Nat.sub_self, List.getElem?_cons_zero,
            Option.some.injEq] at hi
          -- the label is the one of an earlier occurrence
          obtain ⟨j, hj, hjc⟩ := List.getElem_of_mem ((h4 c).1 hm)
          have hlj : s.labels[j]? = some v := by
            rw [h5, List.getElem?_map, List.getElem?_eq_getElem hj, hjc, Option.map_some, hi]
          obtain ⟨j', hj', hjk⟩ := h6 j k v hlj hk
          have hjl : j < s.labels.length := (List.getElem?_eq_some_iff.1 hlj).1
          exact ⟨j', by omega, by rw [List.getElem?_append_left (by omega)]; exact hjk⟩
    · rw [hf, if_neg hm]
      have hmapEq : (s.map ++ [(c, s.key)]).map (·.1) = s.map.map (·.1) ++ [c] := by simp
      refine ⟨by simp [h1], ?_, ?_, ?_, ?_, ?_⟩
      · dsimp only
        rw [hmapEq, List.zipIdx_append, ← h2, h1]
        simp
      · dsimp only
        rw [hmapEq, List.nodup_append]
        refine ⟨h3, List.nodup_singleton c, ?_⟩
        intro a ha b hb
        rw [List.mem_singleton] at hb
        rintro rfl
        exact hm (hb ▸ ha)
      · intro d
        dsimp only
        rw [hmapEq, List.mem_append, h4 d, List.mem_append]
      · dsimp only
        rw [hmapEq, h5, List.map_append]
        congr 1
        · apply List.map_congr_left
          intro d hd
          rw [List.idxOf_append_of_mem ((h4 d).2 hd)]
        · simp [List.idxOf_append_of_notMem hm, h1]
      · intro i k v hi hk
        dsimp only at hi ⊢
        by_cases hil : i < s.labels.length
        · rw [List.getElem?_append_left hil] at hi
          obtain ⟨j, hj, hjk⟩ := h6 i k v hi hk
          exact ⟨j, hj, by rw [List.getElem?_append_left (by omega)]; exact hjk⟩
        · have hlt := (List.getElem?_eq_some_iff.1 hi).1
          rw [List.length_append, List.length_singleton] at hlt
          have hie : i = s.labels.length := by omega
          subst hie
          simp only [List.getElem?_append_right (le_refl _), Nat.sub_self, List.getElem?_cons_zero,
            Option.some.injEq] at hi
          have hkl : k < (s.map.map (·.1)).length := by rw [List.length_map]; omega
          obtain ⟨j, hj, hjc⟩ := List.getElem_of_mem ((h4 _).1 (List.getElem_mem hkl))
          have hlj : s.labels[j]? = some k := by
            rw [h5, List.getElem?_map, List.getElem?_eq_getElem hj, hjc, Option.map_some,
              List.Nodup.idxOf_getElem h3]
          have hjl : j < s.labels.length := (List.getElem?_eq_some_iff.1 hlj).1
          exact ⟨j, hjl, by rw [List.getElem?_append_left hjl]; exact hlj⟩

/-- C34: for a non-empty list of centres the labels are equal iff the centres are equal, they are numbered by first
occurrence without gaps, and the centre table has the centre of label `k` at position `k`, without
duplicates. -/
theorem C34_labels {centers : List C} (hne : centers ≠ []) :
    ∃ (labels : List Nat) (table : List C), extractLabels centers = some (labels, table) ∧ labels.length = centers.length ∧
      (∀ (i j : Nat) a b, centers[i]? = some a → centers[j]? = some b → (labels[i]? = labels[j]? ↔ a = b)) ∧
      (∀ i k : Nat, labels[i]? = some k → table[k]? = centers[i]?) ∧
      (∀ i k l : Nat, labels[i]? = some l → k < l → ∃ j, j < i ∧ labels[j]? = some k) ∧
      table.Nodup ∧ (∀ c, c ∈ table ↔ c ∈ centers) := by
  have hi := labelInv centers
  generalize hs : centers.foldl labelStep {} = s at hi
  obtain ⟨h1, h2, h3, h4, h5, h6⟩ := hi
  have hmap : s.map ≠ [] := by
    intro he
    obtain ⟨c, hc⟩ := List.exists_mem_of_ne_nil _ hne
    have := (h4 c).2 hc
    rw [he] at this
    cases this
  refine ⟨s.labels, s.map.map (·.1), ?_, by simp [h5], ?_, ?_, h6, h3, h4⟩
  · unfold extractLabels
    rw [hs]
    simp only [if_neg hmap]
  · intro i j a b ha hb
    rw [h5, List.getElem?_map, List.getElem?_map, ha, hb, Option.map_some, Option.map_some, Option.some.injEq]
    constructor
    · intro h
      have hma := (h4 a).2 (List.mem_of_getElem? ha)
      have hmb := (h4 b).2 (List.mem_of_getElem? hb)
      have e1 := List.getElem?_eq_getElem (List.idxOf_lt_length_of_mem hma)
      have e2 := List.getElem?_eq_getElem (List.idxOf_lt_length_of_mem hmb)
      rw [List.getElem_idxOf] at e1 e2
      rw [h, e2] at e1
      exact (Option.some.inj e1).symm
    · rintro rfl; rfl
  · intro i k h
    rw [h5, List.getElem?_map] at h
    rcases ha : centers[i]? with _ | a
    · rw [ha] at h; cases h
    · rw [ha, Option.map_some, Option.some.injEq] at h
      have hma := (h4 a).2 (List.mem_of_getElem? ha)
      rw [← h, List.getElem?_eq_getElem (List.idxOf_lt_length_of_mem hma), List.getElem_idxOf]

/-- C34 (crash): no centres, no labels. -/
theorem C34_empty_crash : extractLabels ([] : List C) = none := rfl

example : extractLabels ["a", "b", "a", "c", "b"] = some ([0, 1, 0, 2, 1], ["a", "b", "c"]) := by decide

end labels

end Kde
end S2G
