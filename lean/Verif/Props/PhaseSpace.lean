import Verif.Model.PhaseSpace
import Verif.Util
import Verif.Props.DataReader
import Mathlib.Data.List.GetD
import Mathlib.Algebra.BigOperators.Group.Finset.Basic
import Mathlib.Algebra.BigOperators.Intervals
import Mathlib.Algebra.Field.Rat
import Mathlib.Tactic.Ring
import Mathlib.Tactic.Linarith

/-!
# C14, C15, C16, C58: embedding
-/

namespace S2G
namespace PhaseSpace
variable {K : Type} {d : Nat}

/-- Value of the series at time `t`. -/
def series [Zero K] (data : List (Fin d → K)) (t : Nat) : Fin d → K := data.getD t 0

/-- Specification: entry `j` of point `i` is the sum of the `latent` values from `i + j`. -/
def specPoint [AddCommMonoid K] (p : Parameters) (data : List (Fin d → K)) (i : Nat) : List (Fin d → K) :=
  (List.range (p.patternLength - p.latent)).map
    (fun j => ∑ t ∈ Finset.range p.latent, series data (i + j + t))

theorem sliceSum_eq [AddCommMonoid K] (data : List (Fin d → K)) (a l : Nat) (h : a + l ≤ data.length) :
    sliceSum data a (a + l) = some (∑ t ∈ Finset.range l, series data (a + t)) := by
  rw [sliceSum, if_pos ⟨by omega, h⟩, Nat.add_sub_cancel_left]
  congr 1
  induction l with
  | zero => simp
  | succ l ih =>
    rw [Finset.sum_range_succ, ← ih (by omega)]
    have hl : l < (data.drop a).length := by simp; omega
    rw [List.take_succ_eq_append_getElem hl, List.sum_append]
    simp only [List.sum_cons, List.sum_nil, add_zero, List.getElem_drop, series]
    rw [List.getD_eq_getElem _ _ (by omega)]

theorem mapM_range_some {β : Type} (n : Nat) (f : Nat → Option β) (g : Nat → β)
    (h : ∀ j, j < n → f j = some (g j)) : (List.range n).mapM f = some ((List.range n).map g) := by
  rw [mapM_eq_some, List.forall₂_map_right_iff, List.forall₂_same]
  intro j hj
  exact h j (List.mem_range.1 hj)

theorem firstRow_eq [AddCommMonoid K] (p : Parameters) (data : List (Fin d → K))
    (hN : p.patternLength ≤ data.length + 1) :
    firstRow p.latent (p.patternLength - p.latent) data = some (specPoint p data 0) := by
  refine mapM_range_some _ _ _ (fun j hj => ?_)
  rw [sliceSum_eq data j p.latent (by omega)]
  simp

theorem nextRow_eq [AddCommMonoid K] (p : Parameters) (data : List (Fin d → K)) (i : Nat)
    (hlat : p.latent < p.patternLength) (hN : i + 1 + p.patternLength ≤ data.length + 1) :
    nextRow p.patternLength p.latent (p.patternLength - p.latent) data (i + 1) (specPoint p data i) =
      some (specPoint p data (i + 1)) := by
  obtain ⟨w, hw⟩ : ∃ w, p.patternLength - p.latent = w + 1 := ⟨p.patternLength - p.latent - 1, by omega⟩
  rw [nextRow, if_neg (by omega)]
  have e1 : i + 1 + p.patternLength - 1 = (i + 1 + p.patternLength - p.latent - 1) + p.latent := by omega
  rw [e1, sliceSum_eq data _ p.latent (by omega)]
  simp only [Option.bind_eq_bind, Option.bind_some, Option.some.injEq]
  unfold specPoint
  rw [hw]
  conv_rhs => rw [List.range_succ, List.map_append]
  conv_lhs => rw [List.range_succ_eq_map, List.map_cons, List.drop_one, List.tail_cons, List.map_map]
  congr 1
  · apply List.map_congr_left
    intro j _
    simp only [Function.comp_apply]
    apply Finset.sum_congr rfl
    intro t _
    congr 1; omega
  · simp only [List.map_cons, List.map_nil, List.cons.injEq, and_true]
    apply Finset.sum_congr rfl
    intro t _
    congr 1; omega

theorem rows_eq [AddCommMonoid K] (p : Parameters) (data : List (Fin d → K))
    (hlat : p.latent < p.patternLength) : ∀ (count i : Nat) (current : List (Fin d → K)),
    i + count + p.patternLength ≤ data.length + 1 → (0 < i → current = specPoint p data (i - 1)) →
    rows p.patternLength p.latent (p.patternLength - p.latent) data count i current =
      some ((List.range' i count).map (specPoint p data)) := by
  intro count
  induction count with
  | zero => intro i current _ _; rfl
  | succ count ih =>
    intro i current hN hcur
    have hrow : rowAt p.patternLength p.latent (p.patternLength - p.latent) data i current =
        some (specPoint p data i) := by
      unfold rowAt
      split
      · rename_i h; subst h; exact firstRow_eq p data (by omega)
      · rename_i h
        obtain ⟨i', rfl⟩ : ∃ i', i = i' + 1 := ⟨i - 1, by omega⟩
        rw [hcur (by omega), Nat.add_sub_cancel]
        exact nextRow_eq p data i' hlat (by omega)
    simp only [rows, hrow, Option.bind_eq_bind, Option.bind_some]
    rw [ih (i + 1) _ (by omega) (fun _ => by simp)]
    simp [List.range'_succ]

/-- C14a: for a series of at least `L - 1` rows and `latent < L`, the embedding has `N - (L - 1)` points, and entry
`j` of point `i` is the sum of the `latent` values from `i + j`. -/
theorem C14_windowed_sums [AddCommMonoid K] (p : Parameters) (data : List (Fin d → K))
    (hlat : p.latent < p.patternLength) (hN : p.patternLength - 1 ≤ data.length) :
    build p data = some ((List.range (data.length - (p.patternLength - 1))).map (specPoint p data)) := by
  simp only [build, checkedSub, Option.bind_eq_bind]
  rw [if_pos (by omega)]
  simp only [Option.bind_some]
  rw [if_pos hN]
  simp only [Option.bind_some]
  rw [if_pos (by omega)]
  simp only [Option.bind_some]
  rcases Nat.eq_zero_or_pos (data.length - (p.patternLength - 1)) with h0 | hpos
  · rw [h0]; rfl
  · rw [rows_eq p data hlat _ 0 _ (by omega) (by simp), List.range_eq_range']

/-- C14b: a series shorter than `L - 1` crashes, and so does `latent ≥ L` as soon as there are two points. -/
theorem C14_crash [AddCommMonoid K] (p : Parameters) (data : List (Fin d → K))
    (h : data.length < p.patternLength - 1 ∨ p.patternLength = 0 ∨ p.patternLength < p.latent ∨
      (p.patternLength = p.latent ∧ p.patternLength < data.length)) :
    build p data = none := by
  simp only [build, checkedSub, Option.bind_eq_bind]
  by_cases h1 : 1 ≤ p.patternLength
  swap
  · rw [if_neg h1]; rfl
  rw [if_pos h1]
  simp only [Option.bind_some]
  by_cases h2 : p.patternLength - 1 ≤ data.length
  swap
  · rw [if_neg h2]; rfl
  rw [if_pos h2]
  simp only [Option.bind_some]
  by_cases h3 : p.latent ≤ p.patternLength
  swap
  · rw [if_neg h3]; rfl
  rw [if_pos h3]
  simp only [Option.bind_some]
  have h4 : p.patternLength = p.latent ∧ p.patternLength < data.length := by omega
  obtain ⟨c, hc⟩ : ∃ c, data.length - (p.patternLength - 1) = c + 2 :=
    ⟨data.length - (p.patternLength - 1) - 2, by omega⟩
  rw [hc, show p.patternLength - p.latent = 0 by omega]
  simp [rows, rowAt, nextRow]

/-- C15a: the points of the node windows of C05 are exactly the points of the whole series: point `l` of node `i` is
point `i * p + l` of the series. -/
theorem C15_partition_points [AddCommMonoid K] (p : Parameters) {data : List (Fin d → K)} {k : Nat}
    (hk : 1 < k) (hlat : p.latent < p.patternLength) (hLp : p.patternLength ≤ data.length / k)
    (hr : data.length % k ≤ p.patternLength - 1) {i : Nat} (hi : i < k) :
    build p (DataReader.window data k p.patternLength i) =
      some ((List.range' (data.length / k * i)
        (if i = k - 1 then data.length / k + data.length % k - (p.patternLength - 1)
         else data.length / k)).map (specPoint p data)) := by
  have hN := Nat.div_add_mod data.length k
  set q := data.length / k with hq
  set r := data.length % k with hr'
  have hmul : (i + 1) * q = i * q + q := by ring
  have hle : (i + 1) * q ≤ k * q := Nat.mul_le_mul_right q (by omega)
  have hcomm : q * i = i * q := Nat.mul_comm _ _
  -- end of the window
  obtain ⟨e, he⟩ : ∃ e, min ((i + 1) * q + (p.patternLength - 1)) data.length = e := ⟨_, rfl⟩
  have hlen : (DataReader.window data k p.patternLength i).length = e - i * q := by
    rw [DataReader.window, ← hq, he, DataReader.fromTo_length]; omega
  have hcount : e - i * q - (p.patternLength - 1) =
      (if i = k - 1 then q + r - (p.patternLength - 1) else q) := by
    split
    · rename_i h
      have : (i + 1) * q = k * q := by rw [h, Nat.sub_add_cancel (by omega)]
      omega
    · rename_i h
      have h3 : (i + 2) * q ≤ k * q := Nat.mul_le_mul_right q (by omega)
      have h4 : (i + 2) * q = (i + 1) * q + q := by ring
      omega
  rw [C14_windowed_sums p _ hlat (by rw [hlen]; omega), hlen, hcount]
  congr 1
  rw [List.range'_eq_map_range, List.map_map, hcomm]
  apply List.map_congr_left
  intro l hl
  have hl : l < (if i = k - 1 then q + r - (p.patternLength - 1) else q) := List.mem_range.1 hl
  rw [← hcount] at hl
  simp only [Function.comp_apply, specPoint]
  apply List.map_congr_left
  intro j hj
  have hj := List.mem_range.1 hj
  apply Finset.sum_congr rfl
  intro t ht
  have ht := Finset.mem_range.1 ht
  have hidx : l + j + t < e - i * q := by omega
  simp only [series]
  rw [List.getD_eq_getElem _ _ (by rw [hlen]; omega), List.getD_eq_getElem _ _ (by omega)]
  simp only [DataReader.window, ← hq, he, DataReader.rowsFromTo, List.getElem_drop, List.getElem_take]
  congr 1; omega

/-- C15b: the ids given to the points of node `i` are the positions in the embedding of the whole series. -/
theorem C15_point_ids {n k i count : Nat} (hk : 0 < k) :
    pointIds n k i count = some (List.range' (n / k * i) count) := by
  simp [pointIds, checkedDiv, Nat.pos_iff_ne_zero.1 hk]

/-- C15c: together, ids and points of all nodes are exactly the points of the series, each once, in order. -/
theorem C15_concatenation [AddCommMonoid K] (p : Parameters) {data : List (Fin d → K)} {k : Nat}
    (hk : 1 < k) (hlat : p.latent < p.patternLength) (hLp : p.patternLength ≤ data.length / k)
    (hr : data.length % k ≤ p.patternLength - 1) :
    ∃ parts : Nat → List (List (Fin d → K)), ∃ ids : Nat → List Nat,
      (∀ i, i < k → build p (DataReader.window data k p.patternLength i) = some (parts i)) ∧
      (∀ i, i < k → pointIds data.length k i (parts i).length = some (ids i)) ∧
      build p data = some ((List.range k).flatMap parts) ∧
      (List.range k).flatMap ids = List.range (data.length - (p.patternLength - 1)) := by
  have hN := Nat.div_add_mod data.length k
  set q := data.length / k with hq
  set r := data.length % k with hr'
  let cnt : Nat → Nat := fun i => if i = k - 1 then q + r - (p.patternLength - 1) else q
  have hids : (List.range k).flatMap (fun i => List.range' (q * i) (cnt i)) =
      List.range (data.length - (p.patternLength - 1)) := by
    have hpre : ∀ m, m < k → (List.range m).flatMap (fun i => List.range' (q * i) (cnt i)) =
        List.range (q * m) := by
      intro m
      induction m with
      | zero => intro _; simp
      | succ m ih =>
        intro hm
        rw [List.range_succ, List.flatMap_append, ih (by omega)]
        simp only [List.flatMap_cons, List.flatMap_nil, List.append_nil, cnt]
        rw [if_neg (by omega), List.range_eq_range', List.range_eq_range', Nat.mul_succ,
          ← List.range'_append]
        simp
    conv_lhs => rw [show k = (k - 1) + 1 by omega, List.range_succ, List.flatMap_append,
      hpre (k - 1) (by omega)]
    simp only [List.flatMap_cons, List.flatMap_nil, List.append_nil, cnt, if_true]
    have h6 : q * (k - 1) + q = k * q := by
      rw [← Nat.mul_succ, Nat.succ_eq_add_one, Nat.sub_add_cancel (by omega), Nat.mul_comm]
    have e : data.length - (p.patternLength - 1) = q * (k - 1) + (q + r - (p.patternLength - 1)) := by
      omega
    rw [e, List.range_eq_range', List.range_eq_range', ← List.range'_append]
    simp
  refine ⟨fun i => (List.range' (q * i) (cnt i)).map (specPoint p data),
    fun i => List.range' (q * i) (cnt i), ?_, ?_, ?_, hids⟩
  · intro i hi
    exact C15_partition_points p hk hlat hLp hr hi
  · intro i _
    rw [C15_point_ids (by omega)]
    simp [hq]
  · have hle : q ≤ data.length := Nat.div_le_self _ _
    rw [C14_windowed_sums p data hlat (by omega), ← hids, List.map_flatMap]

/-- C16: row `i` of the reference data set is the embedding of a constant series with the `i`-th of 100 equidistant
values between minimum and maximum. -/
theorem C16_reference_rows [Field K] (p : Parameters) (min max : Fin d → K)
    (hlat : p.latent < p.patternLength) :
    ∃ ref, referenceDataset p min max = some ref ∧ ref.length = 100 ∧
      ∀ i, (hi : i < ref.length) →
        build p (List.replicate p.patternLength (fun c => min c + (i : K) * (max c - min c) / 99)) =
          some [ref[i]] := by
  let v : Nat → Fin d → K := fun i => linspace min max 100 i
  have hrow : ∀ i, (List.range (p.patternLength - p.latent)).mapM (fun j =>
      sliceSum ((List.replicate p.patternLength (0 : Fin d → K)).map (· + v i)) j (j + p.latent)) =
      some (specPoint p (List.replicate p.patternLength (v i)) 0) := by
    intro i
    have e : (List.replicate p.patternLength (0 : Fin d → K)).map (· + v i) =
        List.replicate p.patternLength (v i) := by simp
    rw [e]
    exact firstRow_eq p _ (by simp)
  refine ⟨(List.range 100).map (fun i => specPoint p (List.replicate p.patternLength (v i)) 0), ?_, by simp, ?_⟩
  · simp only [referenceDataset, checkedSub, Option.bind_eq_bind]
    rw [if_pos (by omega)]
    simp only [Option.bind_some]
    exact mapM_range_some _ _ _ (fun i _ => hrow i)
  · intro i hi
    have hv : v i = fun c => min c + (i : K) * (max c - min c) / 99 := by
      funext c; simp only [v, linspace]; push_cast; ring
    rw [← hv, C14_windowed_sums p _ hlat (by simp)]
    simp only [List.length_replicate]
    rw [show p.patternLength - (p.patternLength - 1) = 1 by omega]
    simp

/-- C58: the last row of the series has no influence on the embedding. -/
theorem C58_last_row_ignored [AddCommMonoid K] (p : Parameters) (data : List (Fin d → K)) (x y : Fin d → K)
    (hlat : p.latent < p.patternLength) (hN : p.patternLength - 1 ≤ data.length + 1) :
    build p (data ++ [x]) = build p (data ++ [y]) := by
  rw [C14_windowed_sums p _ hlat (by simpa using hN), C14_windowed_sums p _ hlat (by simpa using hN)]
  simp only [List.length_append, List.length_singleton]
  congr 1
  apply List.map_congr_left
  intro i hi
  have hi := List.mem_range.1 hi
  simp only [specPoint]
  apply List.map_congr_left
  intro j hj
  have hj := List.mem_range.1 hj
  apply Finset.sum_congr rfl
  intro t ht
  have ht := Finset.mem_range.1 ht
  simp only [series]
  rw [List.getD_append _ _ _ _ (by omega), List.getD_append _ _ _ _ (by omega)]

/-! Concrete instances: 6 values, pattern length 4, latent 2. -/
example : (build (K := ℤ) (d := 1) ⟨4, 2, 5, 100, 1, 1, false⟩
    [fun _ => 1, fun _ => 2, fun _ => 4, fun _ => 8, fun _ => 16, fun _ => 32]).map
    (fun x => x.map (fun y => y.map (fun z => z 0))) = some [[3, 6], [6, 12], [12, 24]] := by decide
example : let p : Parameters := ⟨4, 2, 5, 100, 1, 2, false⟩
    p.latent < p.patternLength ∧ p.patternLength ≤ 11 / 2 ∧ 11 % 2 ≤ p.patternLength - 1 := by decide

end PhaseSpace
end S2G
