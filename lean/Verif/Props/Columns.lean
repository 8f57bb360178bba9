import Verif.Model.Columns
import Verif.Util
import Mathlib.Tactic.Ring
import Mathlib.Tactic.Linarith

/-!
# C07: column selection
-/

namespace S2G
namespace Columns
variable {α β : Type}

theorem fromTo_go_eq (start stop : Nat) : ∀ (l : List α) (i : Nat),
    fromTo.go start stop i l = l.take (stop - (i + start)) := by
  intro l
  induction l with
  | nil => intro i; simp [fromTo.go]
  | cons x xs ih =>
    intro i
    unfold fromTo.go
    split
    · rename_i h
      rw [ih, show stop - (i + start) = (stop - (i + 1 + start)) + 1 by omega, List.take_succ_cons]
    · rename_i h
      rw [show stop - (i + start) = 0 by omega]; simp

/-- `fromto` is slicing. -/
theorem fromTo_eq (l : List α) (start stop : Nat) :
    fromTo l start stop = (l.drop start).take (stop - start) := by
  rw [fromTo, fromTo_go_eq]; simp

theorem intoShape_flatten (c : Nat) : ∀ (l : List (List β)), (∀ r ∈ l, r.length = c) →
    intoShape l.length c l.flatten = some l := by
  intro l h
  have hlen : l.flatten.length = l.length * c := by
    induction l with
    | nil => simp
    | cons r l ih =>
      simp only [List.flatten_cons, List.length_append, List.length_cons]
      rw [ih (fun x hx => h x (by simp [hx])), h r (by simp)]; ring
  rw [intoShape, if_pos hlen]
  congr 1
  clear hlen
  induction l with
  | nil => rfl
  | cons r l ih =>
    have hr := h r (by simp)
    rw [List.length_cons, List.range_succ_eq_map, List.map_cons, List.map_map]
    congr 1
    · simp [← hr]
    · conv_rhs => rw [← ih (fun x hx => h x (by simp [hx]))]
      apply List.map_congr_left
      intro i _
      simp only [Function.comp_apply, List.flatten_cons]
      rw [show (i + 1) * c = r.length + i * c by rw [hr]; ring, ← List.drop_drop, List.drop_left]

/-- Specification of the end column for rows of `m` cells: `none` if the end lies before the first column. -/
def endColumn (columnEnd : Int) (m : Nat) : Option Nat :=
  if columnEnd > 0 then some columnEnd.toNat
  else if 0 ≤ (m : Int) + columnEnd then some ((m : Int) + columnEnd).toNat else none

/-- `until_column` for rows of equal length, as long as the end does not lie before the first column. -/
theorem untilColumn_eq {data : List (List α)} {m e : Nat} {columnEnd : Int} (hne : data ≠ [])
    (hm : ∀ r ∈ data, r.length = m) (hm64 : m < 2 ^ 64) (he : endColumn columnEnd m = some e) :
    untilColumn columnEnd data = some e := by
  obtain ⟨r, rs, rfl⟩ := List.exists_cons_of_ne_nil hne
  have hr := hm r (by simp)
  unfold endColumn at he
  unfold untilColumn
  split_ifs at he with h1 h2
  · rw [if_neg (by omega), if_pos h1]; exact he
  · by_cases h0 : columnEnd = 0
    · subst h0; simp at he; simp [hr, he]
    · rw [if_neg h0, if_neg h1]
      simp only [Option.some.injEq] at he
      simp only [List.length_cons, Nat.zero_lt_succ, getElem?_pos, List.getElem_cons_zero,
        Option.map_some, hr, asUsize, Option.some.injEq]
      rw [Int.emod_eq_of_lt h2 (by omega)]; exact he

/-- C07a: for a valid range, with numeric selected cells, exactly the columns `start .. end` are used, in every row,
and no other cell is even parsed. -/
theorem C07_selects_range (parse : α → Option β) (val : α → β) {data : List (List α)} {m start e : Nat}
    {columnEnd : Int} (hne : data ≠ []) (hm : ∀ r ∈ data, r.length = m) (hm64 : m < 2 ^ 64)
    (he : endColumn columnEnd m = some e) (hse : start ≤ e) (hem : e ≤ m)
    (hparse : ∀ r ∈ data, ∀ j, start ≤ j → j < e → ∀ x, r[j]? = some x → parse x = some (val x)) :
    selectColumns parse start columnEnd data =
      some (data.map (fun r => ((r.drop start).take (e - start)).map val)) := by
  have hmap : (data.map (fun rec => fromTo rec start e)).mapM (fun r => r.mapM parse) =
      some (data.map (fun r => ((r.drop start).take (e - start)).map val)) := by
    rw [List.mapM_map, mapM_eq_some]
    rw [List.forall₂_map_right_iff, List.forall₂_same]
    intro r hr
    simp only [Function.comp_apply, fromTo_eq]
    rw [mapM_eq_some, List.forall₂_map_right_iff, List.forall₂_same]
    intro x hx
    obtain ⟨i, hi, hxi⟩ := List.mem_iff_getElem.1 hx
    simp only [List.length_take, List.length_drop] at hi
    refine hparse r hr (start + i) (by omega) (by omega) x ?_
    simp only [List.getElem_take, List.getElem_drop] at hxi
    rw [List.getElem?_eq_some_iff]
    exact ⟨by omega, hxi⟩
  simp only [selectColumns, untilColumn_eq hne hm hm64 he, checkedSub, Option.bind_eq_bind,
    Option.bind_some, if_pos hse, hmap]
  have := intoShape_flatten (e - start)
    (data.map (fun r => ((r.drop start).take (e - start)).map val)) (by
      intro r hr
      obtain ⟨r', hr', rfl⟩ := List.mem_map.1 hr
      have := hm r' hr'
      simp; omega)
  simpa using this

/-- C07b: an invalid range (end before start, or beyond the last column, or before the first column) crashes. -/
theorem C07_invalid_crashes (parse : α → Option β) {data : List (List α)} {m start : Nat}
    {columnEnd : Int} (hne : data ≠ []) (hm : ∀ r ∈ data, r.length = m)
    (hm64 : m < 2 ^ 63) (hlow : -(2 ^ 63 : Int) ≤ columnEnd)
    (hbad : ∀ e, endColumn columnEnd m = some e → e < start ∨ (m < e ∧ start < e))
    (hbad' : endColumn columnEnd m = none → start < 2 ^ 63) :
    selectColumns parse start columnEnd data = none := by
  have key : ∀ u, (u < start ∨ (m < u ∧ start < u)) → untilColumn columnEnd data = some u →
      selectColumns parse start columnEnd data = none := by
    intro u hu hun
    simp only [selectColumns, hun, Option.bind_eq_bind, Option.bind_some, checkedSub]
    rcases hu with hu | ⟨h1, h2⟩
    · rw [if_neg (by omega)]; rfl
    · rw [if_pos (by omega)]
      simp only [Option.bind_some]
      cases hmm : (data.map (fun rec => fromTo rec start u)).mapM (fun r => r.mapM parse) with
      | none => rfl
      | some flat =>
        simp only [Option.bind_some]
        rw [intoShape, if_neg]
        rw [List.mapM_map, mapM_eq_some] at hmm
        have hl : flat.length = data.length := hmm.length_eq.symm
        have hrow : ∀ r ∈ flat, r.length ≤ m - start := by
          intro r hr
          obtain ⟨i, hi, rfl⟩ := List.mem_iff_getElem.1 hr
          have hi' : i < data.length := by omega
          have h3 := (List.forall₂_iff_get.1 hmm).2 i hi' hi
          simp only [Function.comp_apply, List.get_eq_getElem] at h3
          rw [mapM_eq_some] at h3
          have := h3.length_eq
          rw [fromTo_eq] at this
          have hmi := hm _ (List.getElem_mem hi')
          simp at this; omega
        have hsum : ∀ (l : List (List β)) (c : Nat), (∀ r ∈ l, r.length ≤ c) →
            l.flatten.length ≤ l.length * c := by
          intro l c hc
          induction l with
          | nil => simp
          | cons r l ih =>
            simp only [List.flatten_cons, List.length_append, List.length_cons]
            have := ih (fun x hx => hc x (by simp [hx]))
            have := hc r (by simp)
            rw [Nat.add_mul]; omega
        have h4 := hsum flat _ hrow
        have hpos : 0 < data.length := List.length_pos_iff.2 hne
        rw [hl] at h4
        have h5 : data.length * (m - start) < data.length * (u - start) :=
          Nat.mul_lt_mul_of_pos_left (by omega) hpos
        omega
  cases he : endColumn columnEnd m with
  | some e => exact key e (hbad e he) (untilColumn_eq hne hm (by omega) he)
  | none =>
    have hst := hbad' he
    unfold endColumn at he
    split_ifs at he with h1 h2
    obtain ⟨r, rs, rfl⟩ := List.exists_cons_of_ne_nil hne
    have hr := hm r (by simp)
    refine key (asUsize ((m : Int) + columnEnd)) ?_ ?_
    · have : ((m : Int) + columnEnd) % (2 ^ 64 : Int) = (m : Int) + columnEnd + 2 ^ 64 := by omega
      unfold asUsize; omega
    · have h0 : columnEnd ≠ 0 := by omega
      simp [untilColumn, h0, h1, hr]

/-- C07: if all cells are numbers, the selection crashes exactly for the ranges which end before they start or, not being empty, beyond the last
column. -/
theorem C07_crash_iff (parse : α → Option β) (val : α → β) (hparse : ∀ x, parse x = some (val x)) {data : List (List α)} {m start : Nat}
    {columnEnd : Int} (hne : data ≠ []) (hm : ∀ r ∈ data, r.length = m) (hm64 : m < 2 ^ 63) (hlow : -(2 ^ 63 : Int) ≤ columnEnd)
    (hs : start < 2 ^ 63) :
    selectColumns parse start columnEnd data = none ↔ ∀ e, endColumn columnEnd m = some e → e < start ∨ (m < e ∧ start < e) := by
  constructor
  · intro h e he
    by_contra hc
    simp only [not_or, not_and, not_lt] at hc
    by_cases hem : e ≤ m
    · rw [C07_selects_range parse val hne hm (by omega) he hc.1 hem (fun _ _ _ _ _ x _ => hparse x)] at h
      cases h
    · have hse : e = start := le_antisymm (hc.2 (by omega)) hc.1
      subst hse
      have hmap : (data.map (fun rec => fromTo rec e e)).mapM (fun r => r.mapM parse) = some (data.map (fun _ => [])) := by
        rw [List.mapM_map, mapM_eq_some, List.forall₂_map_right_iff, List.forall₂_same]
        intro r _
        simp [fromTo_eq]
      simp only [selectColumns, untilColumn_eq hne hm (by omega) he, checkedSub, Option.bind_eq_bind, Option.bind_some, le_refl, if_true,
        hmap] at h
      have := intoShape_flatten (β := β) (e - e) (data.map (fun _ => [])) (by simp)
      rw [List.length_map] at this
      rw [this] at h
      cases h
  · intro h
    exact C07_invalid_crashes parse hne hm hm64 hlow h (fun _ => hs)

/-! Concrete instances: three columns, the first is a (non-numeric) timestamp, the last a label. -/
example : selectColumns (fun s : Int => if s < 0 then none else some s) 1 (-1)
    [[-5, 1, 2, -9], [-5, 3, 4, -9]] = some [[1, 2], [3, 4]] := by decide
example : endColumn (-1) 4 = some 3 ∧ endColumn 0 4 = some 4 ∧ endColumn 2 4 = some 2 ∧
    endColumn (-5) 4 = none := by decide
example : selectColumns (fun s : Int => some s) 1 (-4) [[7, 1, 2, 9], [7, 3, 4, 9]] = none := by decide
example : selectColumns (fun s : Int => some s) 1 5 [[7, 1, 2, 9], [7, 3, 4, 9]] = none := by decide

end Columns
end S2G
