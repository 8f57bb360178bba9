import Verif.Props.DataReader
import Verif.Model.Transposition
import Mathlib.Data.List.ReduceOption

/-!
# C82: lines without a record

`read_csv` counts the lines of the file but distributes its records. On one node this does no harm; on several nodes it does exactly if the
blank lines change the quotient of the division by the number of nodes.
-/

namespace S2G
namespace DataReader
variable {α : Type}

/-- The number of lines without a record. -/
def blanks (lines : List (Option α)) : Nat := lines.countP Option.isNone

theorem blanks_add (lines : List (Option α)) : lines.reduceOption.length + blanks lines = lines.length := by
  unfold blanks
  induction lines with
  | nil => rfl
  | cons x l ih =>
    cases x with
    | none =>
      rw [List.reduceOption_cons_of_none, List.countP_cons_of_pos rfl, List.length_cons]
      omega
    | some a =>
      rw [List.reduceOption_cons_of_some, List.countP_cons_of_neg (by simp), List.length_cons, List.length_cons]
      omega

/-- Without such lines `readFile` is the `readCsv` of C05. -/
theorem readFile_some (k overlap : Nat) (rows : List α) : readFile k overlap (rows.map some) = readCsv k overlap rows := by
  unfold readFile readCsv
  rw [show (rows.map some).reduceOption = rows from by simp [List.reduceOption], List.length_map]

/-- The rows of node `i` when the partitions have `p` rows. -/
def windowOf (rows : List α) (p L i : Nat) : List α := rowsFromTo rows (i * p) (min ((i + 1) * p + (L - 1)) rows.length)

theorem readFile_inv {lines : List (Option α)} {k L : Nat} (hk : 1 < k) (hL1 : 1 ≤ L) (hLp : L ≤ lines.length / k)
    {msgs : List (Nat × List α)} (h : readFile k (L - 1) lines = some msgs) :
    ∃ s, Inv lines.reduceOption (lines.length / k) L lines.reduceOption.length k s ∧
      msgs = s.sent ++ [(s.position, rowsFromTo lines.reduceOption (s.position * (lines.length / k)) lines.reduceOption.length)] := by
  rcases prefix_run (rows := lines.reduceOption) (lo := lines.length - lines.length / k * k) hk hL1 hLp _ le_rfl with
    ⟨s, hs, hinv⟩ | ⟨_, hnone⟩
  · obtain ⟨s', hs', _, hsent, _, _⟩ := inv_send hinv le_rfl
    rw [List.take_length] at hs
    simp only [readFile, hs, Option.bind_eq_bind, Option.bind_some, hs', Option.some.injEq] at h
    exact ⟨s, hinv, by rw [← h, hsent]⟩
  · rw [List.take_length] at hnone
    simp only [readFile, Option.bind_eq_bind] at h
    rw [← Option.bind_assoc, hnone] at h
    cases h

/-- C82: with partitions of `p` lines, `p` at least the length of the pattern, and neither too many nor too few records, node `i` gets its
window of the records, but the window for partitions of `p` records. -/
theorem C82_windows {lines : List (Option α)} {k L : Nat} (hk : 1 < k) (hL1 : 1 ≤ L) (hLp : L ≤ lines.length / k)
    (hlo : (k - 1) * (lines.length / k) + L ≤ lines.reduceOption.length)
    (hhi : lines.reduceOption.length ≤ k * (lines.length / k) + (L - 1)) :
    readFile k (L - 1) lines = some ((List.range k).map (fun i => (i, windowOf lines.reduceOption (lines.length / k) L i))) := by
  set p := lines.length / k with hp
  set rows := lines.reduceOption with hrows
  have hkp : (k - 1 + 1) * p = k * p := by rw [Nat.sub_add_cancel (by omega)]
  have hkp' : (k - 1 + 1) * p = (k - 1) * p + p := by ring
  rcases prefix_run (rows := rows) (lo := lines.length - p * k) hk hL1 hLp rows.length le_rfl with
    ⟨s, hs, hinv⟩ | ⟨hlt, _⟩
  · have hpos : s.position = k - 1 := by
      have h1 := hinv.hi
      have h2 := hinv.pos_lt
      by_contra hne
      have h3 : (s.position + 1) * p ≤ (k - 1) * p := Nat.mul_le_mul_right p (by omega)
      have h4 : (s.position + 1) * p = s.position * p + p := by ring
      omega
    obtain ⟨s', hs', _, hsent, _, _⟩ := inv_send hinv le_rfl
    rw [List.take_length] at hs
    simp only [readFile, ← hp, ← hrows, hs, Option.bind_eq_bind, Option.bind_some, hs']
    congr 1
    rw [hsent, hinv.sent, hpos]
    conv_rhs => rw [show k = (k - 1) + 1 by omega, List.range_succ, List.map_append]
    simp only [List.map_cons, List.map_nil]
    congr 1
    · apply List.map_congr_left
      intro i hi
      simp only [List.mem_range] at hi
      simp only [windowOf]
      have h3 : (i + 1) * p ≤ (k - 1) * p := Nat.mul_le_mul_right p (by omega)
      rw [Nat.min_eq_left (by omega)]
    · simp only [windowOf]
      rw [Nat.min_eq_right (by omega)]
  · omega

/-- C82: with fewer records than that some node gets no data, so the run cannot go on. -/
theorem C82_missing {lines : List (Option α)} {k L : Nat} (hk : 1 < k) (hL1 : 1 ≤ L) (hLp : L ≤ lines.length / k)
    (hlo : lines.reduceOption.length < (k - 1) * (lines.length / k) + L) {msgs : List (Nat × List α)}
    (h : readFile k (L - 1) lines = some msgs) : msgs.length < k := by
  obtain ⟨s, hinv, rfl⟩ := readFile_inv hk hL1 hLp h
  have hl := congrArg List.length hinv.sent
  rw [List.length_map, List.length_range] at hl
  rw [List.length_append, hl, List.length_singleton]
  have := hinv.pos_lt
  by_contra hge
  have hk1 : s.position = k - 1 := by omega
  have := hinv.lo2 (by omega)
  rw [hk1] at this
  omega

/-- C82: a single node gets all records, whatever blank lines there are. -/
theorem C82_single (overlap : Nat) (lines : List (Option α)) : readFile 1 overlap lines = some [(0, lines.reduceOption)] := by
  have hle := List.reduceOption_length_le lines
  have h : ∀ m, m ≤ lines.reduceOption.length →
      (lines.reduceOption.take m).foldlM (step 1 (lines.length / 1) overlap (lines.length - lines.length / 1 * 1))
        ({} : State α) = some { buffer := lines.reduceOption.take m } := by
    intro m
    induction m with
    | zero => intro _; simp
    | succ m ih =>
      intro hm
      rw [List.take_succ_eq_append_getElem (by omega), List.foldlM_append, ih (by omega)]
      have : min m lines.reduceOption.length < lines.length := by omega
      simp [step, this]
  have := h _ le_rfl
  rw [List.take_length] at this
  simp only [readFile, this, Option.bind_eq_bind, Option.bind_some]
  simp [sendNext]

/-- C82, exactly: with at least as many lines per node as the pattern is long, every node gets its window of the records if and only if the
blank lines do not change the quotient (`C05`: and the remainder is smaller than the pattern). -/
theorem C82_iff {lines : List (Option α)} {k L : Nat} (hk : 1 < k) (hL1 : 1 ≤ L) (hLp : L ≤ lines.length / k) :
    readFile k (L - 1) lines = some ((List.range k).map (fun i => (i, window lines.reduceOption k L i))) ↔
      lines.reduceOption.length % k + blanks lines < k ∧ lines.reduceOption.length % k ≤ L - 1 := by
  have hb := blanks_add lines
  set rows := lines.reduceOption with hrows
  set N := rows.length with hN
  have hdiv : N = N / k * k + N % k := by
    have := Nat.div_add_mod N k; rw [Nat.mul_comm] at this; omega
  have hmod : N % k < k := Nat.mod_lt _ (by omega)
  have hq : N % k + blanks lines < k ↔ lines.length / k = N / k := by
    rw [← hb]
    constructor
    · intro h
      rw [show N + blanks lines = (N % k + blanks lines) + N / k * k by omega, Nat.add_mul_div_right _ _ (by omega), Nat.div_eq_of_lt h,
        Nat.zero_add]
    · intro h
      by_contra hc
      have : (N / k + 1) * k ≤ N + blanks lines := by rw [Nat.add_mul, Nat.one_mul]; omega
      have := (Nat.le_div_iff_mul_le (by omega : 0 < k)).2 this
      omega
  rw [hq]
  have hcomm : N / k * k = k * (N / k) := Nat.mul_comm _ _
  have hk1 : k * (N / k) = (k - 1) * (N / k) + N / k := by
    obtain ⟨j, rfl⟩ : ∃ j, k = j + 1 := ⟨k - 1, by omega⟩
    rw [Nat.add_sub_cancel, Nat.add_mul, Nat.one_mul]
  have hNN : lines.reduceOption.length = N := rfl
  constructor
  · intro h
    obtain ⟨s, hinv, hmsgs⟩ := readFile_inv hk hL1 hLp h
    have hl := congrArg List.length hinv.sent
    rw [List.length_map, List.length_range] at hl
    have hpos : s.position = k - 1 := by
      have := congrArg List.length hmsgs
      rw [List.length_append, hl, List.length_map, List.length_range, List.length_singleton] at this
      omega
    have hle := Nat.div_le_div_right (c := k) (show N ≤ lines.length by omega)
    have heq : lines.length / k = N / k := by
      by_contra hne
      have h0 := congrArg (fun l => (l[0]?).map (fun x => x.2.length)) hmsgs
      obtain ⟨j, hj⟩ : ∃ j, k = j + 1 + 1 := ⟨k - 2, by omega⟩
      have hlo := hinv.lo2 (by omega)
      have hone : 1 * (lines.length / k) ≤ s.position * (lines.length / k) := Nat.mul_le_mul_right _ (by omega)
      rw [hinv.sent, hpos] at h0
      rw [List.getElem?_append_left (by simp; omega)] at h0
      simp only [List.getElem?_map, List.getElem?_range (show 0 < k by omega), List.getElem?_range (show 0 < k - 1 by omega), Option.map_some,
        Option.some.injEq, window, Nat.zero_mul, Nat.zero_add, Nat.one_mul] at h0
      rw [fromTo_length _ (by omega), fromTo_length _ (by omega), show rows.length = N from rfl] at h0
      omega
    refine ⟨heq, ?_⟩
    have := hinv.hi
    rw [heq, hpos] at this
    omega
  · rintro ⟨heq, hr⟩
    rw [C82_windows hk hL1 hLp (by rw [heq]; omega) (by rw [heq]; omega)]
    congr 1
    apply List.map_congr_left
    intro i _
    unfold windowOf window
    rw [heq]

/-- C82: otherwise the nodes number their points wrongly: node `i` begins with record `i * p` for the quotient `p` of the lines, but numbers it
with the quotient of the records (rotation/mod.rs lines 232-244; the number of records is what the statistics report, C09). -/
theorem C82_misnumbered {lines : List (Option α)} {k L : Nat} (hk : 1 < k) (hL1 : 1 ≤ L) (hLp : L ≤ lines.length / k)
    (hlo : (k - 1) * (lines.length / k) + L ≤ lines.reduceOption.length)
    (hhi : lines.reduceOption.length ≤ k * (lines.length / k) + (L - 1))
    (hb : k ≤ lines.reduceOption.length % k + blanks lines) {i : Nat} (hi0 : 0 < i) (hi : i < k) :
    ∃ rows r, readFile k (L - 1) lines = some rows ∧ (rows[i]?).bind (fun x => x.2.head?) = lines.reduceOption[r]? ∧
      r < lines.reduceOption.length ∧ Transposition.rangeStart (lines.reduceOption.length / k) i < r := by
  have hle : i * (lines.length / k) ≤ (k - 1) * (lines.length / k) := Nat.mul_le_mul_right _ (by omega)
  refine ⟨_, i * (lines.length / k), C82_windows hk hL1 hLp hlo hhi, ?_, ?_, ?_⟩
  · rw [List.getElem?_map, List.getElem?_range hi]
    simp only [Option.map_some, Option.bind_some, windowOf, rowsFromTo]
    rw [List.head?_drop, List.getElem?_take_of_lt]
    rw [Nat.add_mul, Nat.one_mul]
    omega
  · omega
  · unfold Transposition.rangeStart
    rw [Nat.mul_comm]
    refine Nat.mul_lt_mul_of_pos_left ?_ hi0
    have h1 := blanks_add lines
    rw [← h1]
    generalize lines.reduceOption.length = N at *
    have h2 := Nat.div_add_mod N k
    rw [Nat.lt_iff_add_one_le, Nat.le_div_iff_mul_le (by omega), Nat.add_mul, Nat.one_mul, Nat.mul_comm]
    omega

/-! ### Examples -/

/-- A blank line at the end of a file of six records on two nodes does no harm, on a file of seven it does: node 1 begins with record 4, which it
numbers 3, and all windows are well formed. -/
example : blanks [some 0, some 1, some 2, some 3, some 4, some 5, none] = 1 ∧
    readFile 2 1 [some 0, some 1, some 2, some 3, some 4, some 5, none] = some [(0, [0, 1, 2, 3]), (1, [3, 4, 5])] := by decide

example : readFile 2 1 [some 0, some 1, some 2, some 3, some 4, some 5, some 6, none] = some [(0, [0, 1, 2, 3, 4]), (1, [4, 5, 6])] := by decide

example : readFile 2 1 [some 0, some 1, some 2, some 3, some 4, some 5, some 6] = some [(0, [0, 1, 2, 3]), (1, [3, 4, 5, 6])] := by decide

/-- With six blank lines after six records node 1 gets nothing. -/
example : readFile 2 1 [some 0, some 1, some 2, some 3, some 4, some 5, none, none, none, none, none, none] =
    some [(0, [0, 1, 2, 3, 4, 5])] := by decide

end DataReader
end S2G
