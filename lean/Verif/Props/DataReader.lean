import Verif.Model.DataReader
import Mathlib.Tactic.Ring
import Mathlib.Tactic.Linarith

/-!
# C05, C06: partitioning of a CSV file
-/

namespace S2G
namespace DataReader
variable {α : Type}

/-- rows `a .. b` of the file. -/
def rowsFromTo (rows : List α) (a b : Nat) : List α := (rows.take b).drop a

theorem fromTo_succ (rows : List α) {a b : Nat} (hab : a ≤ b) (hb : b < rows.length) :
    rowsFromTo rows a b ++ [rows[b]] = rowsFromTo rows a (b + 1) := by
  unfold rowsFromTo
  rw [List.take_succ_eq_append_getElem hb, List.drop_append_of_le_length]
  simp; omega

theorem fromTo_length (rows : List α) {a b : Nat} (hb : b ≤ rows.length) :
    (rowsFromTo rows a b).length = b - a := by
  simp [rowsFromTo]; omega

theorem fromTo_append (rows : List α) {a b c : Nat} (hab : a ≤ b) (hbc : b ≤ c) (_hc : c ≤ rows.length) :
    rowsFromTo rows a b ++ rowsFromTo rows b c = rowsFromTo rows a c := by
  unfold rowsFromTo
  have : rows.take b = (rows.take c).take b := by rw [List.take_take, Nat.min_eq_left hbc]
  rw [this]
  generalize rows.take c = l
  rw [List.drop_take, show List.drop b l = List.drop (b - a) (List.drop a l) by
    rw [List.drop_drop]; congr 1; omega]
  exact List.take_append_drop _ _

theorem fromTo_empty (rows : List α) {a b : Nat} (hb : b ≤ a) : rowsFromTo rows a b = [] := by
  unfold rowsFromTo; apply List.drop_eq_nil_of_le; simp; omega

/-- Specification: the window of node `i`: rows `i*p .. min((i+1)*p + L - 1, N)`. -/
def window (rows : List α) (k L i : Nat) : List α :=
  rowsFromTo rows (i * (rows.length / k))
    (min ((i + 1) * (rows.length / k) + (L - 1)) rows.length)

/-- Loop invariant after `m` records, while receiver `s.position` is filled. -/
structure Inv (rows : List α) (p L m : Nat) (k : Nat) (s : State α) : Prop where
  pos_lt : s.position < k
  lo : s.position * p ≤ m
  lo2 : 0 < s.position → s.position * p + L ≤ m
  hi : m ≤ s.position * p + p + (L - 1)
  buf : s.buffer = rowsFromTo rows (s.position * p) (min m (s.position * p + p))
  ovl : s.overlapBuffer = rowsFromTo rows (s.position * p + p) m
  sent : s.sent = (List.range s.position).map
    (fun i => (i, rowsFromTo rows (i * p) ((i + 1) * p + (L - 1))))

theorem inv_send {rows : List α} {p L m k : Nat} {s : State α} (h : Inv rows p L m k s)
    (hm : m ≤ rows.length) :
    ∃ s', sendNext k s = some s' ∧ s'.position = s.position + 1 ∧
      s'.sent = s.sent ++ [(s.position, rowsFromTo rows (s.position * p) m)] ∧
      s'.buffer = s.buffer ∧ s'.overlapBuffer = s.overlapBuffer := by
  refine ⟨{ s with
    sent := s.sent ++ [(s.position, s.buffer ++ s.overlapBuffer)]
    position := s.position + 1 },
    by simp only [sendNext, ge_iff_le, Nat.not_le.2 h.pos_lt, if_false], rfl, ?_, rfl, rfl⟩
  simp only
  congr 3
  rw [h.buf, h.ovl]
  rcases Nat.le_total m (s.position * p + p) with h1 | h1
  · rw [Nat.min_eq_left h1, fromTo_empty rows h1, List.append_nil]
  · rw [Nat.min_eq_right h1, fromTo_append rows (by omega) h1 hm]

/-- One record: the invariant is kept, or the last receiver has been served and a further record was read. -/
theorem inv_step {rows : List α} {p L m k lo : Nat} (hk : 1 < k) (hL1 : 1 ≤ L) (hLp : L ≤ p)
    {s : State α} (h : Inv rows p L m k s) (hm : m < rows.length) :
    ∃ s', step k p (L - 1) lo s rows[m] = some s' ∧
      (Inv rows p L (m + 1) k s' ∨ (s'.position = k ∧ m = k * p + (L - 1))) := by
  have hbl : s.buffer.length = min m (s.position * p + p) - s.position * p := by
    rw [h.buf, fromTo_length]; omega
  have hol : s.overlapBuffer.length = m - (s.position * p + p) := by
    rw [h.ovl, fromTo_length]; omega
  have hlo := h.lo
  have hhi := h.hi
  have hpos := h.pos_lt
  by_cases h1 : m < s.position * p + p
  · refine ⟨{ s with buffer := s.buffer ++ [rows[m]] }, ?_, Or.inl ?_⟩
    · have : s.buffer.length < p := by omega
      simp [step, this]
    · refine ⟨hpos, by simp only; omega, fun hp => by have := h.lo2 hp; simp only at *; omega,
        by simp only; omega, ?_, ?_, h.sent⟩
      · simp only [h.buf]
        rw [Nat.min_eq_left (by omega), Nat.min_eq_left (by omega), fromTo_succ rows hlo hm]
      · simp only [h.ovl]
        rw [fromTo_empty rows (by omega), fromTo_empty rows (by omega)]
  · have hnb : ¬ s.buffer.length < p := by omega
    have hd : decide (s.position ≥ k) = false := by simp; omega
    by_cases h2 : m < s.position * p + p + (L - 1)
    · refine ⟨{ s with overlapBuffer := s.overlapBuffer ++ [rows[m]] }, ?_, Or.inl ?_⟩
      · have : s.overlapBuffer.length < L - 1 := by omega
        simp only [step, hnb, if_false, hd]
        rw [if_pos ⟨hk, Or.inl ⟨this, trivial⟩⟩]
      · refine ⟨hpos, by simp only; omega, fun hp => by have := h.lo2 hp; simp only at *; omega,
          by simp only; omega, ?_, ?_, h.sent⟩
        · simp only [h.buf]
          rw [Nat.min_eq_right (by omega), Nat.min_eq_right (by omega)]
        · simp only [h.ovl]
          rw [fromTo_succ rows (by omega) hm]
    · have hmeq : m = s.position * p + p + (L - 1) := by omega
      obtain ⟨s', hs', hp', hsent', _, _⟩ := inv_send h (by omega)
      refine ⟨{ s' with buffer := s.overlapBuffer ++ [rows[m]], overlapBuffer := [] }, ?_, ?_⟩
      · have : ¬ s.overlapBuffer.length < L - 1 := by omega
        simp only [step, hnb, if_false, hd]
        rw [if_neg (by rintro ⟨_, h | h⟩; exact this h.1; simp at h)]
        simp [hs']
      · have hmul : (s.position + 1) * p = s.position * p + p := by ring
        by_cases hlast : s.position + 1 = k
        · refine Or.inr ⟨by simp [hp', hlast], ?_⟩
          rw [← hlast, hmul]; exact hmeq
        · refine Or.inl ⟨?_, ?_, ?_, ?_, ?_, ?_, ?_⟩
          · simp only [hp']; omega
          · simp only [hp', hmul]; omega
          · intro _; simp only [hp', hmul]; omega
          · simp only [hp', hmul]; omega
          · simp only [hp', hmul, h.ovl]
            rw [fromTo_succ rows (by omega) hm, Nat.min_eq_left (by omega)]
          · simp only [hp', hmul]; rw [fromTo_empty rows (by omega)]
          · simp only [hp', hsent', h.sent, List.range_succ, List.map_append, List.map_cons,
              List.map_nil]
            rw [hmul, ← hmeq]

theorem inv_init (rows : List α) (p L k : Nat) (hk : 0 < k) :
    Inv rows p L 0 k ({} : State α) := by
  refine ⟨hk, by simp, by simp, by simp, ?_, ?_, rfl⟩
  · simp [rowsFromTo]
  · simp [rowsFromTo]

/-- Once the iterator is exhausted, nothing but the panic is left. -/
theorem exhausted_fold (k p o lo : Nat) (rs : List α) : ∀ s : State α, k ≤ s.position →
    (rs.foldlM (step k p o lo) s).bind (sendNext k) = none := by
  induction rs with
  | nil => intro s hs; simp [sendNext, hs]
  | cons r rs ih =>
    intro s hs
    simp only [List.foldlM_cons, Option.bind_eq_bind]
    cases hst : step k p o lo s r with
    | none => rfl
    | some s' =>
      simp only [Option.bind_some]
      apply ih
      revert hst
      simp only [step]
      split
      · intro h; cases h; exact hs
      · split
        · intro h; cases h; exact hs
        · simp [sendNext, hs]

/-- Run over a prefix of the file. -/
theorem prefix_run {rows : List α} {p L k lo : Nat} (hk : 1 < k) (hL1 : 1 ≤ L) (hLp : L ≤ p) :
    ∀ m, m ≤ rows.length →
    (∃ s, (rows.take m).foldlM (step k p (L - 1) lo) ({} : State α) = some s ∧ Inv rows p L m k s) ∨
    (k * p + (L - 1) < m ∧
      ((rows.take m).foldlM (step k p (L - 1) lo) ({} : State α)).bind (sendNext k) = none) := by
  intro m
  induction m with
  | zero => intro _; exact Or.inl ⟨{}, by simp, inv_init rows p L k (by omega)⟩
  | succ m ih =>
    intro hm
    rw [List.take_succ_eq_append_getElem (by omega)]
    rcases ih (by omega) with ⟨s, hs, hinv⟩ | ⟨hlt, hnone⟩
    · obtain ⟨s', hs', hcase⟩ := inv_step (lo := lo) hk hL1 hLp hinv (by omega)
      have hrun : (rows.take m ++ [rows[m]]).foldlM (step k p (L - 1) lo) ({} : State α) = some s' := by
        rw [List.foldlM_append, hs]; simp [hs']
      rcases hcase with h | ⟨h1, h2⟩
      · exact Or.inl ⟨s', hrun, h⟩
      · refine Or.inr ⟨by omega, ?_⟩
        rw [hrun]; simp [sendNext, h1]
    · refine Or.inr ⟨by omega, ?_⟩
      rw [List.foldlM_append]
      cases hr : (rows.take m).foldlM (step k p (L - 1) lo) ({} : State α) with
      | none => rfl
      | some s =>
        rw [hr] at hnone
        simp only [Option.bind_some, sendNext] at hnone
        split at hnone
        · rename_i hge
          exact exhausted_fold k p (L - 1) lo [rows[m]] s hge
        · simp at hnone

/-- C05a: with at least two nodes, partitions of at least `L` rows and a remainder of at most `L - 1` rows, node `i`
receives exactly one message, with its window of rows, in node order. -/
theorem C05_windows {rows : List α} {k L : Nat} (hk : 1 < k) (hL1 : 1 ≤ L)
    (hLp : L ≤ rows.length / k) (hr : rows.length % k ≤ L - 1) :
    readCsv k (L - 1) rows = some ((List.range k).map (fun i => (i, window rows k L i))) := by
  have hN : rows.length = rows.length / k * k + rows.length % k := by
    have := Nat.div_add_mod rows.length k; rw [Nat.mul_comm] at this; omega
  set p := rows.length / k with hp
  have hcomm : p * k = k * p := Nat.mul_comm _ _
  rcases prefix_run (rows := rows) (lo := rows.length - p * k) hk hL1 hLp rows.length le_rfl with
    ⟨s, hs, hinv⟩ | ⟨hlt, _⟩
  · have hpos : s.position = k - 1 := by
      have h1 := hinv.hi
      have h2 := hinv.pos_lt
      by_contra hne
      have h3 : (s.position + 2) * p ≤ k * p := Nat.mul_le_mul_right p (by omega)
      have h4 : (s.position + 2) * p = s.position * p + p + p := by ring
      omega
    obtain ⟨s', hs', _, hsent, _, _⟩ := inv_send hinv le_rfl
    rw [List.take_length] at hs
    simp only [readCsv, ← hp, hs, Option.bind_eq_bind, Option.bind_some, hs']
    congr 1
    rw [hsent, hinv.sent, hpos]
    conv_rhs => rw [show k = (k - 1) + 1 by omega, List.range_succ, List.map_append]
    simp only [List.map_cons, List.map_nil]
    have hkp : (k - 1 + 1) * p = k * p := by rw [Nat.sub_add_cancel (by omega)]
    congr 1
    · apply List.map_congr_left
      intro i hi
      simp only [List.mem_range] at hi
      simp only [window]
      have h3 : (i + 2) * p ≤ k * p := Nat.mul_le_mul_right p (by omega)
      have h4 : (i + 2) * p = (i + 1) * p + p := by ring
      rw [show rows.length / (k - 1 + 1) = p by rw [Nat.sub_add_cancel (by omega)],
        Nat.min_eq_left (by omega)]
    · simp only [window]
      rw [show rows.length / (k - 1 + 1) = p by rw [Nat.sub_add_cancel (by omega)],
        Nat.min_eq_right (by omega)]
  · omega

/-- C05b: if the remainder of the division exceeds `L - 1`, reading the file crashes. -/
theorem C05_crash {rows : List α} {k L : Nat} (hk : 1 < k) (hL1 : 1 ≤ L)
    (hLp : L ≤ rows.length / k) (hr : L - 1 < rows.length % k) :
    readCsv k (L - 1) rows = none := by
  have hN : rows.length = rows.length / k * k + rows.length % k := by
    have := Nat.div_add_mod rows.length k; rw [Nat.mul_comm] at this; omega
  set p := rows.length / k with hp
  have hcomm : p * k = k * p := Nat.mul_comm _ _
  rcases prefix_run (rows := rows) (lo := rows.length - p * k) hk hL1 hLp rows.length le_rfl with
    ⟨s, hs, hinv⟩ | ⟨_, hnone⟩
  · have h1 := hinv.hi
    have h3 : (s.position + 1) * p ≤ k * p := Nat.mul_le_mul_right p hinv.pos_lt
    have h4 : (s.position + 1) * p = s.position * p + p := by ring
    omega
  · rw [List.take_length] at hnone
    simp only [readCsv, ← hp, Option.bind_eq_bind]
    rw [← Option.bind_assoc, hnone]; rfl

/-- C05c: concrete crash: 17 rows, 3 nodes, pattern length 2. -/
theorem C05_counterexample : readCsv 3 1 (List.range 17) = none := by decide

/-- C05d: when the pattern length exceeds the partition length, nodes can be left without data: 4 rows, 2 nodes,
pattern length 3, all rows go to node 0. -/
theorem C05_short_partition_counterexample :
    readCsv 2 2 [10, 11, 12, 13] = some [(0, [10, 11, 12, 13])] := by decide

/-! ### Partitions shorter than the pattern -/

/-- While the first receiver is filled, nothing is assumed about `L`. -/
theorem first_run {rows : List α} {p L k lo : Nat} (hk : 1 < k) : ∀ m, m ≤ rows.length → m ≤ p + (L - 1) →
    (rows.take m).foldlM (step k p (L - 1) lo) ({} : State α) =
      some { buffer := rows.take (min m p), overlapBuffer := rowsFromTo rows p m } := by
  intro m
  induction m with
  | zero => intro _ _; simp [rowsFromTo]
  | succ m ih =>
    intro hm hp
    rw [List.take_succ_eq_append_getElem (by omega), List.foldlM_append, ih (by omega) (by omega)]
    simp only [Option.bind_eq_bind, Option.bind_some, List.foldlM_cons, List.foldlM_nil]
    by_cases h1 : m < p
    · have hlen : (rows.take (min m p)).length < p := by simp; omega
      simp only [step, hlen, if_true, Option.pure_def, Option.bind_some]
      rw [Nat.min_eq_left (by omega), Nat.min_eq_left (by omega), fromTo_empty rows (by omega),
        fromTo_empty rows (by omega), List.take_succ_eq_append_getElem (by omega)]
    · have hlen : ¬ (rows.take (min m p)).length < p := by simp; omega
      have hd : decide (0 ≥ k) = false := by simp; omega
      have hol : (rowsFromTo rows p m).length < L - 1 := by rw [fromTo_length rows (by omega)]; omega
      simp only [step, hlen, if_false, hd]
      rw [if_pos ⟨hk, Or.inl ⟨hol, trivial⟩⟩]
      simp only [Option.pure_def, Option.bind_some]
      rw [Nat.min_eq_right (by omega), Nat.min_eq_right (by omega), fromTo_succ rows (by omega) (by omega)]

/-- Loop invariant after `m` records for `p < L`: only the lengths. -/
structure Short (p L m k : Nat) (s : State α) : Prop where
  pos_lt : s.position < k
  lo : 0 < s.position → p + s.position * L ≤ m
  hi : m + 1 ≤ p + s.position * L + L
  buf : s.buffer.length = if s.position = 0 then min m p else L
  ovl : s.overlapBuffer.length = m - (p + s.position * L)
  sent : s.sent.map (fun x => x.2.length) = (List.range s.position).map (fun i => if i = 0 then p + (L - 1) else 2 * L - 1)

theorem short_step {p L m k lo : Nat} (hk : 1 < k) (hL1 : 1 ≤ L) (hLp : p < L) {s : State α} (h : Short p L m k s) (r : α) :
    ∃ s', step k p (L - 1) lo s r = some s' ∧
      (Short p L (m + 1) k s' ∨ (s'.position = k ∧ p + k * L ≤ m + 1)) := by
  have hpos := h.pos_lt
  have hhi := h.hi
  have hbuf := h.buf
  have hovl := h.ovl
  by_cases h1 : s.buffer.length < p
  · have h0 : s.position = 0 := by
      by_contra hne
      rw [if_neg hne] at hbuf; omega
    rw [if_pos h0] at hbuf
    have hz : s.position * L = 0 := by rw [h0, Nat.zero_mul]
    refine ⟨{ s with buffer := s.buffer ++ [r] }, by simp [step, h1], Or.inl
      ⟨hpos, fun hp => by simp only at hp; omega, by simp only; omega, ?_, by simp only; omega, h.sent⟩⟩
    simp only [h0, if_true, List.length_append, List.length_singleton]; omega
  · have hd : decide (s.position ≥ k) = false := by simp; omega
    have hmlo : p + s.position * L ≤ m := by
      rcases Nat.eq_zero_or_pos s.position with h0 | h0
      · rw [if_pos h0] at hbuf
        have hz : s.position * L = 0 := by rw [h0, Nat.zero_mul]
        omega
      · exact h.lo h0
    by_cases h2 : s.overlapBuffer.length < L - 1
    · refine ⟨{ s with overlapBuffer := s.overlapBuffer ++ [r] }, ?_, Or.inl
        ⟨hpos, fun hp => by have := h.lo hp; simp only at *; omega, by simp only; omega, ?_, ?_, h.sent⟩⟩
      · simp only [step, h1, if_false, hd]
        rw [if_pos ⟨hk, Or.inl ⟨h2, trivial⟩⟩]
      · simp only
        rw [hbuf]; split <;> omega
      · simp only [List.length_append, List.length_singleton]; omega
    · have hm : m + 1 = p + s.position * L + L := by omega
      have hmul : (s.position + 1) * L = s.position * L + L := by ring
      refine ⟨{ buffer := s.overlapBuffer ++ [r], overlapBuffer := [], position := s.position + 1,
                sent := s.sent ++ [(s.position, s.buffer ++ s.overlapBuffer)] }, ?_, ?_⟩
      · simp only [step, h1, if_false, hd]
        rw [if_neg (by rintro ⟨_, h | h⟩; exact h2 h.1; simp at h)]
        simp [sendNext, Nat.not_le.2 hpos]
      · by_cases hlast : s.position + 1 = k
        · refine Or.inr ⟨hlast, ?_⟩
          rw [← hlast, hmul]; omega
        · refine Or.inl ⟨by simp only; omega, fun _ => by simp only [hmul]; omega, by simp only [hmul]; omega, ?_, ?_, ?_⟩
          · simp only [List.length_append, List.length_singleton]
            rw [if_neg (by omega)]; omega
          · simp only [hmul, List.length_nil]; omega
          · simp only [List.map_append, h.sent, List.range_succ, List.map_cons, List.map_nil]
            congr 2
            simp only [List.length_append, hbuf]
            split <;> omega

theorem short_run {rows : List α} {p L k lo : Nat} (hk : 1 < k) (hL1 : 1 ≤ L) (hLp : p < L) (m : Nat) (hm : m ≤ rows.length) :
    (∃ s, (rows.take m).foldlM (step k p (L - 1) lo) ({} : State α) = some s ∧ Short p L m k s) ∨
    ((rows.take m).foldlM (step k p (L - 1) lo) ({} : State α)).bind (sendNext k) = none := by
  induction m with
  | zero => exact Or.inl ⟨{}, by simp, ⟨by simp; omega, by simp, by simp; omega, by simp, by simp, by simp⟩⟩
  | succ m ih =>
    rw [List.take_succ_eq_append_getElem (by omega)]
    rcases ih (by omega) with ⟨s, hs, hinv⟩ | hnone
    · obtain ⟨s', hs', hcase⟩ := short_step (lo := lo) hk hL1 hLp hinv rows[m]
      have hrun : (rows.take m ++ [rows[m]]).foldlM (step k p (L - 1) lo) ({} : State α) = some s' := by
        rw [List.foldlM_append, hs]; simp [hs']
      rcases hcase with h | ⟨h1, _⟩
      · exact Or.inl ⟨s', hrun, h⟩
      · exact Or.inr (by rw [hrun]; simp [sendNext, h1])
    · refine Or.inr ?_
      rw [List.foldlM_append]
      cases hr : (rows.take m).foldlM (step k p (L - 1) lo) ({} : State α) with
      | none => rfl
      | some s =>
        rw [hr] at hnone
        simp only [Option.bind_some, sendNext] at hnone
        split at hnone
        · rename_i hge
          exact exhausted_fold k p (L - 1) lo [rows[m]] s hge
        · simp at hnone

/-- The one case in which a pattern longer than the partitions does no harm: two nodes and `2 * p + 1` rows. -/
theorem two_nodes_odd {rows : List α} {p : Nat} (hN : rows.length = 2 * p + 1) :
    readCsv 2 p rows = some [(0, rows.take (2 * p)), (1, rows.drop p)] := by
  have hp : rows.length / 2 = p := by omega
  have h := first_run (rows := rows) (p := p) (L := p + 1) (k := 2) (lo := rows.length - p * 2) (by omega) (2 * p) (by omega)
    (by omega)
  simp only [Nat.add_sub_cancel] at h
  have hlast : 2 * p < rows.length := by omega
  have hall : rows.take (2 * p) ++ [rows[2 * p]] = rows := by
    rw [← List.take_succ_eq_append_getElem hlast]
    exact List.take_of_length_le (by omega)
  have hb : rows.take (min (2 * p) p) ++ rowsFromTo rows p (2 * p) = rows.take (2 * p) := by
    have := fromTo_append rows (a := 0) (b := p) (c := 2 * p) (by omega) (by omega) (by omega)
    simp only [rowsFromTo, List.drop_zero] at this
    rw [Nat.min_eq_right (by omega)]
    exact this
  have ho : rowsFromTo rows p (2 * p) ++ [rows[2 * p]] = rows.drop p := by
    rw [fromTo_succ rows (by omega) hlast, rowsFromTo, List.take_of_length_le (by omega)]
  have hl1 : ¬ (rows.take (min (2 * p) p)).length < p := by simp; omega
  have hl2 : (rowsFromTo rows p (2 * p)).length = p := by rw [fromTo_length rows (by omega)]; omega
  have hrun : rows.foldlM (step 2 p p (rows.length - p * 2)) ({} : State α) =
      some { buffer := rows.drop p, overlapBuffer := [], position := 1, sent := [(0, rows.take (2 * p))] } := by
    have : (rows.take (2 * p) ++ [rows[2 * p]]).foldlM (step 2 p p (rows.length - p * 2)) ({} : State α) =
      some { buffer := rows.drop p, overlapBuffer := [], position := 1, sent := [(0, rows.take (2 * p))] } := by
      rw [List.foldlM_append, h]
      simp only [Option.bind_eq_bind, Option.bind_some, List.foldlM_cons, List.foldlM_nil, step, hl1, if_false]
      rw [if_neg (by simp [hl2])]
      simp [sendNext, hb, ho]
    rwa [hall] at this
  simp only [readCsv, hp, Option.bind_eq_bind, hrun, Option.bind_some]
  simp [sendNext]

/-- C05: exactly when every node gets its window: the partitions have at least the length of the pattern and the remainder is
smaller than it, or there are two nodes and the pattern is as long as the second part of an odd number of rows. -/
theorem C05_windows_iff {rows : List α} {k L : Nat} (hk : 1 < k) (hL1 : 1 ≤ L) :
    readCsv k (L - 1) rows = some ((List.range k).map (fun i => (i, window rows k L i))) ↔
      (L ≤ rows.length / k ∧ rows.length % k ≤ L - 1) ∨
        (k = 2 ∧ 1 < rows.length ∧ rows.length % 2 = 1 ∧ L = rows.length / 2 + 1) := by
  have hN : rows.length = rows.length / k * k + rows.length % k := by
    have := Nat.div_add_mod rows.length k; rw [Nat.mul_comm] at this; omega
  have hmod : rows.length % k < k := Nat.mod_lt _ (by omega)
  by_cases hLp : L ≤ rows.length / k
  · by_cases hr : rows.length % k ≤ L - 1
    · exact ⟨fun _ => Or.inl ⟨hLp, hr⟩, fun _ => C05_windows hk hL1 hLp hr⟩
    · rw [C05_crash hk hL1 hLp (by omega)]
      refine ⟨fun h => by simp at h, ?_⟩
      rintro (h | ⟨rfl, h1, h, h'⟩)
      · omega
      · omega
  · constructor
    · intro hread
      right
      set p := rows.length / k with hp
      rcases short_run (rows := rows) (p := p) (lo := rows.length - p * k) hk hL1 (by omega) rows.length le_rfl with
        ⟨s, hs, hinv⟩ | hnone
      · rw [List.take_length] at hs
        simp only [readCsv, ← hp, hs, Option.bind_eq_bind, Option.bind_some, sendNext, ge_iff_le,
          Nat.not_le.2 hinv.pos_lt, if_false, Option.some.injEq] at hread
        have hlens := congrArg (List.map (fun x : Nat × List α => x.2.length)) hread
        rw [List.map_append, hinv.sent] at hlens
        have hpos : s.position + 1 = k := by
          have := congrArg List.length hlens
          simpa using this
        have hlo := hinv.lo (by omega)
        have hmul : p + s.position * L ≤ p * k + rows.length % k := by omega
        have hk1 : s.position = k - 1 := by omega
        rw [hk1] at hmul
        have hge : (k - 1) * (p + 1) ≤ (k - 1) * L := Nat.mul_le_mul_left _ (by omega)
        have e1 : (k - 1) * (p + 1) = (k - 1) * p + (k - 1) := by ring
        have e2 : p * k = (k - 1) * p + p := by
          conv_lhs => rw [show k = (k - 1) + 1 by omega]
          ring
        have hL : L = p + 1 := by
          by_contra hne
          have : (k - 1) * (p + 2) ≤ (k - 1) * L := Nat.mul_le_mul_left _ (by omega)
          have e3 : (k - 1) * (p + 2) = (k - 1) * p + (k - 1) + (k - 1) := by ring
          omega
        have hrem : rows.length % k = k - 1 := by omega
        by_cases hk2 : k = 2
        · subst hk2
          refine ⟨rfl, ?_, by omega, hL⟩
          by_contra hle
          have h1 := congrArg (fun l => l[1]?) hlens
          have hb := hinv.buf
          rw [if_neg (by omega)] at hb
          rw [List.getElem?_append_right (by simp; omega)] at h1
          simp only [List.map_map, List.getElem?_map, List.getElem?_range hk, Option.map_some, Function.comp, window] at h1
          rw [fromTo_length rows (by omega), ← hp] at h1
          have hp1 : s.position = 1 := by omega
          rw [hp1] at h1
          simp at h1
          omega
        · exfalso
          have h1 := congrArg (fun l => l[1]?) hlens
          have hp1 : s.position = (s.position - 2) + 1 + 1 := by omega
          rw [hp1] at h1
          simp only [List.map_map] at h1
          rw [List.getElem?_append_left (by simp)] at h1
          have hk1lt : 1 < k := hk
          simp only [List.getElem?_map, List.getElem?_range hk1lt,
            List.getElem?_range (show 1 < s.position - 2 + 1 + 1 by omega), Option.map_some, Function.comp, window,
            Option.some.injEq] at h1
          have e4 : (k - 1) * p = (k - 3) * p + 2 * p := by
            rw [show k - 1 = (k - 3) + 2 by omega]; ring
          rw [fromTo_length rows (by omega), ← hp] at h1
          simp at h1
          omega
      · rw [List.take_length] at hnone
        simp only [readCsv, ← hp, Option.bind_eq_bind] at hread
        rw [← Option.bind_assoc, hnone] at hread
        simp at hread
    · rintro (h | ⟨rfl, h1, h, h'⟩)
      · omega
      · have hlen : rows.length = 2 * (rows.length / 2) + 1 := by omega
        set p := rows.length / 2 with hp
        rw [h', Nat.add_sub_cancel, two_nodes_odd hlen]
        simp only [window, ← hp, List.range_succ, List.range_zero, List.map_nil, List.map_cons,
          List.nil_append, List.singleton_append]
        have w0 : rowsFromTo rows 0 (min (p + p) rows.length) = rows.take (2 * p) := by
          simp only [rowsFromTo, List.drop_zero]
          congr 1; omega
        have w1 : rowsFromTo rows p (min (2 * p + p) rows.length) = rows.drop p := by
          rw [rowsFromTo, List.take_of_length_le (by omega)]
        simp [w0, w1]

/-- C05: in the remaining cases the code crashes, or some node gets no data or wrong data. With partitions of at least the length
of the pattern it is always a crash (`C05_crash`). -/
theorem C05_no_data {rows : List α} {k L : Nat} (hk : 1 < k) (hL1 : 1 ≤ L) (hp : rows.length / k < L)
    (hshort : rows.length < rows.length / k + (k - 1) * L) {msgs : List (Nat × List α)}
    (h : readCsv k (L - 1) rows = some msgs) : msgs.length < k := by
  set p := rows.length / k with hpdef
  rcases short_run (rows := rows) (p := p) (lo := rows.length - p * k) hk hL1 hp rows.length le_rfl with ⟨s, hs, hinv⟩ | hnone
  · rw [List.take_length] at hs
    simp only [readCsv, ← hpdef, hs, Option.bind_eq_bind, Option.bind_some, sendNext, ge_iff_le,
      Nat.not_le.2 hinv.pos_lt, if_false, Option.some.injEq] at h
    rw [← h, List.length_append, List.length_singleton]
    have hl : s.sent.length = s.position := by
      have := congrArg List.length hinv.sent
      simpa using this
    rw [hl]
    have := hinv.pos_lt
    by_contra hge
    have hk1 : s.position = k - 1 := by omega
    have := hinv.lo (by omega)
    rw [hk1] at this
    omega
  · rw [List.take_length] at hnone
    simp only [readCsv, ← hpdef, Option.bind_eq_bind] at h
    rw [← Option.bind_assoc, hnone] at h
    simp at h

/-- C06: a single node receives the complete file in one message, for every overlap. -/
theorem C06_single_node (overlap : Nat) (rows : List α) :
    readCsv 1 overlap rows = some [(0, rows)] := by
  have h : ∀ m, m ≤ rows.length →
      (rows.take m).foldlM (step 1 (rows.length / 1) overlap (rows.length - rows.length / 1 * 1))
        ({} : State α) = some { buffer := rows.take m } := by
    intro m
    induction m with
    | zero => intro _; simp
    | succ m ih =>
      intro hm
      rw [List.take_succ_eq_append_getElem (by omega), List.foldlM_append, ih (by omega)]
      have : min m rows.length < rows.length := by omega
      simp [step, this]
  have := h rows.length le_rfl
  rw [List.take_length] at this
  simp only [readCsv, this, Option.bind_eq_bind, Option.bind_some]
  simp [sendNext]

/-! Concrete instances: 13 rows, 3 nodes, pattern length 3. -/
example : readCsv 3 2 (List.range 13) =
    some [(0, [0, 1, 2, 3, 4, 5]), (1, [4, 5, 6, 7, 8, 9]), (2, [8, 9, 10, 11, 12])] := by decide
example : 1 < 3 ∧ 1 ≤ 3 ∧ 3 ≤ (List.range 13).length / 3 ∧ (List.range 13).length % 3 ≤ 3 - 1 := by decide
example : readCsv 2 3 (List.range 7) = some [(0, [0, 1, 2, 3, 4, 5]), (1, [3, 4, 5, 6])] := by decide
example : 1 < 2 ∧ 1 < (List.range 7).length ∧ (List.range 7).length % 2 = 1 ∧ 4 = (List.range 7).length / 2 + 1 := by decide
example : 1 < 2 ∧ (List.range 4).length / 2 < 3 ∧ (List.range 4).length < (List.range 4).length / 2 + (2 - 1) * 3 := by decide
example : 1 < 3 ∧ 1 ≤ 2 ∧ 2 ≤ (List.range 17).length / 3 ∧ 2 - 1 < (List.range 17).length % 3 := by decide

end DataReader
end S2G
