import Verif.Model.FloatWalk
import Verif.Props.FloatScore
import Verif.Props.Pipeline

/-!
# C92: behaviour which is seen once stands out

In single precision (C83) the score of a position is the negated mean, over the edges of its window, of how often the edge was walked
times (ways at its source minus one). After the first edge of the walk no summand is less than 1. Hence a window along a path which was
walked once, whose nodes have one way in and one way out, has the greatest score there is, 1 after normalisation. Two things spoil the
converse: the beginning of the walk, where the summand is 0, and nodes with many ways: an edge which was walked once can count more than
an edge which was walked many times.
-/

namespace S2G
namespace FloatRun
namespace Score

open Edges Weights Pipeline NodeEst SegNet

/-! ### The scores in all schedules -/

/-- What an edge contributes to the mean of a window: how often it was walked times (number of ways at its source - 1). -/
def share (E : List Edge) (e : Edge) : Nat := weightOf E e.edgeKey * (degreeOf E e.src.nodeKey - 1)

/-- The scores before normalisation: the negated mean of the shares of the window, rounded; without edges the score before. -/
def vector (E : List Edge) (q len : Nat) : List ℚ :=
  Scoring.carrySpec 0 ((List.range len).map (fun i => raw (weightOf E) (degreeOf E) (Scoring.windowSpec E 0 q i)))

theorem raw_none {w : EdgeKey → Nat} {d : NodeKey → Nat} {win : List Edge} : raw w d win = none ↔ win = [] := by
  unfold raw
  split <;> simp_all

theorem start_scores {p : Parameters} {points : Nat} {es : List Edge} (hs : es.Pairwise (fun a b => a.toId ≤ b.toId))
    (hid : ∀ e ∈ es, e.toId + 1 < points) (hpos : ∃ e ∈ es, e.toId ≠ 0) (hq : 1 ≤ p.queryLength) (ht : 1 ≤ p.nThreads)
    (hsl : p.nThreads + p.queryLength ≤ points)
    (hsm : ∀ i < points - p.queryLength, Small (weightOf es) (degreeOf es) (Scoring.windowSpec es 0 p.queryLength i)) :
    ∃ s0, start p points es = some s0 ∧ ∀ s, ParScore.Reachable s0 s →
      (delivered s = [] ∨ delivered s = [normalize (vector es p.queryLength (points - p.queryLength))]) ∧
      (s.pool = [] → delivered s = [normalize (vector es p.queryLength (points - p.queryLength))]) := by
  have hr : EdgesInTime.resultLength 1 0 points = some (points - 1) := by
    simp only [EdgesInTime.resultLength, checkedSub, Nat.sub_self, if_true]
    rw [if_pos (by omega)]
  unfold start
  rw [hr]
  simp only [Option.bind_eq_bind, Option.bind_some]
  obtain ⟨e0, he0, hne0⟩ := hpos
  rw [EdgesInTime.C47_count (List.pairwise_map.2 hs) (fun _ _ => Nat.zero_le _) (by
    intro x hx
    obtain ⟨e, he, rfl⟩ := List.mem_map.1 hx
    have := hid e he
    omega) (Or.inr ⟨_, List.mem_map_of_mem he0, hne0⟩)]
  simp only [Option.bind_some]
  have hscl : Scoring.scoreLength (EdgesInTime.spec 0 (points - 1) (es.map Edge.toId)) p.queryLength = some (points - p.queryLength) := by
    have hl : (EdgesInTime.spec 0 (points - 1) (es.map Edge.toId)).length = points - 1 := by simp [EdgesInTime.spec]
    simp only [Scoring.scoreLength, checkedSub, hl, Option.bind_eq_bind]
    rw [if_pos hq]
    simp only [Option.bind_some]
    rw [if_pos (by omega)]
    congr 1
    omega
  rw [hscl]
  simp only [Option.bind_some]
  set f : Nat → Option ℚ := fun i => raw (weightOf es) (degreeOf es) (Scoring.windowSpec es 0 p.queryLength i) with hf
  have hnone : ∀ i, f i = none ↔ ∀ e ∈ es, e.toId ≤ 0 + i := by
    intro i
    rw [hf, ← ParScore.windowSpec_eq_nil (q := p.queryLength)]
    exact raw_none
  obtain ⟨s0, h1, h2⟩ := ParScore.C49_parallel (raw := f) (sl := points - p.queryLength) (t := p.nThreads) ht (by omega)
    (run := helper es (EdgesInTime.spec 0 (points - 1) (es.map Edge.toId)) (edgeWeight es) (nodeDegrees es) p.queryLength) (by
      intro a b hab
      rw [C83_scores hs (Scoring.C48_known_local es) hq (by omega) (fun i _ hi => by
        rw [weightOf_val, degreeOf_val]
        exact hsm i (by omega)), weightOf_val, degreeOf_val]
      unfold ParScore.answer
      congr 2
      apply decide_eq_decide.2
      rw [hnone, ParScore.windowSpec_eq_nil]) (by
      intro i _ _ hr j hj _ hz
      rw [hnone] at hr
      have : f j = none := (hnone j).2 (fun e he => by have := hr e he; omega)
      exact absurd (this.symm.trans hz) (by simp))
  refine ⟨s0, h1, fun s hr => ?_⟩
  obtain ⟨g1, g2, _⟩ := h2 s hr
  have hdel : s.final = [ParScore.answer f 0 (points - p.queryLength)] →
      delivered s = [normalize (vector es p.queryLength (points - p.queryLength))] := by
    intro h
    rw [delivered, h, List.map_singleton]
    unfold ParScore.answer vector
    rw [← List.range_eq_range']
  refine ⟨?_, fun h => hdel (g2 h)⟩
  rcases g1 with g1 | g1
  · left; rw [delivered, g1]; rfl
  · right; exact hdel g1

/-! ### What an edge contributes -/

theorem pred_pairs : ∀ {v : List Node} {e : Edge}, e ∈ (pairs v).tail → ∃ d ∈ pairs v, d.dst = e.src
  | [], e, h => by simp [pairs] at h
  | [_], e, h => by simp [pairs] at h
  | [_, _], e, h => by simp [pairs] at h
  | a :: b :: c :: l, e, h => by
    simp only [pairs, List.tail_cons, List.mem_cons] at h
    rcases h with rfl | h
    · exact ⟨⟨a, b⟩, by simp [pairs], rfl⟩
    · obtain ⟨d, hd, he⟩ := pred_pairs (v := b :: c :: l) (e := e) (by simpa [pairs] using h)
      refine ⟨d, ?_, he⟩
      rw [pairs]
      exact List.mem_cons_of_mem _ hd

theorem weight_pos {E : List Edge} {e : Edge} (he : e ∈ E) : 1 ≤ weightOf E e.edgeKey := by
  unfold weightOf
  exact List.countP_pos_iff.2 ⟨e, he, by simp⟩

theorem key_mem {E : List Edge} {e : Edge} (he : e ∈ E) : e.edgeKey ∈ distinct E := by
  unfold distinct
  exact List.mem_dedup.2 (List.mem_map_of_mem he)

theorem degree_two {v : List Node} {e : Edge} (he : e ∈ (pairs v).tail) : 2 ≤ degreeOf (pairs v) e.src.nodeKey := by
  obtain ⟨d, hd, hde⟩ := pred_pairs he
  unfold degreeOf degreeSpec
  have h1 : 0 < (distinct (pairs v)).countP (fun k => k.1 = e.src.nodeKey) :=
    List.countP_pos_iff.2 ⟨_, key_mem (List.mem_of_mem_tail he), by simp [Edge.edgeKey]⟩
  have h2 : 0 < (distinct (pairs v)).countP (fun k => k.2 = e.src.nodeKey) :=
    List.countP_pos_iff.2 ⟨_, key_mem hd, by simp [Edge.edgeKey, hde]⟩
  omega

/-- C92: after the first edge of a walk every edge contributes at least 1. -/
theorem C92_least {v : List Node} {e : Edge} (he : e ∈ (pairs v).tail) : 1 ≤ share (pairs v) e := by
  have h1 := weight_pos (List.mem_of_mem_tail he)
  have h2 := degree_two he
  unfold share
  exact Nat.mul_pos h1 (by omega)

/-- The edge was walked once and its source has two ways: one in and one out (or it is the start, with two ways out, or a loop). -/
def Once (E : List Edge) (e : Edge) : Prop := weightOf E e.edgeKey = 1 ∧ degreeOf E e.src.nodeKey = 2

theorem share_once {E : List Edge} {e : Edge} (he : e ∈ E) : share E e = 1 ↔ Once E e := by
  have h1 := weight_pos he
  unfold share Once
  rw [mul_eq_one]
  constructor
  · rintro ⟨h, h'⟩; exact ⟨h, by omega⟩
  · rintro ⟨h, h'⟩; exact ⟨h, by omega⟩

theorem total_eq (E win : List Edge) : total (weightOf E) (degreeOf E) win = (win.map (share E)).sum := rfl

theorem sum_ge {l : List Nat} (h : ∀ x ∈ l, 1 ≤ x) : l.length ≤ l.sum ∧ (l.sum = l.length → ∀ x ∈ l, x = 1) := by
  induction l with
  | nil => simp
  | cons a l ih =>
    obtain ⟨h1, h2⟩ := ih (fun x hx => h x (by simp [hx]))
    have ha := h a (by simp)
    simp only [List.length_cons, List.sum_cons, List.mem_cons, forall_eq_or_imp]
    refine ⟨by omega, fun hh => ⟨by omega, h2 (by omega)⟩⟩

theorem nearest_up {q : ℚ} {z : ℤ} (h : (z : ℚ) + 1 / 2 < q) : z + 1 ≤ nearest q := by
  have hz : z ≤ ⌊q⌋ := Int.le_floor.2 (by linarith)
  rcases hz.lt_or_eq with h1 | h1
  · have := le_nearest (Int.floor_le q)
    omega
  · have h2 : 1 / 2 < q - ⌊q⌋ := by rw [← h1]; linarith
    have h3 : ¬ q - ⌊q⌋ < 1 / 2 := by linarith
    unfold nearest
    simp only [h3, h2, if_true, if_false]
    omega

theorem round_gt_one {x : ℚ} (h : 1 + 1 / 2 ^ 24 < x) : 1 < round x := by
  have h1 : round (min x (3 / 2)) ≤ round x := round_mono (by
    have : (0 : ℚ) < min x (3 / 2) := lt_min (by linarith [show (0 : ℚ) < 1 / 2 ^ 24 by norm_num]) (by norm_num)
    exact this.le) (min_le_left _ _)
  refine lt_of_lt_of_le ?_ h1
  set y := min x (3 / 2) with hy
  have h2 : 1 + 1 / 2 ^ 24 < y := lt_min h (by norm_num)
  have h3 : y ≤ 3 / 2 := min_le_right _ _
  have h0 : 0 < y := by linarith [show (0 : ℚ) < 1 / 2 ^ 24 by norm_num]
  rw [round_of (k := 0) (by rw [abs_of_pos h0, zpow_zero]; linarith [show (0 : ℚ) < 1 / 2 ^ 24 by norm_num])
    (by rw [abs_of_pos h0]; norm_num; linarith)]
  have h4 : ((2 : ℤ) ^ 23 + 1) ≤ nearest (y / 2 ^ ((0 : ℤ) - 23)) := by
    apply nearest_up
    have e : y / 2 ^ ((0 : ℤ) - 23) = y * 2 ^ 23 := by
      rw [zero_sub, zpow_neg, div_inv_eq_mul]
      norm_cast
    rw [e]
    push_cast
    nlinarith
  have h5 : ((2 : ℚ) ^ 23 + 1) ≤ (nearest (y / 2 ^ ((0 : ℤ) - 23)) : ℚ) := by exact_mod_cast h4
  have h6 : (1 : ℚ) < (2 ^ 23 + 1) * 2 ^ ((0 : ℤ) - 23) := by
    rw [zero_sub, zpow_neg]
    norm_num
  exact lt_of_lt_of_le h6 (mul_le_mul_of_nonneg_right h5 (by positivity))

/-- C92: among the windows in which every edge contributes at least 1, the score of those made of edges which were walked once, from nodes with two
ways, is -1, and the score of all others is less. -/
theorem C92_raw {E win : List Edge} (hsub : ∀ e ∈ win, e ∈ E) (hsm : Small (weightOf E) (degreeOf E) win) (h1 : ∀ e ∈ win, 1 ≤ share E e) {x : ℚ}
    (hx : raw (weightOf E) (degreeOf E) win = some x) : x ≤ -1 ∧ (x = -1 ↔ ∀ e ∈ win, Once E e) := by
  have hne : win ≠ [] := fun h => by rw [raw_none.2 h] at hx; cases hx
  unfold raw at hx
  rw [if_neg hne] at hx
  obtain rfl := Option.some.inj hx
  have hlen : 0 < win.length := List.length_pos_iff.2 hne
  have hlen' : (0 : ℚ) < win.length := by exact_mod_cast hlen
  obtain ⟨s1, s2⟩ := sum_ge (l := win.map (share E)) (by simpa using h1)
  rw [List.length_map] at s1 s2
  rw [← total_eq] at s1 s2
  have hmean : mean (weightOf E) (degreeOf E) win = total (weightOf E) (degreeOf E) win / win.length := rfl
  have hge : 1 ≤ mean (weightOf E) (degreeOf E) win := by
    rw [hmean, le_div_iff₀ hlen', one_mul]
    exact_mod_cast s1
  have hone := round_mono (x := 1) (by norm_num) hge
  rw [round_one] at hone
  refine ⟨by linarith, ?_, ?_⟩
  · intro h
    have hr : round (mean (weightOf E) (degreeOf E) win) = 1 := by linarith
    have heq : total (weightOf E) (degreeOf E) win = win.length := by
      by_contra hc
      have hlt : win.length + 1 ≤ total (weightOf E) (degreeOf E) win := by omega
      have hl24 : win.length < 2 ^ 24 := by have := hsm.total; omega
      have : 1 + 1 / 2 ^ 24 < mean (weightOf E) (degreeOf E) win := by
        rw [hmean, lt_div_iff₀ hlen']
        have a : ((win.length : ℚ)) < 2 ^ 24 := by exact_mod_cast hl24
        have b : ((win.length : ℚ)) + 1 ≤ total (weightOf E) (degreeOf E) win := by exact_mod_cast hlt
        have c : (1 / 2 ^ 24 : ℚ) * win.length < 1 := by
          rw [div_mul_eq_mul_div, one_mul, div_lt_one (by norm_num)]
          exact a
        linarith
      exact absurd (round_gt_one this) (by rw [hr]; exact lt_irrefl _)
    intro e he
    exact (share_once (hsub e he)).1 (s2 heq _ (List.mem_map_of_mem he))
  · intro h
    have heq : total (weightOf E) (degreeOf E) win = win.length := by
      rw [total_eq]
      have : win.map (share E) = win.map (fun _ => 1) := List.map_congr_left (fun e he => (share_once (hsub e he)).2 (h e he))
      rw [this]
      simp
    rw [hmean, heq, div_self hlen'.ne', round_one]

/-! ### The scores of a walk -/

theorem carry_at {l : List (Option ℚ)} {i : Nat} {x : ℚ} (h : l[i]? = some (some x)) (c : ℚ) : (Scoring.carrySpec c l)[i]? = some x := by
  have hi : i < l.length := by
    by_contra hc
    rw [List.getElem?_eq_none (by omega)] at h
    cases h
  unfold Scoring.carrySpec
  rw [List.getElem?_map, List.getElem?_range hi, Option.map_some, List.take_add_one, h]
  simp [List.reduceOption]

theorem carry_mem {l : List (Option ℚ)} {y : ℚ} (h : l[0]? = some (some y)) (c : ℚ) {x : ℚ} (hx : x ∈ Scoring.carrySpec c l) : some x ∈ l := by
  unfold Scoring.carrySpec at hx
  obtain ⟨i, _, rfl⟩ := List.mem_map.1 hx
  have hne : (l.take (i + 1)).reduceOption ≠ [] := by
    cases l with
    | nil => simp at h
    | cons a l =>
      simp only [List.getElem?_cons_zero, Option.some.injEq] at h
      subst h
      simp [List.reduceOption]
  rw [List.getLast?_eq_some_getLast hne, Option.getD_some]
  have := List.getLast_mem hne
  rw [List.reduceOption_mem_iff] at this
  exact List.mem_of_mem_take this

theorem vector_at {E : List Edge} {q len i : Nat} (hi : i < len) {x : ℚ}
    (hx : raw (weightOf E) (degreeOf E) (Scoring.windowSpec E 0 q i) = some x) : (vector E q len)[i]? = some x := by
  unfold vector
  exact carry_at (by rw [List.getElem?_map, List.getElem?_range hi, Option.map_some, hx]) 0

/-- Every entry is the score of the window of some position, if there is an edge after some position. -/
theorem vector_mem {E : List Edge} {q len i : Nat} (hi : i < len) (hne : Scoring.windowSpec E 0 q i ≠ []) {x : ℚ} (hx : x ∈ vector E q len) :
    ∃ j < len, raw (weightOf E) (degreeOf E) (Scoring.windowSpec E 0 q j) = some x := by
  have h0 : Scoring.windowSpec E 0 q 0 ≠ [] := by
    intro h
    apply hne
    rw [ParScore.windowSpec_eq_nil] at h ⊢
    intro e he
    have := h e he
    omega
  obtain ⟨y, hy⟩ := Option.ne_none_iff_exists'.1 (fun h => h0 (raw_none (w := weightOf E) (d := degreeOf E).1 h))
  have := carry_mem (l := (List.range len).map (fun i => raw (weightOf E) (degreeOf E) (Scoring.windowSpec E 0 q i))) (y := y)
    (by rw [List.getElem?_map, List.getElem?_range (by omega), Option.map_some, hy]) 0 hx
  obtain ⟨j, hj, h⟩ := List.mem_map.1 this
  exact ⟨j, List.mem_range.1 hj, h⟩

/-- Normalised scores: the place of a greatest entry has the score 1, or all entries are equal and all scores NaN. -/
theorem normalize_top {l : List ℚ} {i : Nat} {x : ℚ} (hi : l[i]? = some x) (htop : ∀ y ∈ l, y ≤ x) :
    ∃ r, normalize l = some r ∧ r.length = l.length ∧ ((∀ y ∈ l, y = x) → ∀ z ∈ r, z = none) ∧
      ((∃ y ∈ l, y ≠ x) → r[i]? = some (some 1) ∧ ∀ z ∈ r, z ≠ none) := by
  have hmem : x ∈ l := List.mem_of_getElem? hi
  by_cases hall : ∀ y ∈ l, y = x
  · refine ⟨_, (C83_nan (List.ne_nil_of_mem hmem)).1 (fun a ha b hb => (hall a ha).trans (hall b hb).symm), by simp, fun _ z hz => ?_, ?_⟩
    · obtain ⟨_, _, rfl⟩ := List.mem_map.1 hz
      rfl
    · rintro ⟨y, hy, hne⟩
      exact absurd (hall y hy) hne
  · push Not at hall
    obtain ⟨y, hy, hne⟩ := hall
    obtain ⟨f, h1, _, _, _, h5⟩ := C83_normalised ⟨y, hy, x, hmem, hne⟩
    refine ⟨_, h1, by simp, fun h => absurd (h y hy) hne, fun _ => ⟨?_, fun z hz => ?_⟩⟩
    · rw [List.getElem?_map, hi, Option.map_some, h5 x hmem htop]
    · obtain ⟨_, _, rfl⟩ := List.mem_map.1 hz
      simp

/-- What the delivery of a vector means: nothing or it is delivered at any time, and it is there when all helpers have been heard. -/
def Delivers (s0 : ParScore) (r : List (Option ℚ)) : Prop :=
  ∀ s, ParScore.Reachable s0 s → (delivered s = [] ∨ delivered s = [some r]) ∧ (s.pool = [] → delivered s = [some r])

/-- C92: let the start of the walk have two or more ways (for instance: the walk comes back to it). If the window of position `i` only has edges
which were walked once, from nodes with two ways, then in all schedules the run delivers one vector and either the score at `i` is 1, or all edges
after the first position are such edges and all scores are NaN. -/
theorem C92_once {p : Parameters} {points : Nat} {v : List Node} (hs : (pairs v).Pairwise (fun a b => a.toId ≤ b.toId))
    (hid : ∀ e ∈ pairs v, e.toId + 1 < points) (hq : 1 ≤ p.queryLength) (ht : 1 ≤ p.nThreads) (hsl : p.nThreads + p.queryLength ≤ points)
    (hsm : ∀ i < points - p.queryLength, Small (weightOf (pairs v)) (degreeOf (pairs v)) (Scoring.windowSpec (pairs v) 0 p.queryLength i))
    (hstart : ∀ e ∈ (pairs v).head?, 2 ≤ degreeOf (pairs v) e.src.nodeKey)
    {i : Nat} (hi : i < points - p.queryLength) (hne : Scoring.windowSpec (pairs v) 0 p.queryLength i ≠ [])
    (honce : ∀ e ∈ Scoring.windowSpec (pairs v) 0 p.queryLength i, Once (pairs v) e) :
    ∃ s0 r, start p points (pairs v) = some s0 ∧ Delivers s0 r ∧ r.length = points - p.queryLength ∧
      ((∃ j < points - p.queryLength, ∃ e ∈ Scoring.windowSpec (pairs v) 0 p.queryLength j, ¬ Once (pairs v) e) →
        r[i]? = some (some 1) ∧ ∀ z ∈ r, z ≠ none) ∧
      ((∀ j < points - p.queryLength, ∀ e ∈ Scoring.windowSpec (pairs v) 0 p.queryLength j, Once (pairs v) e) → ∀ z ∈ r, z = none) := by
  set E := pairs v with hE
  have hshare : ∀ e ∈ E, 1 ≤ share E e := by
    intro e he
    have hw := weight_pos he
    cases hEc : E with
    | nil => rw [hEc] at he; cases he
    | cons a l =>
      have hd : 2 ≤ degreeOf E e.src.nodeKey := by
        rw [hEc] at he
        rcases List.mem_cons.1 he with rfl | he
        · exact hstart e (by rw [hEc]; rfl)
        · exact degree_two (v := v) (by rw [← hE, hEc]; exact he)
      rw [← hEc]
      exact Nat.mul_pos hw (by omega)
  have hpos : ∃ e ∈ E, e.toId ≠ 0 := by
    by_contra hc
    push Not at hc
    apply hne
    rw [ParScore.windowSpec_eq_nil]
    intro e he
    rw [hc e he]
    omega
  obtain ⟨s0, h1, h2⟩ := start_scores hs hid hpos hq ht hsl hsm
  have hsub : ∀ j, ∀ e ∈ Scoring.windowSpec E 0 p.queryLength j, e ∈ E := fun j e he => Scoring.mem_windowSpec he
  obtain ⟨x, hx⟩ := Option.ne_none_iff_exists'.1 (fun h => hne (raw_none (w := weightOf E) (d := degreeOf E).1 h))
  have hx1 : x = -1 := (C92_raw (hsub i) (hsm i hi) (fun e he => hshare e (hsub i e he)) hx).2.2 honce
  subst hx1
  obtain ⟨r, r1, r2, r3, r4⟩ := normalize_top (vector_at hi hx) (by
    intro y hy
    obtain ⟨j, hj, h⟩ := vector_mem hi hne hy
    exact (C92_raw (hsub j) (hsm j hj) (fun e he => hshare e (hsub j e he)) h).1)
  rw [r1] at h2
  refine ⟨s0, r, h1, h2, ?_, ?_, ?_⟩
  · rw [r2]
    simp [vector, Scoring.carrySpec]
  · rintro ⟨j, hj, e, he, hno⟩
    obtain ⟨y, hy⟩ := Option.ne_none_iff_exists'.1 (fun h => List.ne_nil_of_mem he (raw_none (w := weightOf E) (d := degreeOf E).1 h))
    refine r4 ⟨y, List.mem_of_getElem? (vector_at hj hy), fun h => ?_⟩
    exact hno ((C92_raw (hsub j) (hsm j hj) (fun e he => hshare e (hsub j e he)) hy).2.1 h e he)
  · intro hall
    refine r3 (fun y hy => ?_)
    obtain ⟨j, hj, h⟩ := vector_mem hi hne hy
    exact (C92_raw (hsub j) (hsm j hj) (fun e he => hshare e (hsub j e he)) h).2.2 (hall j hj)

/-- C92 (the beginning): if the walk never comes back to its start (one way at the start), every position whose window is the first edge alone has
the score 1, however normal the walk is there. -/
theorem C92_start {p : Parameters} {points : Nat} {v : List Node} (hs : (pairs v).Pairwise (fun a b => a.toId ≤ b.toId))
    (hid : ∀ e ∈ pairs v, e.toId + 1 < points) (hq : 1 ≤ p.queryLength) (ht : 1 ≤ p.nThreads) (hsl : p.nThreads + p.queryLength ≤ points)
    (hsm : ∀ i < points - p.queryLength, Small (weightOf (pairs v)) (degreeOf (pairs v)) (Scoring.windowSpec (pairs v) 0 p.queryLength i))
    {e : Edge} (hstart : degreeOf (pairs v) e.src.nodeKey = 1)
    {i : Nat} (hi : i < points - p.queryLength) (hwin : Scoring.windowSpec (pairs v) 0 p.queryLength i = [e])
    {j : Nat} (hj : j < points - p.queryLength) (hjshare : ∃ f ∈ Scoring.windowSpec (pairs v) 0 p.queryLength j, share (pairs v) f ≠ 0) :
    ∃ s0 r, start p points (pairs v) = some s0 ∧ Delivers s0 r ∧ r[i]? = some (some 1) ∧ ∀ z ∈ r, z ≠ none := by
  set E := pairs v with hE
  obtain ⟨f, hf, hf0⟩ := hjshare
  have hjne := List.ne_nil_of_mem hf
  have hne : Scoring.windowSpec E 0 p.queryLength i ≠ [] := by rw [hwin]; simp
  have hpos : ∃ e ∈ E, e.toId ≠ 0 := by
    by_contra hc
    push Not at hc
    apply hne
    rw [ParScore.windowSpec_eq_nil]
    intro e he
    rw [hc e he]
    omega
  obtain ⟨s0, h1, h2⟩ := start_scores hs hid hpos hq ht hsl hsm
  have hx : raw (weightOf E) (degreeOf E) (Scoring.windowSpec E 0 p.queryLength i) = some 0 := by
    unfold raw
    rw [if_neg hne, hwin]
    simp [mean, total, hstart, round_zero]
  have hle : ∀ {win : List Edge} {y : ℚ}, raw (weightOf E) (degreeOf E) win = some y → y ≤ 0 := by
    intro win y h
    unfold raw at h
    split at h
    · cases h
    · obtain rfl := Option.some.inj h
      have : 0 ≤ round (mean (weightOf E) (degreeOf E) win) := round_nonneg (by unfold mean; positivity)
      linarith
  obtain ⟨r, r1, r2, r3, r4⟩ := normalize_top (vector_at hi hx) (by
    intro y hy
    obtain ⟨j, hj, h⟩ := vector_mem hi hne hy
    exact hle h)
  rw [r1] at h2
  refine ⟨s0, r, h1, h2, r4 ?_⟩
  obtain ⟨y, hy⟩ := Option.ne_none_iff_exists'.1 (fun h => hjne (raw_none (w := weightOf E) (d := degreeOf E).1 h))
  refine ⟨y, List.mem_of_getElem? (vector_at hj hy), fun h => ?_⟩
  subst h
  unfold raw at hy
  rw [if_neg hjne] at hy
  have hr : round (mean (weightOf E) (degreeOf E) (Scoring.windowSpec E 0 p.queryLength j)) = 0 := by
    have := Option.some.inj hy
    linarith
  have hmp : 0 < mean (weightOf E) (degreeOf E) (Scoring.windowSpec E 0 p.queryLength j) := by
    unfold mean
    have a : 0 < total (weightOf E) (degreeOf E) (Scoring.windowSpec E 0 p.queryLength j) := by
      rw [total_eq]
      exact lt_of_lt_of_le (Nat.pos_of_ne_zero hf0) (List.single_le_sum (by simp) _ (List.mem_map_of_mem hf))
    have b := List.length_pos_iff.2 hjne
    positivity
  have := round_pos hmp
  linarith

/-! ### The run from the points on -/

/-- The edges of a run are the edges of a walk, in the order of time, and end before the last point. -/
theorem edges_of_run {X : Type} {clu : List X → Option (List Nat)} (hc : OneLabelEach clu) {coord : Inter → X} {mirror : Pt → Pt} {p : Parameters}
    (hp : p.WellFormed) (hn : p.nClusterNodes = 1) {len : Nat} {pts : List Pt}
    (hm : ∀ a, (mirror a).id = a.id ∧ (a.seg < p.rate → (mirror a).seg < p.rate))
    (hid : pts.map Pt.id = List.range pts.length) (hseg : ∀ x ∈ pts, x.seg < p.rate) (hlen : pts.length ≤ len)
    {es : List Edge} (hes : localEdges clu coord mirror p len pts = some es) :
    (∃ v, es = pairs v) ∧ es.Pairwise (fun a b => a.toId ≤ b.toId) ∧ ∀ e ∈ es, e.toId + 1 < pts.length := by
  have heid : (effective p mirror pts).map Pt.id = List.range (effective p mirror pts).length ∧
      (effective p mirror pts).length = pts.length ∧ ∀ x ∈ effective p mirror pts, x.seg < p.rate := by
    unfold effective
    split
    · refine ⟨?_, by simp, ?_⟩
      · rw [List.length_map, ← hid, List.map_map]
        apply List.map_congr_left
        intro a _
        exact (hm a).1
      · intro x hx
        obtain ⟨a, ha, rfl⟩ := List.mem_map.1 hx
        exact (hm a).2 (hseg a ha)
    · exact ⟨hid, rfl, hseg⟩
  obtain ⟨e1, e2, e3⟩ := heid
  obtain ⟨n1, n2⟩ := numbered e1
  rw [e2] at n2
  obtain ⟨lab, _, rfl⟩ := (C64_graph hc coord mirror hp hn (len := len) e3 n1 (fun x hx => by have := n2 x hx; omega)).2 es hes
  have hst := steps_of_points (rate := p.rate) e3 n1 (fun x hx => n2 x hx)
  refine ⟨⟨_, rfl⟩, pairs_sorted (walk_sorted hst.sorted), fun e he => ?_⟩
  obtain ⟨t, ht, he⟩ := toId_walk he
  have hmem := (List.mem_filter.1 ht).1
  have := steps_lt n1 t hmem
  have := n2 _ (mem_steps hmem).2
  omega

/-- C92, from the points on: if the start of the walk has two or more ways, a position whose window only has edges which were walked once, from nodes
with two ways, has the score 1 in every schedule, unless all edges are like that. -/
theorem C92_run {X : Type} {clu : List X → Option (List Nat)} (hc : OneLabelEach clu) {coord : Inter → X} {mirror : Pt → Pt} {p : Parameters}
    (hp : p.WellFormed) (hn : p.nClusterNodes = 1) {len : Nat} {pts : List Pt}
    (hm : ∀ a, (mirror a).id = a.id ∧ (a.seg < p.rate → (mirror a).seg < p.rate))
    (hid : pts.map Pt.id = List.range pts.length) (hseg : ∀ x ∈ pts, x.seg < p.rate) (hlen : pts.length ≤ len)
    (hq : 1 ≤ p.queryLength) (ht : 1 ≤ p.nThreads) (hsl : p.nThreads + p.queryLength ≤ pts.length)
    {es : List Edge} (hes : localEdges clu coord mirror p len pts = some es)
    (hsm : ∀ i < pts.length - p.queryLength, Small (weightOf es) (degreeOf es) (Scoring.windowSpec es 0 p.queryLength i))
    (hstart : ∀ e ∈ es.head?, 2 ≤ degreeOf es e.src.nodeKey)
    {i : Nat} (hi : i < pts.length - p.queryLength) (hne : Scoring.windowSpec es 0 p.queryLength i ≠ [])
    (honce : ∀ e ∈ Scoring.windowSpec es 0 p.queryLength i, Once es e)
    (hother : ∃ j < pts.length - p.queryLength, ∃ e ∈ Scoring.windowSpec es 0 p.queryLength j, ¬ Once es e) :
    ∃ s0 r, run clu coord mirror p len pts = some s0 ∧ Delivers s0 r ∧ r.length = pts.length - p.queryLength ∧
      r[i]? = some (some 1) ∧ ∀ z ∈ r, z ≠ none := by
  obtain ⟨⟨v, rfl⟩, h1, h2⟩ := edges_of_run hc hp hn hm hid hseg hlen hes
  obtain ⟨s0, r, g1, g2, g3, g4, _⟩ := C92_once h1 h2 hq ht hsl hsm hstart hi hne honce
  refine ⟨s0, r, ?_, g2, g3, g4 hother⟩
  unfold run
  rw [hes]
  exact g1

/-! ### Busy nodes -/

/-- With query length 1 the score before normalisation is minus what the next edge contributes. -/
theorem vector_one {E : List Edge} {len : Nat} (hsm : ∀ e ∈ E, share E e ≤ 2 ^ 24) : vector E 1 len =
    Scoring.carrySpec 0 ((List.range len).map (fun i => (E.find? (fun e => i < e.toId)).map (fun e => -(share E e : ℚ)))) := by
  unfold vector
  congr 1
  apply List.map_congr_left
  intro i _
  have hwin : Scoring.windowSpec E 0 1 i = (E.find? (fun e => i < e.toId)).toList := by
    rw [Scoring.windowSpec_toId, List.filter_eq_nil_iff.2 (by intro e _; simp), List.nil_append]
    simp only [Nat.zero_add, Nat.sub_self, Nat.add_zero]
    rw [← List.head?_filter]
    cases E.filter (fun e => decide (i < e.toId)) <;> rfl
  rw [hwin]
  cases hf : E.find? (fun e => i < e.toId) with
  | none => simp [raw]
  | some e =>
    have he : e ∈ E := List.mem_of_find?_eq_some hf
    have : mean (weightOf E) (degreeOf E) [e] = (share E e : ℚ) := by simp [mean, total, share]
    simp [raw, this, round_nat (hsm e he)]

def busyP : Parameters := ⟨4, 1, 1, 4, 1, 1, false⟩

/-- Five turns, one point in every segment. -/
def busyPts : List Pt := (List.range 21).map (fun i => ⟨i, i % 4⟩)

/-- The first two turns are equal; the others always cross the border 0 at the same place, and the other borders anywhere. -/
def busyLab (x : Inter) : Nat :=
  if x.1.src.id < 8 then 0 else if x.2 = 0 then 1 else if x.1.src.id < 12 then 2 else if x.1.src.id < 16 then 3 else 4

def busyEdges : List Edge := pairs ((List.range 20).map (fun i => ⟨(i + 1) % 4, busyLab (⟨⟨i, 0⟩, ⟨i + 1, 0⟩⟩, (i + 1) % 4), i⟩))

theorem busy_edges : localEdges (fun xs : List Nat => some xs) busyLab id busyP 21 busyPts = some busyEdges := by
  have h : (do
      let s ← segment busyP id busyPts
      let x ← Inter.onResults busyP 0 {} (intersectionTasks busyP.rate s.stored)
      let nodes ← estimateNodes (fun xs : List Nat => some xs) busyLab busyP 0 x.stored
      connectNodes 21 (nodesOf nodes) (fun _ => none)) = some busyEdges := by decide +kernel
  have hsort : Transposition.sortEdges busyEdges = busyEdges := sortEdges_sorted (by decide +kernel)
  simp only [Option.bind_eq_bind, Option.bind_eq_some_iff] at h
  obtain ⟨s, h1, x, h2, nodes, h3, h4⟩ := h
  unfold localEdges
  simp only [h1, h2, h3, h4, Option.bind_eq_bind, Option.bind_some, hsort]

theorem busy_labels : OneLabelEach (fun xs : List Nat => some xs) := by
  intro xs labels _ h
  rw [← Option.some.inj h]

theorem busy_shares : ∀ e ∈ busyEdges, share busyEdges e ≤ 4 := by decide +kernel

theorem busy_vector : vector busyEdges 1 20 = [-2, -2, -2, -2, -2, -2, -2, -2, -1, -1, -1, -4, -1, -1, -1, -4, -1, -1, -1, -1] := by
  rw [vector_one (fun e he => (busy_shares e he).trans (by norm_num))]
  decide +kernel

/-- C92 (what fails): there is a run in which the next edge of a position was walked once and the position has the score 0, the least of all, while the
next edge of another position was walked twice and that position has a greater score. -/
theorem C92_busy : ∃ (clu : List Nat → Option (List Nat)) (coord : Inter → Nat) (p : Parameters) (pts : List Pt) (es : List Edge) (s0 : ParScore)
    (r : List (Option ℚ)) (i j : Nat) (e f : Edge) (y : ℚ), OneLabelEach clu ∧ p.WellFormed ∧ p.nClusterNodes = 1 ∧ p.queryLength = 1 ∧
      localEdges clu coord id p pts.length pts = some es ∧ run clu coord id p pts.length pts = some s0 ∧ Delivers s0 r ∧
      Scoring.windowSpec es 0 1 i = [e] ∧ weightOf es e.edgeKey = 1 ∧ r[i]? = some (some 0) ∧
      Scoring.windowSpec es 0 1 j = [f] ∧ weightOf es f.edgeKey = 2 ∧ r[j]? = some (some y) ∧ 0 < y := by
  have hsm : ∀ i < busyPts.length - busyP.queryLength, Small (weightOf busyEdges) (degreeOf busyEdges)
      (Scoring.windowSpec busyEdges 0 busyP.queryLength i) := by
    have : ∀ i < 20, total (weightOf busyEdges) (degreeOf busyEdges) (Scoring.windowSpec busyEdges 0 1 i) ≤ 100 ∧
        (Scoring.windowSpec busyEdges 0 1 i).length ≤ 100 := by decide +kernel
    intro i hi
    obtain ⟨a, b⟩ := this i hi
    exact ⟨a.trans (by norm_num), b.trans (by norm_num)⟩
  obtain ⟨s0, h1, h2⟩ := start_scores (p := busyP) (points := busyPts.length) (es := busyEdges) (by decide +kernel) (by decide +kernel)
    (by decide +kernel) (by decide) (by decide) (by decide) hsm
  have hlen : busyPts.length - busyP.queryLength = 20 := by decide
  have hq : busyP.queryLength = 1 := rfl
  rw [hlen, hq, busy_vector] at h2
  have e1 : ([-2, -2, -2, -2, -2, -2, -2, -2, -1, -1, -1, -4, -1, -1, -1, -4, -1, -1, -1, -1] : List ℚ).max? = some (-1) := by decide +kernel
  have e2 : ([-2, -2, -2, -2, -2, -2, -2, -2, -1, -1, -1, -4, -1, -1, -1, -4, -1, -1, -1, -1] : List ℚ).min? = some (-4) := by decide +kernel
  have e3 : sub (-1) (-4) = 3 := by
    have := round_nat (n := 3) (by norm_num)
    unfold sub
    norm_num at this ⊢
    exact this
  have hn : normalize [-2, -2, -2, -2, -2, -2, -2, -2, -1, -1, -1, -4, -1, -1, -1, -4, -1, -1, -1, -1] =
      some (([-2, -2, -2, -2, -2, -2, -2, -2, -1, -1, -1, -4, -1, -1, -1, -4, -1, -1, -1, -1] : List ℚ).map
        (fun x => some (div (sub x (-4)) 3))) := by
    unfold normalize
    rw [e1, e2]
    simp only [Option.bind_eq_bind, Option.bind_some, e3]
    norm_num
  rw [hn] at h2
  refine ⟨fun xs => some xs, busyLab, busyP, busyPts, busyEdges, s0, _, 11, 0, ⟨⟨0, 1, 11⟩, ⟨1, 3, 12⟩⟩, ⟨⟨1, 0, 0⟩, ⟨2, 0, 1⟩⟩, div (sub (-2) (-4)) 3,
    busy_labels, ⟨by decide, by decide⟩, rfl, rfl, busy_edges, ?_, h2, by decide +kernel, by decide +kernel, ?_, by decide +kernel, by decide +kernel, rfl, ?_⟩
  · unfold run
    rw [show busyPts.length = 21 from rfl, busy_edges]
    exact h1
  · have : div (sub (-4) (-4)) 3 = 0 := by
      unfold div sub
      norm_num [round_zero]
    exact congrArg (fun x => some (some x)) this
  · refine round_pos (div_pos (round_pos (by norm_num)) (by norm_num))

/-! ### Concrete instances -/

/-- The hypotheses of `C92_run` hold for the position 8 and windows of two positions: its edges were walked once, from nodes with two ways, and there
are edges which were walked twice. -/
example : ∃ s0 r, run (fun xs : List Nat => some xs) busyLab id { busyP with queryLength := 2, nThreads := 3 } 21 busyPts = some s0 ∧ Delivers s0 r ∧
    r.length = 19 ∧ r[8]? = some (some 1) ∧ ∀ z ∈ r, z ≠ none :=
  C92_run (p := { busyP with queryLength := 2, nThreads := 3 }) (pts := busyPts) (mirror := id) (i := 8) busy_labels ⟨by decide, by decide⟩ rfl
    (fun a => ⟨rfl, fun h => h⟩) (by decide) (by decide) (by decide) (by decide) (by decide) (by decide) (es := busyEdges) busy_edges
    (by
      have : ∀ i < 19, total (weightOf busyEdges) (degreeOf busyEdges) (Scoring.windowSpec busyEdges 0 2 i) ≤ 100 ∧
          (Scoring.windowSpec busyEdges 0 2 i).length ≤ 100 := by decide +kernel
      intro i hi
      obtain ⟨a, b⟩ := this i hi
      exact ⟨a.trans (by norm_num), b.trans (by norm_num)⟩)
    (by decide +kernel) (by decide) (by decide +kernel)
    (by
      have : ∀ e ∈ Scoring.windowSpec busyEdges 0 2 8, weightOf busyEdges e.edgeKey = 1 ∧ degreeOf busyEdges e.src.nodeKey = 2 := by decide +kernel
      exact this)
    (by
      have : ∃ e ∈ Scoring.windowSpec busyEdges 0 2 0, ¬ (weightOf busyEdges e.edgeKey = 1 ∧ degreeOf busyEdges e.src.nodeKey = 2) := by decide +kernel
      exact ⟨0, by decide, this⟩)

/-- A walk which leaves its start for good and then goes round. -/
def lasso : List Node := [⟨0, 5, 3⟩, ⟨1, 0, 4⟩, ⟨2, 0, 5⟩, ⟨0, 0, 6⟩, ⟨1, 0, 7⟩, ⟨2, 0, 8⟩, ⟨0, 0, 9⟩]

/-- The hypotheses of `C92_start` hold: the positions 0 to 3 get the score 1. -/
example : ∃ s0 r, start busyP 11 (pairs lasso) = some s0 ∧ Delivers s0 r ∧ r[0]? = some (some 1) ∧ ∀ z ∈ r, z ≠ none :=
  C92_start (p := busyP) (points := 11) (v := lasso) (i := 0) (j := 5) (e := ⟨⟨0, 5, 3⟩, ⟨1, 0, 4⟩⟩) (by decide) (by decide) (by decide) (by decide)
    (by decide)
    (by
      have : ∀ i < 10, total (weightOf (pairs lasso)) (degreeOf (pairs lasso)) (Scoring.windowSpec (pairs lasso) 0 1 i) ≤ 100 ∧
          (Scoring.windowSpec (pairs lasso) 0 1 i).length ≤ 100 := by decide +kernel
      intro i hi
      obtain ⟨a, b⟩ := this i hi
      exact ⟨a.trans (by norm_num), b.trans (by norm_num)⟩)
    (by decide +kernel) (by decide) (by decide +kernel) (by decide) (by decide +kernel)

/-- An edge after the first one. -/
example : 1 ≤ share (pairs lasso) ⟨⟨0, 0, 6⟩, ⟨1, 0, 7⟩⟩ := C92_least (by decide)

end Score
end FloatRun
end S2G
