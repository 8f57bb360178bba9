import Verif.Model.Scoring
import Verif.Props.Weights
import Verif.Props.EdgesInTime
import Mathlib.Tactic.Linarith
import Mathlib.Tactic.FieldSimp
import Mathlib.Data.List.ReduceOption

/-!
# C48, C52, C55: scores, normalisation and gap filling
-/

namespace S2G
namespace Scoring

/-! ### Specification -/

/-- The edges of the query window at position `i`: those which end after point `start + i` and not after the last point of the
query, and additionally the next later edge. -/
def windowSpec (edges : List Edge) (start q i : Nat) : List Edge :=
  edges.filter (fun e => start + i < e.dst.fromId ∧ e.dst.fromId ≤ start + i + (q - 1)) ++
    (edges.filter (fun e => start + i + (q - 1) < e.dst.fromId)).take 1

theorem windowSpec_toId (edges : List Edge) (start q i : Nat) : windowSpec edges start q i =
    edges.filter (fun e => start + i < e.toId ∧ e.toId ≤ start + i + (q - 1)) ++
      (edges.filter (fun e => start + i + (q - 1) < e.toId)).take 1 := rfl

/-- Normality of some edges. -/
def normality (w : EdgeKey → Nat) (d : NodeKey → Nat) (win : List Edge) : ℚ :=
  (win.map (fun e => (w e.edgeKey : ℚ) * ((d e.src.nodeKey : ℚ) - 1))).sum / (1 / 10 ^ 8 + win.length)

/-- The score of a window, if it is not empty. -/
def rawSpec (w : EdgeKey → Nat) (d : NodeKey → Nat) (win : List Edge) : Option ℚ :=
  if win = [] then none else some (- normality w d win)

/-- Positions without edges repeat the previous score: entry `i` is the last score at or before `i`, or `c`. -/
def carrySpec (c : ℚ) (l : List (Option ℚ)) : List ℚ :=
  (List.range l.length).map (fun i => ((l.take (i + 1)).reduceOption.getLast?).getD c)

/-! ### Carrying scores on -/

/-- recursive form of `carrySpec` -/
def carry (c : ℚ) : List (Option ℚ) → List ℚ
  | [] => []
  | x :: xs => x.getD c :: carry (x.getD c) xs

theorem getLast_reduce_cons (x : Option ℚ) (l : List (Option ℚ)) (c : ℚ) :
    ((x :: l).reduceOption.getLast?).getD c = (l.reduceOption.getLast?).getD (x.getD c) := by
  cases x with
  | none => rfl
  | some a =>
    rw [List.reduceOption_cons_of_some, List.getLast?_cons]
    rfl

theorem carry_eq_spec (c : ℚ) (l : List (Option ℚ)) : carry c l = carrySpec c l := by
  induction l generalizing c with
  | nil => rfl
  | cons x l ih =>
    rw [carry, ih]
    unfold carrySpec
    rw [List.length_cons, List.range_succ_eq_map, List.map_cons, List.map_map]
    congr 1
    · simp only [Nat.zero_add, List.take_succ_cons, List.take_zero, getLast_reduce_cons]
      rfl
    · apply List.map_congr_left
      intro i _
      simp only [Function.comp_apply, List.take_succ_cons, getLast_reduce_cons]

theorem carry_length (c : ℚ) (l : List (Option ℚ)) : (carry c l).length = l.length := by
  rw [carry_eq_spec]; simp [carrySpec]

theorem carry_append (c : ℚ) (l l' : List (Option ℚ)) :
    carry c (l ++ l') = carry c l ++ carry (((carry c l).getLast?).getD c) l' := by
  induction l generalizing c with
  | nil => rfl
  | cons x l ih =>
    rw [List.cons_append, carry, ih, carry, List.cons_append, List.getLast?_cons]
    rfl

theorem carry_of_some (c c' : ℚ) (a : ℚ) (l : List (Option ℚ)) : carry c (some a :: l) = carry c' (some a :: l) := rfl

/-- The helper's loop carries scores on. -/
theorem foldl_push (rs : List (ℚ × Nat)) :
    rs.foldl push ([], false) =
      (carry 0 (rs.map (fun r => if r.2 = 0 then none else some (-r.1))), decide ((rs.head?.map Prod.snd) = some 0)) := by
  induction rs using List.reverseRecOn with
  | nil => rfl
  | append_singleton rs r ih =>
    rw [List.foldl_append, ih, List.foldl_cons, List.foldl_nil, List.map_append, carry_append]
    unfold push
    rcases rs with _ | ⟨r0, rs⟩
    · by_cases h : r.2 = 0 <;> simp [h, carry]
    · have hlen : (carry 0 ((r0 :: rs).map (fun r => if r.2 = 0 then none else some (-r.1)))) ≠ [] := by
        intro e
        have := congrArg List.length e
        simp [carry_length] at this
      obtain ⟨a, ha⟩ := Option.ne_none_iff_exists'.1 (fun e => hlen (List.getLast?_eq_none_iff.1 e))
      by_cases h : r.2 = 0
      · simp only [h, if_true, List.map_cons, List.map_nil, List.cons_append, List.head?_cons, carry, Option.getD_none]
        rw [List.map_cons] at ha
        simp only [carry] at ha
        rw [ha]
        rfl
      · simp only [h, if_false, List.map_cons, List.map_nil, List.cons_append, List.head?_cons, carry, Option.getD_some]
        rfl

/-! ### Windows -/

theorem sorted_take {edges : List Edge} (hs : edges.Pairwise (fun a b => a.toId ≤ b.toId)) (c : Nat) :
    edges.take ((edges.map Edge.toId).countP (fun x => x ≤ c)) = edges.filter (fun e => e.toId ≤ c) ∧
    edges.drop ((edges.map Edge.toId).countP (fun x => x ≤ c)) = edges.filter (fun e => c < e.toId) := by
  induction edges with
  | nil => simp
  | cons e l ih =>
    rw [List.pairwise_cons] at hs
    obtain ⟨h1, h2⟩ := ih hs.2
    by_cases h : e.toId ≤ c
    · rw [List.map_cons, List.countP_cons_of_pos (by simpa using h), List.take_succ_cons, List.drop_succ_cons, h1, h2,
        List.filter_cons_of_pos (by simpa using h), List.filter_cons_of_neg (by simpa using h)]
      exact ⟨rfl, rfl⟩
    · have h0 : ((e :: l).map Edge.toId).countP (fun x => x ≤ c) = 0 := by
        rw [List.countP_eq_zero]
        intro x hx
        obtain ⟨f, hf, rfl⟩ := List.mem_map.1 hx
        rcases List.mem_cons.1 hf with rfl | hf
        · simpa using h
        · have := hs.1 f hf
          simp only [decide_eq_true_eq]
          omega
      rw [h0]
      refine ⟨?_, ?_⟩
      · rw [List.take_zero]
        symm
        rw [List.filter_eq_nil_iff]
        intro f hf
        rcases List.mem_cons.1 hf with rfl | hf
        · simpa using h
        · have := hs.1 f hf
          simp only [decide_eq_true_eq]
          omega
      · rw [List.drop_zero]
        symm
        rw [List.filter_eq_self]
        intro f hf
        rcases List.mem_cons.1 hf with rfl | hf
        · simpa using h
        · have := hs.1 f hf
          simp only [decide_eq_true_eq]
          omega

/-- C48 (window): the slice of the edges taken for position `i` is the query window. -/
theorem C48_window {edges : List Edge} (hs : edges.Pairwise (fun a b => a.toId ≤ b.toId)) {start length q i : Nat}
    (hq : 1 ≤ q) (hi : i + (q - 1) < length) :
    window edges (EdgesInTime.spec start length (edges.map Edge.toId)) q i = some (windowSpec edges start q i) := by
  unfold window EdgesInTime.spec
  have h1 : checkedSub (i + q) 1 = some (i + (q - 1)) := by
    unfold checkedSub
    rw [if_pos (by omega)]
    congr 1
    omega
  simp only [h1, Option.bind_eq_bind, Option.bind_some, List.getElem?_map,
    List.getElem?_range (show i < length by omega), List.getElem?_range hi, Option.map_some]
  set a := (edges.map Edge.toId).countP (fun x => x ≤ start + i) with ha
  set b := (edges.map Edge.toId).countP (fun x => x ≤ start + (i + (q - 1))) with hb
  have hab : a ≤ b := by
    apply List.countP_mono_left
    intro x _ hx
    simp only [decide_eq_true_eq] at hx ⊢
    omega
  have hbl : b ≤ edges.length := by
    have := List.countP_le_length (p := fun x => decide (x ≤ start + (i + (q - 1)))) (l := edges.map Edge.toId)
    rw [List.length_map] at this
    exact this
  unfold slice
  rw [if_pos ⟨by omega, by omega⟩]
  congr 1
  have e1 : edges.take (min (b + 1) edges.length) = edges.take b ++ (edges.drop b).take 1 := by
    rw [← List.take_add]
    rcases Nat.le_total (b + 1) edges.length with h | h
    · rw [Nat.min_eq_left h]
    · rw [Nat.min_eq_right h, List.take_of_length_le (Nat.le_refl _), List.take_of_length_le h]
  have e2 : edges.take b = edges.take a ++ (edges.take b).drop a := by
    conv_lhs => rw [← List.take_append_drop a (edges.take b)]
    rw [List.take_take, Nat.min_eq_left hab]
  have hla : (edges.take a).length = a := by rw [List.length_take]; omega
  rw [e1, List.drop_append_of_le_length (by rw [List.length_take]; omega)]
  rw [windowSpec_toId]
  have hdr : (edges.take b).drop a =
      edges.filter (fun e => start + i < e.toId ∧ e.toId ≤ start + i + (q - 1)) := by
    rw [List.drop_take, (sorted_take hs (start + i)).2]
    have hb' : b - a = ((edges.filter (fun e => start + i < e.toId)).map Edge.toId).countP
        (fun x => x ≤ start + (i + (q - 1))) := by
      rw [← (sorted_take hs (start + i)).2, ← ha, List.map_drop]
      have h3 := List.countP_append (p := fun x => decide (x ≤ start + (i + (q - 1)))) (l₁ := (edges.map Edge.toId).take a)
        (l₂ := (edges.map Edge.toId).drop a)
      rw [List.take_append_drop, ← hb] at h3
      have h4 : ((edges.map Edge.toId).take a).countP (fun x => x ≤ start + (i + (q - 1))) = a := by
        rw [← List.map_take, (sorted_take hs (start + i)).1, List.countP_eq_length.2]
        · rw [List.length_map, ← (sorted_take hs (start + i)).1, ← ha, hla]
        · intro x hx
          obtain ⟨e, he, rfl⟩ := List.mem_map.1 hx
          have := (List.mem_filter.1 he).2
          simp only [decide_eq_true_eq] at this ⊢
          omega
      omega
    rw [hb', (sorted_take (hs.filter _) (start + (i + (q - 1)))).1, List.filter_filter]
    apply List.filter_congr
    intro e _
    simp only [Nat.add_assoc]
    rw [Bool.and_comm]
    simp
  rw [hdr, (sorted_take hs (start + (i + (q - 1)))).2]
  simp only [Nat.add_assoc]

/-! ### Scores -/

/-- All edges have a weight and all their starts a positive degree. -/
def Known (w : Counts EdgeKey) (d : Counts NodeKey) (edges : List Edge) : Prop :=
  ∀ e ∈ edges, (w e.edgeKey).isSome ∧ 1 ≤ d.val e.src.nodeKey

theorem score_eq {w : Counts EdgeKey} {d : Counts NodeKey} {win : List Edge} (h : Known w d win) :
    score w d win = some (normality w.val d.val win, win.length) := by
  have h1 : win.mapM (term w d) =
      some (win.map (fun e => (w.val e.edgeKey : ℚ) * ((d.val e.src.nodeKey : ℚ) - 1))) := by
    rw [mapM_eq_some]
    rw [List.forall₂_map_right_iff, List.forall₂_same]
    intro e he
    obtain ⟨h1, h2⟩ := h e he
    obtain ⟨x, hx⟩ := Option.isSome_iff_exists.1 h1
    obtain ⟨g, hg⟩ : ∃ g, d e.src.nodeKey = some g := by
      cases hd : d e.src.nodeKey with
      | none => simp [Counts.val, hd] at h2
      | some g => exact ⟨g, rfl⟩
    simp only [Counts.val, hg, Option.getD_some] at h2
    simp only [term, hx, hg, checkedSub, h2, if_true, Option.bind_eq_bind, Option.bind_some, Counts.val, Option.getD_some]
    push_cast [Nat.cast_sub h2]
    rfl
  unfold score
  rw [h1]
  rfl

theorem mem_windowSpec {edges : List Edge} {start q i : Nat} {e : Edge} (h : e ∈ windowSpec edges start q i) :
    e ∈ edges := by
  rcases List.mem_append.1 h with h | h
  · exact (List.mem_filter.1 h).1
  · exact (List.mem_filter.1 (List.mem_of_mem_take h)).1

/-- C48: for edges in temporal order and known weights and degrees, no index is out of range and the scores of a part of the
positions are the negated normalities of the query windows, where positions with an empty window repeat the previous score
(0 at the beginning of the part). -/
theorem C48_scores {edges : List Edge} (hs : edges.Pairwise (fun a b => a.toId ≤ b.toId)) {w : Counts EdgeKey}
    {d : Counts NodeKey} (hk : Known w d edges) {start length q : Nat} (hq : 1 ≤ q) {from_ len : Nat}
    (hlen : from_ + len + (q - 1) ≤ length) :
    helper edges (EdgesInTime.spec start length (edges.map Edge.toId)) w d q from_ len =
      some (carrySpec 0 ((List.range' from_ len).map (fun i => rawSpec w.val d.val (windowSpec edges start q i))),
        decide (0 < len ∧ windowSpec edges start q from_ = [])) := by
  unfold helper
  have hwin : ∀ i ∈ List.range' from_ len, window edges (EdgesInTime.spec start length (edges.map Edge.toId)) q i =
      some (windowSpec edges start q i) := by
    intro i hi
    rw [List.mem_range'_1] at hi
    exact C48_window hs hq (by omega)
  have hfold : ∀ (l : List Nat) (s : List ℚ × Bool), (∀ i ∈ l, window edges (EdgesInTime.spec start length
      (edges.map Edge.toId)) q i = some (windowSpec edges start q i)) →
      l.foldlM (fun s i => do
        let win ← window edges (EdgesInTime.spec start length (edges.map Edge.toId)) q i
        let r ← score w d win
        some (push s r)) s =
      some ((l.map (fun i => (normality w.val d.val (windowSpec edges start q i),
        (windowSpec edges start q i).length))).foldl push s) := by
    intro l
    induction l with
    | nil => intro s _; rfl
    | cons i l ih =>
      intro s h
      rw [List.foldlM_cons, h i (by simp)]
      simp only [Option.bind_eq_bind, Option.bind_some]
      rw [score_eq (fun e he => hk e (mem_windowSpec he))]
      simp only [Option.bind_some]
      have := ih (push s (normality w.val d.val (windowSpec edges start q i), (windowSpec edges start q i).length))
        (fun j hj => h j (by simp [hj]))
      simp only [Option.bind_eq_bind] at this
      rw [this]
      rfl
  rw [hfold _ _ hwin, foldl_push, carry_eq_spec, List.map_map]
  congr 1
  refine Prod.ext ?_ ?_
  · simp only
    congr 1
    apply List.map_congr_left
    intro i _
    simp only [Function.comp_apply, rawSpec, List.length_eq_zero_iff]
  · simp only
    cases len with
    | zero => rfl
    | succ m =>
      rw [List.range'_succ]
      simp

/-- C48 (one node): weights and degrees of the own edges are known. -/
theorem C48_known_local (edges : List Edge) : Known (Weights.edgeWeight edges) (Weights.nodeDegrees edges) edges := by
  intro e he
  constructor
  · rw [Weights.C45_local, if_neg]
    · rfl
    · rw [List.countP_eq_zero]
      intro h
      exact h e he (by simp)
  · rw [(Weights.C46_local edges e.src.nodeKey).1]
    unfold Weights.degreeSpec
    have : 0 < (Weights.distinct edges).countP (fun k => k.1 = e.src.nodeKey) := by
      rw [List.countP_pos_iff]
      exact ⟨e.edgeKey, List.mem_dedup.2 (List.mem_map.2 ⟨e, he, rfl⟩), by simp [Edge.edgeKey]⟩
    omega

/-- C48 (several nodes): after the rotations (schedules of C18) weights and degrees of all edges of the cluster are known at
every node. `own` are the edges after edge estimation, `moved` those after the transposition. -/
theorem C48_known {k : Nat} (hk : 2 ≤ k) {own moved : Nat → List Edge}
    (hperm : ((List.range k).flatMap moved).Perm ((List.range k).flatMap own))
    {sw : RingNet (Counts EdgeKey)} (hw : RingNet.Reachable true k sw)
    (hpw : ∀ j < k, sw.pay j = Weights.edgeWeight (moved j))
    {sd : RingNet (Counts NodeKey)} (hd : RingNet.Reachable true k sd)
    (hpd : ∀ j < k, sd.pay j = Weights.nodeDegrees (own j)) (hone : Weights.HeldOnce k own) {i : Nat} (hi : i < k)
    (hdw : sw.done i = 1) (hdd : sd.done i = 1) :
    Known (Weights.rotated sw i) (Weights.rotated sd i) ((List.range k).flatMap moved) := by
  intro e he
  constructor
  · exact ((Weights.C45_global hk hw hpw hi hdw e.edgeKey).2).2 ⟨e, he, rfl⟩
  · rw [(Weights.C46_global hk hd hpd hone hi hdd e.src.nodeKey).1]
    have he' := hperm.subset he
    unfold Weights.degreeSpec
    have : 0 < (Weights.distinct ((List.range k).flatMap own)).countP (fun k => k.1 = e.src.nodeKey) := by
      rw [List.countP_pos_iff]
      exact ⟨e.edgeKey, List.mem_dedup.2 (List.mem_map.2 ⟨e, he', rfl⟩), by simp [Edge.edgeKey]⟩
    omega

/-- C48: an edge without a weight is a crash. -/
theorem C48_unknown_crash {w : Counts EdgeKey} {d : Counts NodeKey} {win : List Edge} {e : Edge} (he : e ∈ win)
    (h : w e.edgeKey = none) : score w d win = none := by
  unfold score
  have : win.mapM (term w d) = none := by
    induction win with
    | nil => cases he
    | cons f win ih =>
      rw [List.mapM_cons]
      rcases List.mem_cons.1 he with rfl | he
      · simp [term, h]
      · rw [ih he]
        cases term w d f <;> rfl
  rw [this]
  rfl

/-! ### Filling gaps -/

theorem fillUp_length (c : ℚ) (l : List ℚ) : (fillUp c l).length = l.length := by
  induction l generalizing c with
  | nil => rfl
  | cons x l ih => rw [fillUp, List.length_cons, ih, List.length_cons]

/-- C55: filling up keeps the length and replaces exactly the zeros, each by the last entry before it which is not zero (or the
initial score). -/
theorem C55_fill_up (c : ℚ) (l : List ℚ) :
    fillUp c l = carrySpec c (l.map (fun x => if x = 0 then none else some x)) := by
  rw [← carry_eq_spec]
  induction l generalizing c with
  | nil => rfl
  | cons x l ih =>
    rw [fillUp, List.map_cons, carry, ih]
    by_cases h : x = 0 <;> simp [h]

/-- C55: if no score of a non-empty window is zero, filling up changes exactly the positions before the first non-empty
window: the result is what the scores would have been if the previous score had been known. -/
theorem C55_missing_only {l : List (Option ℚ)} (h : some (0 : ℚ) ∉ l) (c : ℚ) :
    fillUp c (carrySpec 0 l) = carrySpec c l := by
  rw [← carry_eq_spec, ← carry_eq_spec]
  have key : ∀ (l : List (Option ℚ)) (a c : ℚ), some (0 : ℚ) ∉ l → (a = 0 ∨ a = c) → fillUp c (carry a l) = carry c l := by
    intro l
    induction l with
    | nil => intros; rfl
    | cons x l ih =>
      intro a c hx hac
      have hl : some (0 : ℚ) ∉ l := fun h => hx (by simp [h])
      cases x with
      | none =>
        rw [carry, carry, fillUp]
        simp only [Option.getD_none]
        have e : (if a = 0 then c else a) = c := by
          rcases hac with rfl | rfl
          · simp
          · split <;> simp_all
        rw [e, ih a c hl hac]
      | some b =>
        have hb : b ≠ 0 := by rintro rfl; exact hx (by simp)
        rw [carry, carry, fillUp]
        simp only [Option.getD_some, if_neg hb]
        rw [ih b b hl (Or.inr rfl)]
  exact key l 0 c h (Or.inl rfl)

/-- C55 (what fails): a score which really is zero is overwritten as well. -/
theorem C55_zero_counterexample : ∃ l : List (Option ℚ), fillUp 5 (carrySpec 0 l) ≠ carrySpec 5 l ∧
    (fillUp 5 (carrySpec 0 l)).length = l.length ∧ l.head? = some none := by
  refine ⟨[none, some 3, some 0], ?_, ?_, rfl⟩ <;> decide

/-! ### Normalisation -/

theorem normalize_eq {l : List ℚ} {hi lo : ℚ} (h1 : hi ∈ l) (h2 : ∀ x ∈ l, x ≤ hi) (h3 : lo ∈ l) (h4 : ∀ x ∈ l, lo ≤ x) :
    normalize l = some (l.map (fun x => if hi - lo = 0 then none else some ((x - lo) / (hi - lo)))) := by
  have e1 : l.max? = some hi := List.max?_eq_some_iff.2 ⟨h1, h2⟩
  have e2 : l.min? = some lo := List.min?_eq_some_iff.2 ⟨h3, h4⟩
  unfold normalize
  rw [e1, e2]
  rfl

theorem exists_bounds {l : List ℚ} (h : l ≠ []) : ∃ hi lo, hi ∈ l ∧ (∀ x ∈ l, x ≤ hi) ∧ lo ∈ l ∧ ∀ x ∈ l, lo ≤ x := by
  obtain ⟨hi, e1⟩ := Option.isSome_iff_exists.1 (List.isSome_max?_of_ne_nil h)
  obtain ⟨lo, e2⟩ := Option.isSome_iff_exists.1 (List.isSome_min?_of_ne_nil h)
  obtain ⟨a, b⟩ := List.max?_eq_some_iff.1 e1
  obtain ⟨c, d⟩ := List.min?_eq_some_iff.1 e2
  exact ⟨hi, lo, a, b, c, d⟩

/-- C52: if two raw scores differ, normalisation succeeds; there is a strictly increasing affine function that maps every raw
score to its normalised score; all are in [0, 1]; 0 and 1 are attained. -/
theorem C52_normalised {l : List ℚ} (h : ∃ x ∈ l, ∃ y ∈ l, x ≠ y) :
    ∃ a b : ℚ, 0 < a ∧ normalize l = some (l.map (fun x => some (a * x + b))) ∧ (∀ x ∈ l, 0 ≤ a * x + b ∧ a * x + b ≤ 1) ∧
      (∃ x ∈ l, a * x + b = 0) ∧ ∃ x ∈ l, a * x + b = 1 := by
  obtain ⟨x, hx, y, hy, hxy⟩ := h
  obtain ⟨hi, lo, h1, h2, h3, h4⟩ := exists_bounds (List.ne_nil_of_mem hx)
  have hlt : lo < hi := by
    rcases lt_or_gt_of_ne hxy with h | h
    · exact lt_of_le_of_lt (h4 x hx) (lt_of_lt_of_le h (h2 y hy))
    · exact lt_of_le_of_lt (h4 y hy) (lt_of_lt_of_le h (h2 x hx))
  have hpos : 0 < hi - lo := by linarith
  have hne : hi - lo ≠ 0 := hpos.ne'
  have hval : ∀ z : ℚ, (hi - lo)⁻¹ * z + -lo * (hi - lo)⁻¹ = (z - lo) / (hi - lo) := by
    intro z
    rw [div_eq_mul_inv]
    ring
  refine ⟨(hi - lo)⁻¹, -lo * (hi - lo)⁻¹, inv_pos.2 hpos, ?_, ?_, ⟨lo, h3, ?_⟩, ⟨hi, h1, ?_⟩⟩
  · rw [normalize_eq h1 h2 h3 h4]
    congr 1
    apply List.map_congr_left
    intro z _
    rw [if_neg hne, hval]
  · intro z hz
    rw [hval]
    exact ⟨div_nonneg (by have := h4 z hz; linarith) hpos.le,
      (div_le_one hpos).2 (by have := h2 z hz; linarith)⟩
  · rw [hval, sub_self, zero_div]
  · rw [hval, div_self hne]

/-- C52 (what fails): the function crashes exactly on the empty vector, and every entry is 0/0 exactly if all raw scores are
equal. -/
theorem C52_degenerate (l : List ℚ) :
    (normalize l = none ↔ l = []) ∧
    (l ≠ [] → ((∀ x ∈ l, ∀ y ∈ l, x = y) ↔ normalize l = some (l.map (fun _ => none)))) := by
  constructor
  · constructor
    · intro h
      by_contra hne
      obtain ⟨hi, lo, h1, h2, h3, h4⟩ := exists_bounds hne
      rw [normalize_eq h1 h2 h3 h4] at h
      cases h
    · rintro rfl; rfl
  · intro hne
    obtain ⟨hi, lo, h1, h2, h3, h4⟩ := exists_bounds hne
    rw [normalize_eq h1 h2 h3 h4]
    constructor
    · intro h
      rw [h hi h1 lo h3, sub_self]
      simp
    · intro h x hx y hy
      have h := Option.some.inj h
      have : (if hi - lo = 0 then (none : Option ℚ) else some ((hi - lo) / (hi - lo))) = none :=
        List.map_inj_left.1 h hi h1
      by_cases hz : hi - lo = 0
      · have := h2 x hx; have := h4 x hx; have := h2 y hy; have := h4 y hy
        linarith
      · rw [if_neg hz] at this
        cases this

/-! ### Concrete instances -/

private def exE : List Edge := [⟨⟨0, 0, 1⟩, ⟨1, 0, 1⟩⟩, ⟨⟨1, 0, 1⟩, ⟨0, 0, 2⟩⟩, ⟨⟨0, 0, 2⟩, ⟨1, 0, 4⟩⟩]

example : EdgesInTime.count 0 6 (exE.map Edge.toId) = some [0, 1, 2, 2, 3, 3] ∧
    window exE [0, 1, 2, 2, 3, 3] 2 1 = some (windowSpec exE 0 2 1) ∧ (windowSpec exE 0 2 1).length = 2 ∧
    windowSpec exE 0 2 4 = [] := by decide
example : (helper exE [0, 1, 2, 2, 3, 3] (Weights.edgeWeight exE) (Weights.nodeDegrees exE) 2 0 5).map Prod.snd =
    some false := by
  have := C48_scores (edges := exE) (by decide) (C48_known_local exE) (start := 0) (length := 6) (q := 2) (by decide)
    (from_ := 0) (len := 5) (by decide)
  have e : EdgesInTime.spec 0 6 (exE.map Edge.toId) = [0, 1, 2, 2, 3, 3] := by decide
  rw [e] at this
  rw [this]
  decide
example : normalize [-3, -1, -2] = some [some 0, some 1, some (1 / 2)] := by decide +kernel
example : fillUp 5 [0, 0, 7, 8] = [5, 5, 7, 8] := by decide

end Scoring
end S2G
