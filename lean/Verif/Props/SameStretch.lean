import Verif.Props.Periodic
import Verif.Props.FileRun

/-!
# C90: equal stretches of the series get equal scores
-/

namespace S2G
namespace Pipeline
open Scoring Edges

/-! ### The window of a walk -/

theorem dst_pairs : ∀ {a : Node} {l : List Node} {x : Edge}, x ∈ pairs (a :: l) → x.dst ∈ l
  | _, [], _, h => by cases h
  | a, b :: l, x, h => by
    rw [pairs, List.mem_cons] at h
    rcases h with rfl | h
    · simp
    · exact List.mem_cons_of_mem _ (dst_pairs h)

theorem mem_dst_pairs : ∀ {a : Node} {l : List Node} {v : Node}, v ∈ l → ∃ x ∈ pairs (a :: l), x.dst = v
  | _, [], _, h => by cases h
  | a, b :: l, v, h => by
    rcases List.mem_cons.1 h with rfl | h
    · exact ⟨⟨a, v⟩, by simp [pairs], rfl⟩
    · obtain ⟨x, hx, e⟩ := mem_dst_pairs (a := b) h
      exact ⟨x, by rw [pairs]; exact List.mem_cons_of_mem _ hx, e⟩

/-- The window at a position only looks at a part of the walk which starts at or before the position and has a node after the window. -/
theorem window_local {A C M : List Node} {b : Node} {q i : Nat} (hA : ∀ v ∈ A, v.fromId ≤ i) (hb : b.fromId ≤ i)
    (hM : ∃ v ∈ M, i + (q - 1) < v.fromId) (hC : ∀ v ∈ C, i + (q - 1) < v.fromId) :
    windowSpec (pairs (A ++ b :: M ++ C)) 0 q i = windowSpec (pairs (b :: M)) 0 q i := by
  have h1 : pairs (A ++ b :: M ++ C) = pairs (A ++ [b]) ++ pairs (b :: (M ++ C)) := by
    rw [List.append_assoc, List.cons_append, pairs_append]
  have h2 : ∀ x ∈ pairs (A ++ [b]), x.dst.fromId ≤ i := by
    intro x hx
    have := ends_pairs (mem_ends hx).2
    rcases List.mem_append.1 this with h | h
    · exact hA _ h
    · rw [List.mem_singleton] at h
      rw [h]
      exact hb
  obtain ⟨L, y, hy⟩ : ∃ L y, b :: M = L ++ [y] := ⟨(b :: M).dropLast, (b :: M).getLast (by simp), (List.dropLast_append_getLast (by simp)).symm⟩
  have h3 : pairs (b :: (M ++ C)) = pairs (b :: M) ++ pairs (y :: C) := by
    rw [← List.cons_append, hy, List.append_assoc, List.singleton_append, pairs_append]
  have h4 : ∀ x ∈ pairs (y :: C), i + (q - 1) < x.dst.fromId := fun x hx => hC _ (dst_pairs hx)
  obtain ⟨v, hv, hvi⟩ := hM
  obtain ⟨x, hx, rfl⟩ := mem_dst_pairs (a := b) hv
  unfold windowSpec
  rw [h1, h3]
  simp only [List.filter_append, Nat.zero_add]
  have f1 : (pairs (A ++ [b])).filter (fun e => i < e.dst.fromId ∧ e.dst.fromId ≤ i + (q - 1)) = [] := by
    rw [List.filter_eq_nil_iff]
    intro x hx
    have := h2 x hx
    simp only [decide_eq_true_eq]
    omega
  have f2 : (pairs (A ++ [b])).filter (fun e => i + (q - 1) < e.dst.fromId) = [] := by
    rw [List.filter_eq_nil_iff]
    intro x hx
    have := h2 x hx
    simp only [decide_eq_true_eq]
    omega
  have f3 : (pairs (y :: C)).filter (fun e => i < e.dst.fromId ∧ e.dst.fromId ≤ i + (q - 1)) = [] := by
    rw [List.filter_eq_nil_iff]
    intro x hx
    have := h4 x hx
    simp only [decide_eq_true_eq]
    omega
  have f4 : 1 ≤ ((pairs (b :: M)).filter (fun e => i + (q - 1) < e.dst.fromId)).length :=
    List.length_pos_of_mem (List.mem_filter.2 ⟨hx, by simpa using hvi⟩)
  rw [f1, f2, f3, List.nil_append, List.nil_append, List.append_nil, List.take_append_of_le_length f4]

/-- A node moved in time. -/
def shift (a : Nat) (v : Node) : Node := ⟨v.seg, v.cluster, a + v.fromId⟩

theorem window_shift (E : List Edge) (a q o : Nat) :
    windowSpec (E.map (Edge.rename (shift a))) 0 q (a + o) = (windowSpec E 0 q o).map (Edge.rename (shift a)) := by
  unfold windowSpec
  rw [List.filter_map, List.filter_map, List.map_append, List.map_take]
  congr 2
  · apply List.filter_congr
    intro x _
    simp only [Function.comp_apply, Edge.rename, shift, Nat.zero_add]
    exact decide_eq_decide.2 (by omega)
  · congr 1
    apply List.filter_congr
    intro x _
    simp only [Function.comp_apply, Edge.rename, shift, Nat.zero_add]
    exact decide_eq_decide.2 (by omega)

theorem raw_shift (w : EdgeKey → Nat) (d : NodeKey → Nat) (win : List Edge) (a : Nat) :
    rawSpec w d (win.map (Edge.rename (shift a))) = rawSpec w d win := by
  unfold rawSpec normality
  simp only [List.map_eq_nil_iff, List.map_map, List.length_map]
  rfl

/-- The same part of a walk, at two times, has the same score. -/
theorem raw_same {E A A' C C' L : List Node} {b : Node} {q a a' o : Nat} (h : E = A ++ (b :: L).map (shift a) ++ C)
    (h' : E = A' ++ (b :: L).map (shift a') ++ C') (hA : ∀ v ∈ A, v.fromId < a) (hA' : ∀ v ∈ A', v.fromId < a')
    (hb : b.fromId ≤ o) (hL : ∃ v ∈ L, o + (q - 1) < v.fromId) (hC : ∀ v ∈ C, a + o + (q - 1) < v.fromId)
    (hC' : ∀ v ∈ C', a' + o + (q - 1) < v.fromId) :
    rawOf (pairs E) q (a + o) = rawOf (pairs E) q (a' + o) ∧ rawOf (pairs E) q (a + o) ≠ none := by
  have key : ∀ {a A C}, E = A ++ (b :: L).map (shift a) ++ C → (∀ v ∈ A, v.fromId < a) →
      (∀ v ∈ C, a + o + (q - 1) < v.fromId) → rawOf (pairs E) q (a + o) =
        rawSpec (weightOf (pairs E)) (degreeOf (pairs E)) (windowSpec (pairs (b :: L)) 0 q o) := by
    intro a A C h hA hC
    unfold rawOf
    have : windowSpec (pairs E) 0 q (a + o) = (windowSpec (pairs (b :: L)) 0 q o).map (Edge.rename (shift a)) := by
      rw [← window_shift, ← pairs_map, h, List.map_cons]
      refine window_local (fun v hv => by have := hA v hv; omega) (by show a + b.fromId ≤ _; omega) ?_ hC
      obtain ⟨v, hv, h1⟩ := hL
      exact ⟨shift a v, List.mem_map_of_mem hv, by show _ < a + v.fromId; omega⟩
    rw [this, raw_shift]
  rw [key h hA hC, key h' hA' hC']
  refine ⟨rfl, ?_⟩
  obtain ⟨v, hv, h1⟩ := hL
  obtain ⟨x, hx, rfl⟩ := mem_dst_pairs (a := b) hv
  have : windowSpec (pairs (b :: L)) 0 q o ≠ [] := by
    unfold windowSpec
    have := List.length_pos_of_mem (show x ∈ (pairs (b :: L)).filter (fun e => 0 + o + (q - 1) < e.dst.fromId) from
      List.mem_filter.2 ⟨hx, by simpa using h1⟩)
    intro hn
    have := List.append_eq_nil_iff.1 hn
    have := congrArg List.length this.2
    rw [List.length_take, List.length_nil] at this
    omega
  unfold rawSpec
  rw [if_neg this]
  simp

theorem vector_entry {E : List Edge} {q len i : Nat} (hi : i < len) {x : ℚ} (h : rawOf E q i = some x) :
    (vector E q len)[i]? = some x := by
  unfold vector carrySpec
  rw [List.getElem?_map, List.length_map, List.length_range, List.getElem?_range hi, Option.map_some,
    List.take_add_one, List.getElem?_map, List.getElem?_range hi, Option.map_some, h]
  simp [List.reduceOption_append]

theorem normalize_entry {l : List ℚ} {r : List (Option ℚ)} (h : Scoring.normalize l = some r) {i j : Nat} (hij : l[i]? = l[j]?) :
    r.length = l.length ∧ r[i]? = r[j]? := by
  unfold Scoring.normalize at h
  simp only [Option.bind_eq_bind, Option.bind_eq_some_iff] at h
  obtain ⟨hi, _, lo, _, h⟩ := h
  cases h
  rw [List.length_map, List.getElem?_map, List.getElem?_map, hij]
  exact ⟨rfl, rfl⟩

end Pipeline

namespace Whole
open Pca Rotation Points Pipeline Edges SegState

variable {e w : Nat}

/-! ### The walk of numbered points -/

/-- The step which starts at a point. -/
def stepAt (K : List Point) (x : Nat) : Trans :=
  ⟨⟨x, (K[x]?.map Point.segment).getD 0⟩, ⟨x + 1, (K[x + 1]?.map Point.segment).getD 0⟩⟩

theorem steps_getD : ∀ l : List Pt, steps l = (List.range (l.length - 1)).map (fun j => ⟨l.getD j ⟨0, 0⟩, l.getD (j + 1) ⟨0, 0⟩⟩)
  | [] => rfl
  | [_] => rfl
  | a :: b :: l => by
    rw [steps, steps_getD (b :: l)]
    simp only [List.length_cons, Nat.add_sub_cancel]
    rw [List.range_succ_eq_map, List.map_cons, List.map_map]
    rfl

theorem steps_numbered {K : List Point} (hid : K.map Point.id = List.range K.length) :
    steps (K.map toPt) = (List.range (K.length - 1)).map (stepAt K) := by
  rw [steps_getD, List.length_map]
  apply List.map_congr_left
  intro x hx
  rw [List.mem_range] at hx
  have key : ∀ j, j < K.length → (K.map toPt).getD j ⟨0, 0⟩ = ⟨j, (K[j]?.map Point.segment).getD 0⟩ := by
    intro j hj
    have h1 : (K.map Point.id)[j]? = some j := by rw [hid, List.getElem?_range hj]
    rw [List.getElem?_map, List.getElem?_eq_getElem hj] at h1
    rw [List.getD_eq_getElem?_getD, List.getElem?_map, List.getElem?_eq_getElem hj]
    simp only [Option.map_some, Option.getD_some, toPt]
    congr 1
    exact Option.some.inj h1
  rw [key x (by omega), key (x + 1) (by omega)]
  rfl

/-- The nodes of the walk which belong to the step from point `a + k`, with `k` as the time. -/
def nodesAt (rate : Nat) (lab : Nat → Nat → Nat) (K : List Point) (a k : Nat) : List Node :=
  if (stepAt K (a + k)).isValid rate then ((stepAt K (a + k)).intersectionSegments rate).map (fun s => ⟨s, lab (a + k) s, k⟩) else []

theorem fromId_nodesAt {rate : Nat} {lab : Nat → Nat → Nat} {K : List Point} {a k : Nat} {v : Node} (h : v ∈ nodesAt rate lab K a k) :
    v.fromId = k := by
  unfold nodesAt at h
  split at h
  · obtain ⟨_, _, rfl⟩ := List.mem_map.1 h
    rfl
  · cases h

theorem walk_numbered {K : List Point} (hid : K.map Point.id = List.range K.length) (rate : Nat) (lab : Nat → Nat → Nat) :
    walk rate lab (validSteps rate (K.map toPt)) = (List.range (K.length - 1)).flatMap (nodesAt rate lab K 0) := by
  unfold validSteps walk
  rw [steps_numbered hid]
  induction List.range (K.length - 1) with
  | nil => rfl
  | cons x l ih =>
    rw [List.map_cons, List.filter_cons, List.flatMap_cons, ← ih]
    unfold nodesAt
    rw [Nat.zero_add]
    split
    · rw [List.flatMap_cons]
      rfl
    · rfl

theorem nodesAt_shift (rate : Nat) (lab : Nat → Nat → Nat) (K : List Point) (a k : Nat) :
    nodesAt rate lab K 0 (a + k) = (nodesAt rate lab K a k).map (shift a) := by
  unfold nodesAt
  rw [Nat.zero_add]
  split
  · rw [List.map_map]
    rfl
  · rfl

theorem range_split (a n N : Nat) (h : a + n ≤ N) :
    List.range N = List.range a ++ (List.range n).map (a + ·) ++ (List.range (N - a - n)).map (a + n + ·) := by
  conv_lhs => rw [show N = a + n + (N - a - n) by omega]
  rw [List.range_add, List.range_add]

/-- The walk before, in and after a stretch. -/
theorem walk_stretch {K : List Point} (hid : K.map Point.id = List.range K.length) (rate : Nat) (lab : Nat → Nat → Nat) {a n : Nat}
    (h : a + n + 1 ≤ K.length) : ∃ A C, walk rate lab (validSteps rate (K.map toPt)) =
      A ++ ((List.range n).flatMap (nodesAt rate lab K a)).map (shift a) ++ C ∧ (∀ v ∈ A, v.fromId < a) ∧ ∀ v ∈ C, a + n ≤ v.fromId := by
  refine ⟨(List.range a).flatMap (nodesAt rate lab K 0),
    ((List.range (K.length - 1 - a - n)).map (a + n + ·)).flatMap (nodesAt rate lab K 0), ?_, ?_, ?_⟩
  · rw [walk_numbered hid, range_split a n (K.length - 1) (by omega), List.flatMap_append, List.flatMap_append, List.flatMap_map,
      List.map_flatMap]
    congr 2
    apply List.flatMap_congr
    intro k _
    exact nodesAt_shift rate lab K a k
  · intro v hv
    obtain ⟨x, hx, hv⟩ := List.mem_flatMap.1 hv
    rw [fromId_nodesAt hv]
    exact List.mem_range.1 hx
  · intro v hv
    obtain ⟨x, hx, hv⟩ := List.mem_flatMap.1 hv
    obtain ⟨y, _, rfl⟩ := List.mem_map.1 hx
    rw [fromId_nodesAt hv]
    omega

theorem stretch_sorted (rate : Nat) (lab : Nat → Nat → Nat) (K : List Point) (a n : Nat) :
    ((List.range n).flatMap (nodesAt rate lab K a)).Pairwise (fun v u => v.fromId ≤ u.fromId) := by
  rw [List.pairwise_flatMap]
  constructor
  · intro k _
    rw [List.pairwise_iff_forall_sublist]
    intro v u h
    have h1 := h.subset
    rw [fromId_nodesAt (h1 (by simp : v ∈ [v, u])), fromId_nodesAt (h1 (by simp : u ∈ [v, u]))]
  · apply List.pairwise_lt_range.imp
    intro x y hxy v hv u hu
    rw [fromId_nodesAt hv, fromId_nodesAt hu]
    omega

theorem nodesAt_ne {rate : Nat} {K : List Point} (hseg : ∀ x ∈ K, x.segment < rate) (lab : Nat → Nat → Nat) {a k : Nat}
    (h : stepAt K (a + k) ∈ validSteps rate (K.map toPt)) : nodesAt rate lab K a k ≠ [] := by
  have hv := (List.mem_filter.1 h).2
  obtain ⟨h1, h2, _⟩ := validSteps_valid (by
    intro x hx
    obtain ⟨y, hy, rfl⟩ := List.mem_map.1 hx
    exact hseg y hy) _ h
  unfold nodesAt
  rw [if_pos hv]
  have : (stepAt K (a + k)).intersectionSegments rate ≠ [] := by
    rcases segs_range _ h1 h2 hv with ⟨h3, h4⟩ | ⟨h3, h4, _⟩ <;> rw [h4]
    · intro h5
      have := congrArg List.length h5
      rw [List.length_range', List.length_nil] at this
      omega
    · intro h5
      have := congrArg List.length h5
      rw [List.length_append, List.length_range', List.length_range', List.length_nil] at this
      omega
  simpa using this

/-- Equal parts of the walk: equal scores. -/
theorem stretch_scores {K : List Point} (hid : K.map Point.id = List.range K.length) {rate : Nat} (hseg : ∀ x ∈ K, x.segment < rate)
    (lab : Nat → Nat → Nat) {a b n o q : Nat} (ha : a + n + 1 ≤ K.length) (hb : b + n + 1 ≤ K.length)
    (hsame : ∀ k < n, nodesAt rate lab K a k = nodesAt rate lab K b k)
    (h1 : ∃ t ∈ validSteps rate (K.map toPt), a ≤ t.src.id ∧ t.src.id ≤ a + o)
    (h2 : ∃ t ∈ validSteps rate (K.map toPt), a + o + q ≤ t.src.id ∧ t.src.id < a + n) (hq : 1 ≤ q) :
    rawOf (pairs (walk rate lab (validSteps rate (K.map toPt)))) q (a + o) =
      rawOf (pairs (walk rate lab (validSteps rate (K.map toPt)))) q (b + o) ∧
    rawOf (pairs (walk rate lab (validSteps rate (K.map toPt)))) q (a + o) ≠ none := by
  obtain ⟨A, C, hW, hA, hC⟩ := walk_stretch hid rate lab ha
  obtain ⟨A', C', hW', hA', hC'⟩ := walk_stretch hid rate lab hb
  have hL : (List.range n).flatMap (nodesAt rate lab K b) = (List.range n).flatMap (nodesAt rate lab K a) :=
    List.flatMap_congr (fun k hk => (hsame k (List.mem_range.1 hk)).symm)
  rw [hL] at hW'
  have hst : ∀ t ∈ validSteps rate (K.map toPt), a ≤ t.src.id → t.src.id < a + n →
      ∃ v ∈ (List.range n).flatMap (nodesAt rate lab K a), a + v.fromId = t.src.id := by
    intro t ht h3 h4
    have ht' := (List.mem_filter.1 ht).1
    rw [steps_numbered hid] at ht'
    obtain ⟨x, _, rfl⟩ := List.mem_map.1 ht'
    have hx : (stepAt K x).src.id = x := rfl
    rw [hx] at h3 h4 ⊢
    obtain ⟨v, hv⟩ := List.exists_mem_of_ne_nil _ (nodesAt_ne hseg lab (a := a) (k := x - a) (by rw [show a + (x - a) = x by omega]; exact ht))
    refine ⟨v, List.mem_flatMap.2 ⟨x - a, List.mem_range.2 (by omega), hv⟩, ?_⟩
    rw [fromId_nodesAt hv]
    omega
  obtain ⟨t, ht, g1, g2⟩ := h1
  obtain ⟨t', ht', g3, g4⟩ := h2
  obtain ⟨v, hv, ev⟩ := hst t ht g1 (by omega)
  obtain ⟨u, hu, eu⟩ := hst t' ht' (by omega) g4
  have hs := stretch_sorted rate lab K a n
  generalize (List.range n).flatMap (nodesAt rate lab K a) = L at hW hW' hv hu hs
  cases L with
  | nil => cases hv
  | cons b0 L =>
    have hb0 : b0.fromId ≤ o := by
      rcases List.mem_cons.1 hv with rfl | hv
      · omega
      · have := (List.pairwise_cons.1 hs).1 v hv
        omega
    refine raw_same hW hW' hA hA' hb0 ⟨u, ?_, by omega⟩ (fun v hv => by have := hC v hv; omega) (fun v hv => by have := hC' v hv; omega)
    rcases List.mem_cons.1 hu with rfl | hu
    · omega
    · exact hu

/-! ### Labels -/

/-- Equal rows get equal labels. -/
theorem clustering_same {resolution order : Nat} {p : Parameters} (ht : 1 ≤ p.nThreads) {data : List (List ℝ)} (hd : ∀ row ∈ data, row.length = e + 1)
    (h2 : 2 ≤ data.length) {ls : List Nat} (h : clustering resolution order p e data = some ls) {i j : Nat} {r : List ℝ}
    (hi : data[i]? = some r) (hj : data[j]? = some r) : ls[i]? = ls[j]? := by
  obtain ⟨⟨l, tb⟩, hc, rfl⟩ := Option.map_eq_some_iff.1 h
  exact ((Kde.cluster_order_free ht hd h2 (List.Perm.refl _)).2 l tb l tb hc hc i j i i r r hi hj hi hi).2 rfl

/-- Two crossings of a border at the same place belong to the same node of the graph. -/
theorem label_same {resolution order : Nat} {p : Parameters} (ht : 1 ≤ p.nThreads) {ts : List Trans} {co : Inter → List ℝ} {lab : Nat → Nat → Nat}
    (hl : Labelled (clustering resolution order p e) co p.rate ts lab)
    (hco : ∀ t ∈ ts, ∀ s ∈ t.intersectionSegments p.rate, (co (t, s)).length = e + 1) {t u : Trans} {s : Nat} (hs : s < p.rate) (ht1 : t ∈ ts)
    (hu : u ∈ ts) (hts : s ∈ t.intersectionSegments p.rate) (hus : s ∈ u.intersectionSegments p.rate) (hne : t ≠ u)
    (hc : co (t, s) = co (u, s)) : lab t.src.id s = lab u.src.id s := by
  have hmem : ∀ {t}, t ∈ ts → s ∈ t.intersectionSegments p.rate → (t, s) ∈ (crossings p.rate ts s).reverse := by
    intro t h1 h2
    rw [List.mem_reverse]
    exact List.mem_map.2 ⟨t, List.mem_filter.2 ⟨h1, by simpa using h2⟩, rfl⟩
  obtain ⟨i, hi, ei⟩ := List.getElem_of_mem (hmem ht1 hts)
  obtain ⟨j, hj, ej⟩ := List.getElem_of_mem (hmem hu hus)
  have hij : i ≠ j := by
    rintro rfl
    rw [ei] at ej
    exact hne (congrArg Prod.fst ej)
  rw [List.length_reverse] at hi hj
  have hlen : 2 ≤ (crossings p.rate ts s).length := by omega
  have e1 : (crossings p.rate ts s).reverse[i]? = some (t, s) := by
    rw [List.getElem?_eq_getElem (by rw [List.length_reverse]; exact hi), ei]
  have e2 : (crossings p.rate ts s).reverse[j]? = some (u, s) := by
    rw [List.getElem?_eq_getElem (by rw [List.length_reverse]; exact hj), ej]
  have := clustering_same (i := i) (j := j) (r := co (t, s)) ht (data := (crossings p.rate ts s).reverse.map co) (by
    intro row hrow
    obtain ⟨x, hx, rfl⟩ := List.mem_map.1 hrow
    obtain ⟨g1, g2⟩ := Cluster.mem_crossings (List.mem_reverse.1 hx)
    exact hco x.1 g1 x.2 g2) (by simpa using hlen) (hl s hs hlen) (by rw [List.getElem?_map, e1]; rfl)
    (by rw [List.getElem?_map, e2, hc]; rfl)
  rw [List.getElem?_map, List.getElem?_map, e1, e2] at this
  exact Option.some.inj this

/-! ### Points -/

/-- Positions `a` to `a + n - 1` of a list have the entries of positions `b` to `b + n - 1`. -/
def Same {α : Type} (l : List α) (a b n : Nat) : Prop := a + n ≤ l.length ∧ b + n ≤ l.length ∧ ∀ k < n, l[a + k]? = l[b + k]?

theorem Same.map {α β : Type} (f : α → β) {l : List α} {a b n : Nat} (h : Same l a b n) : Same (l.map f) a b n := by
  obtain ⟨h1, h2, h3⟩ := h
  refine ⟨by rw [List.length_map]; exact h1, by rw [List.length_map]; exact h2, fun k hk => ?_⟩
  rw [List.getElem?_map, List.getElem?_map, h3 k hk]

theorem stepAt_same {K : List Point} {a b n k : Nat} (h : Same (K.map shape) a b (n + 1)) (hk : k < n) :
    (stepAt K (a + k)).src.seg = (stepAt K (b + k)).src.seg ∧ (stepAt K (a + k)).dst.seg = (stepAt K (b + k)).dst.seg := by
  have key : ∀ j < n + 1, (K[a + j]?.map Point.segment).getD 0 = (K[b + j]?.map Point.segment).getD 0 := by
    intro j hj
    have := h.2.2 j hj
    rw [List.getElem?_map, List.getElem?_map] at this
    have := congrArg (Option.map Prod.snd) this
    rw [Option.map_map, Option.map_map] at this
    exact congrArg (fun o => Option.getD o 0) this
  exact ⟨key k (by omega), by have := key (k + 1) (by omega); exact this⟩

theorem ends_same {K : List Point} (hid : K.map Point.id = List.range K.length) {a b n k : Nat} (h : Same (K.map shape) a b (n + 1)) (hk : k < n) :
    ends (e := e) K (stepAt K (a + k)) = ends K (stepAt K (b + k)) := by
  obtain ⟨h1, h2, h3⟩ := h
  rw [List.length_map] at h1 h2
  have key : ∀ j < n + 1, coordsOf K (a + j) = coordsOf K (b + j) := by
    intro j hj
    have := h3 j hj
    rw [List.getElem?_map, List.getElem?_map, List.getElem?_eq_getElem (by omega), List.getElem?_eq_getElem (by omega)] at this
    unfold coordsOf
    rw [Cluster.find_numbered hid (by omega), Cluster.find_numbered hid (by omega)]
    exact congrArg (fun o => (Option.map Prod.fst o).getD []) this
  unfold ends
  show (vec _ (coordsOf K (a + k)), vec _ (coordsOf K (a + (k + 1)))) = (vec _ (coordsOf K (b + k)), vec _ (coordsOf K (b + (k + 1))))
  rw [key k (by omega), key (k + 1) (by omega)]

/-- Equal points: equal parts of the walk. -/
theorem nodesAt_same {resolution order : Nat} {p : Parameters} (ht : 1 ≤ p.nThreads) {K : List Point}
    (hid : K.map Point.id = List.range K.length) (hseg : ∀ x ∈ K, x.segment < p.rate) {lab : Nat → Nat → Nat}
    (hl : Labelled (clustering resolution order p e) (fun x => (interCoord e K (validSteps p.rate (K.map toPt)) p.rate x).getD []) p.rate
      (validSteps p.rate (K.map toPt)) lab)
    (hco : ∀ t ∈ validSteps p.rate (K.map toPt), ∀ s ∈ t.intersectionSegments p.rate,
      interCoord e K (validSteps p.rate (K.map toPt)) p.rate (t, s) ≠ none)
    {a b n k : Nat} (h : Same (K.map shape) a b (n + 1)) (hk : k < n) : nodesAt p.rate lab K a k = nodesAt p.rate lab K b k := by
  by_cases hab : a = b
  · rw [hab]
  obtain ⟨g1, g2⟩ := stepAt_same h hk
  obtain ⟨k1, k2⟩ := kind_congr g1 g2 p.rate
  have hlen := h.1
  have hlen' := h.2.1
  rw [List.length_map] at hlen hlen'
  unfold nodesAt
  rw [← k1, ← k2]
  split
  · rename_i hv
    apply List.map_congr_left
    intro s hs
    have hmem : ∀ c, c + (n + 1) ≤ K.length → (stepAt K (c + k)).isValid p.rate = true → stepAt K (c + k) ∈ validSteps p.rate (K.map toPt) := by
      intro c hc hv
      refine List.mem_filter.2 ⟨?_, hv⟩
      rw [steps_numbered hid]
      exact List.mem_map.2 ⟨c + k, List.mem_range.2 (by omega), rfl⟩
    have m1 := hmem a hlen hv
    have m2 := hmem b hlen' (by rw [← k1]; exact hv)
    have hsr : s < p.rate := by
      unfold Trans.intersectionSegments at hs
      obtain ⟨j, _, rfl⟩ := List.mem_map.1 hs
      refine Nat.mod_lt _ ?_
      have := hseg K[a] (List.getElem_mem _)
      omega
    have hlab := label_same ht hl (fun t ht s hs => by
      obtain ⟨y, hy⟩ := Option.ne_none_iff_exists'.1 (hco t ht s hs)
      rw [hy]
      exact Cluster.interCoord_length hy) hsr m1 m2 hs (by rw [← k2]; exact hs)
      (fun hh => hab (by have := congrArg (fun t : Trans => t.src.id) hh; exact Nat.add_right_cancel this)) (by
        unfold interCoord
        show (Option.map _ (Geometry.intersectionPoint _ _ (ends K (stepAt K (a + k))) s)).getD [] =
          (Option.map _ (Geometry.intersectionPoint _ _ (ends K (stepAt K (b + k))) s)).getD []
        rw [ends_same hid h hk])
    exact congrArg (fun c => (⟨s, c, k⟩ : Node)) hlab
  · rfl

/-! ### The series -/

theorem specPoint_same {p : Parameters} {series : List (Fin (e + 1) → ℝ)} {a b n k : Nat} (hs : Same series a b n) (hL : 1 ≤ p.latent)
    (hw : p.latent ≤ p.patternLength) (hk : k + (p.patternLength - 1) ≤ n) :
    PhaseSpace.specPoint p series (a + k) = PhaseSpace.specPoint p series (b + k) := by
  unfold PhaseSpace.specPoint
  apply List.map_congr_left
  intro i hi
  rw [List.mem_range] at hi
  apply Finset.sum_congr rfl
  intro t ht
  rw [Finset.mem_range] at ht
  unfold PhaseSpace.series
  have := hs.2.2 (k + i + t) (by omega)
  rw [List.getD_eq_getElem?_getD, List.getD_eq_getElem?_getD, show a + k + i + t = a + (k + i + t) by omega, this]
  congr 2
  omega

/-- Points of equal stretches. -/
theorem PointsOf.same {lib : Lib w} {p : Parameters} {series : List (Fin (e + 1) → ℝ)} {q : List Point} {a b n : Nat}
    (h : PointsOf lib p series q) (hL : 1 ≤ p.latent) (hn : p.patternLength - 1 ≤ n) (hs : Same series a b n) :
    Same (q.map Point.coordinates) a b (n - (p.patternLength - 1)) ∧ ∀ x ∈ q, newPoint x.id x.coordinates p.rate = some x := by
  obtain ⟨lo, hi, ps, ref, comps, means, first, R, hmm, hw, href, hps, hpca, hfirst, hR, hpts⟩ := h
  obtain ⟨hN, rfl⟩ := build_some hw hps
  obtain ⟨hle, hw'⟩ := checkedSub_some hw
  rw [Cluster.rows_map (fun m => (comps m, means m))] at hpts
  unfold applyRotation at hpts
  rw [if_neg (by omega)] at hpts
  simp only [checkedDiv, Option.bind_eq_bind, Option.bind_eq_some_iff] at hpts
  obtain ⟨o, ho, hpts⟩ := hpts
  refine ⟨?_, addPoints_new hpts⟩
  rw [Cluster.addPoints_coordinates hpts]
  refine Same.map _ (Same.map _ ?_)
  obtain ⟨h1, h2, _⟩ := id hs
  refine ⟨by rw [List.length_map, List.length_range]; omega, by rw [List.length_map, List.length_range]; omega, fun k hk => ?_⟩
  rw [List.getElem?_map, List.getElem?_map, List.getElem?_range (by omega), List.getElem?_range (by omega)]
  exact congrArg some (specPoint_same hs hL (by omega) (by omega))

/-- Points of equal stretches after self correction. -/
theorem corrected_same {p : Parameters} {q m : List Point} {a b n : Nat} (hm : q.mapM (mirrorPoint p.rate) = some m)
    (hq : Same (q.map Point.coordinates) a b n) (hnew : ∀ x ∈ q, newPoint x.id x.coordinates p.rate = some x) :
    Same ((corrected p m q).map shape) a b n := by
  obtain ⟨h1, h2, h3⟩ := hq
  rw [List.length_map] at h1 h2
  have hmap := Kde.map_of_mapM hm
  have hl : m.length = q.length := by simpa using (congrArg List.length hmap).symm
  have c1 : Same (q.map shape) a b n := by
    refine ⟨by rw [List.length_map]; exact h1, by rw [List.length_map]; exact h2, fun k hk => ?_⟩
    have h := h3 k hk
    rw [List.getElem?_map, List.getElem?_map, List.getElem?_eq_getElem (by omega), List.getElem?_eq_getElem (by omega)] at h ⊢
    have h := Option.some.inj h
    have g2 := hnew _ (List.getElem_mem (show a + k < q.length by omega))
    have g3 := hnew _ (List.getElem_mem (show b + k < q.length by omega))
    rw [h] at g2
    exact congrArg some (newPoint_shape g2 g3)
  have c2 : Same (m.map shape) a b n := by
    refine ⟨by rw [List.length_map]; omega, by rw [List.length_map]; omega, fun k hk => ?_⟩
    have h := h3 k hk
    have key : ∀ i (hi : i < q.length), mirrorPoint p.rate q[i] = some (m[i]'(by omega)) := fun i hi => by
      have := congrArg (fun l => l[i]?) hmap
      simpa [List.getElem?_eq_getElem hi, List.getElem?_eq_getElem (show i < m.length by omega)] using this
    rw [List.getElem?_map, List.getElem?_map, List.getElem?_eq_getElem (by omega), List.getElem?_eq_getElem (by omega)] at h ⊢
    exact congrArg some (mirrorPoint_shape (Option.some.inj h) (key _ (by omega)) (key _ (by omega)))
  unfold corrected
  split
  · exact c2
  · exact c1

/-! ### Why a step before and a step after the window are needed -/

/-- All crossings of a border in one cluster: if no border is crossed exactly once, then the run delivers the scores of the walk without labels. -/
theorem one_cluster {p : Parameters} (hp : p.WellFormed) (hn : p.nClusterNodes = 1) (hsc : p.selfCorrection = false) {pts : List Pt}
    (hid : pts.map Pt.id = List.range pts.length) (hseg : ∀ x ∈ pts, x.seg < p.rate) (hq : 1 ≤ p.queryLength) (ht : 1 ≤ p.nThreads)
    (hsl : p.nThreads + p.queryLength ≤ pts.length) (h2 : ∀ s < p.rate, 2 ≤ (crossings p.rate (validSteps p.rate pts) s).length)
    (h40 : ∀ t ∈ (validSteps p.rate pts).head?, ¬ (t.src.seg + 2 = p.rate ∧ t.dst.seg < t.src.seg)) :
    ∃ s0, localRun exClu (fun x => x.1.src.id) id p pts.length pts = some s0 ∧ ∀ s, ParScore.Reachable s0 s → s.pool = [] →
      delivered s = [Scoring.normalize (vector (pairs (walk p.rate (fun _ _ => 0) (validSteps p.rate pts))) p.queryLength
        (pts.length - p.queryLength))] := by
  have he : effective p id pts = pts := by
    unfold effective
    simp [hsc]
  obtain ⟨lab, h1, s0, hs0, h3⟩ := C64_run exClu_labels (fun x => x.1.src.id) (mirror := id) (p := p) hp hn (len := pts.length) (pts := pts)
    (fun a => ⟨rfl, fun h => h⟩) hid hseg le_rfl hq ht hsl (fun s _ _ h => by cases h) (by rw [he]; exact h40)
  rw [he] at h1 h3
  have hw : walk p.rate lab (validSteps p.rate pts) = walk p.rate (fun _ _ => 0) (validSteps p.rate pts) := by
    unfold walk
    rw [List.flatMap_def, List.flatMap_def]
    congr 1
    apply List.map_congr_left
    intro t htt
    unfold stepWalk
    apply List.map_congr_left
    intro s hs
    have hsr : s < p.rate := by
      unfold Trans.intersectionSegments at hs
      obtain ⟨j, _, rfl⟩ := List.mem_map.1 hs
      exact Nat.mod_lt _ (by have := hp.1; have := hp.2; omega)
    have hlab := Option.some.inj (h1 s hsr (h2 s hsr))
    have hmem : (t, s) ∈ (crossings p.rate (validSteps p.rate pts) s).reverse := by
      rw [List.mem_reverse]
      exact List.mem_map.2 ⟨t, List.mem_filter.2 ⟨htt, by simpa using hs⟩, rfl⟩
    obtain ⟨i, hi, ei⟩ := List.getElem_of_mem hmem
    have := congrArg (fun l => l[i]?) hlab
    simp only [List.map_map, List.getElem?_map, List.getElem?_eq_getElem hi, ei, Option.map_some, Function.comp_apply] at this
    unfold node
    rw [← Option.some.inj this]
  rw [hw] at h3
  exact ⟨s0, hs0, fun s hs hp => (h3 s hs).2.1 hp⟩

/-- Points from their segments. -/
def ptsOf (l : List Nat) : List Pt := l.zipIdx.map (fun x => ⟨x.2, x.1⟩)

/-- The points of `C90_before`. -/
def exBefore : List Pt := ptsOf [5, 6, 7, 5, 6, 3, 3, 4, 5, 6, 7, 0, 1, 2, 3, 3, 4, 5, 6, 7, 0, 1, 2, 3, 4]

/-- The points of `C90_after`. -/
def exAfter : List Pt := ptsOf [0, 1, 2, 3, 3, 4, 5, 6, 4, 5, 6, 7, 0, 1, 3, 3, 4, 5, 6, 7, 0, 1]

/-- C90 (before): the stretch needs a valid step at or before the position. Eight points in the same segments at 5 and at 14 have different scores
at their first position, because the first edge comes from what was before them. -/
theorem C90_before : Same (exBefore.map Pt.seg) 5 14 8 ∧
    (∃ t ∈ validSteps 8 exBefore, 5 + 0 + 1 ≤ t.src.id ∧ t.src.id + 1 < 5 + 8) ∧
    ∃ s0, localRun exClu (fun x => x.1.src.id) id { Pipeline.exP with queryLength := 1 } exBefore.length exBefore = some s0 ∧
      ∀ s, ParScore.Reachable s0 s → s.pool = [] → ∃ l, delivered s = [some l] ∧ l[5 + 0]? ≠ l[14 + 0]? := by
  refine ⟨⟨by decide, by decide, by decide⟩, by decide, ?_⟩
  obtain ⟨s0, h1, h2⟩ := one_cluster (p := { Pipeline.exP with queryLength := 1 }) (pts := exBefore) (by decide) rfl rfl (by decide) (by decide)
    (by decide) (by decide) (by decide) (by decide) (by decide)
  refine ⟨s0, h1, fun s hs hp => ?_⟩
  rw [h2 s hs hp]
  have : (Scoring.normalize (vector (pairs (walk 8 (fun _ _ => 0) (validSteps 8 exBefore))) 1 (exBefore.length - 1))).elim false
      (fun l => decide (l[5 + 0]? ≠ l[14 + 0]?)) = true := by decide +kernel
  revert this
  cases hv : Scoring.normalize (vector (pairs (walk 8 (fun _ _ => 0) (validSteps 8 exBefore))) 1 (exBefore.length - 1)) with
  | none => exact fun h => by cases h
  | some l =>
    intro h
    exact ⟨l, congrArg (fun x => [x]) hv, of_decide_eq_true h⟩

/-- The points of `C90_before` one position later, where the theorem applies: the edge into the stretch is behind the position. -/
example : rawOf (pairs (walk 8 (fun _ _ => 0) (validSteps 8 exBefore))) 1 (5 + 1) = rawOf (pairs (walk 8 (fun _ _ => 0) (validSteps 8 exBefore))) 1 (14 + 1) ∧
    rawOf (pairs (walk 8 (fun _ _ => 0) (validSteps 8 exBefore))) 1 (5 + 1) ≠ none := by
  have hK : (exBefore.map (fun x => (⟨x.id, [], x.seg⟩ : Point))).map toPt = exBefore := by
    rw [List.map_map]
    exact List.map_id _
  have h := stretch_scores (K := exBefore.map (fun x => (⟨x.id, [], x.seg⟩ : Point))) (by rw [List.map_map]; decide) (rate := 8)
    (by
      intro x hx
      obtain ⟨y, hy, rfl⟩ := List.mem_map.1 hx
      clear hx
      revert y
      decide) (fun _ _ => 0) (a := 5) (b := 14) (n := 7) (o := 1) (q := 1) (by decide) (by decide) (by decide) (by rw [hK]; decide)
    (by rw [hK]; decide) (by decide)
  rw [hK] at h
  exact h

/-- C90 (after): and a valid step after the window. Four points in the same segments at 4 and at 15, crossing a border at every step, have
different scores at their second position with query length 2, because the first edge after the window counts. -/
theorem C90_after : Same (exAfter.map Pt.seg) 4 15 4 ∧ (∃ t ∈ validSteps 8 exAfter, 4 ≤ t.src.id ∧ t.src.id ≤ 4 + 1) ∧
    ∃ s0, localRun exClu (fun x => x.1.src.id) id Pipeline.exP exAfter.length exAfter = some s0 ∧
      ∀ s, ParScore.Reachable s0 s → s.pool = [] → ∃ l, delivered s = [some l] ∧ l[4 + 1]? ≠ l[15 + 1]? := by
  refine ⟨⟨by decide, by decide, by decide⟩, by decide, ?_⟩
  obtain ⟨s0, h1, h2⟩ := one_cluster (p := Pipeline.exP) (pts := exAfter) (by decide) rfl rfl (by decide) (by decide)
    (by decide) (by decide) (by decide) (by decide) (by decide)
  refine ⟨s0, h1, fun s hs hp => ?_⟩
  rw [h2 s hs hp]
  have : (Scoring.normalize (vector (pairs (walk 8 (fun _ _ => 0) (validSteps 8 exAfter))) 2 (exAfter.length - 2))).elim false
      (fun l => decide (l[4 + 1]? ≠ l[15 + 1]?)) = true := by decide +kernel
  revert this
  cases hv : Scoring.normalize (vector (pairs (walk 8 (fun _ _ => 0) (validSteps 8 exAfter))) 2 (exAfter.length - 2)) with
  | none => exact fun h => by cases h
  | some l =>
    intro h
    exact ⟨l, congrArg (fun x => [x]) hv, of_decide_eq_true h⟩

/-- C90: whenever a run on one node delivers scores, there are the points of the run, and if two stretches of `n` rows of the series are
equal, then the scores at the same offset `o` in the stretches are equal, provided a valid step starts in the stretch at or before the
position and another one in the stretch after the query window. -/
theorem C90_same_scores {lib : Lib w} (resolution order : Nat) {p : Parameters} (hp : p.WellFormed) (hn : p.nClusterNodes = 1)
    {series : List (Fin (e + 1) → ℝ)} (hq : 1 ≤ p.queryLength) (ht : 1 ≤ p.nThreads) (hL : 1 ≤ p.latent)
    (hsl : p.nThreads + p.queryLength + p.patternLength ≤ series.length + 1) {v : Option (List (Option ℚ))}
    (h : Delivers lib resolution order p series v) :
    ∃ l pts m, v = some l ∧ PointsOf lib p series pts ∧ pts.mapM (mirrorPoint p.rate) = some m ∧ ∀ a b n o, Same series a b n →
      (∃ t ∈ track p m pts, a ≤ t.src.id ∧ t.src.id ≤ a + o) →
      (∃ t ∈ track p m pts, a + o + p.queryLength ≤ t.src.id ∧ t.src.id + p.patternLength < a + n) →
      ∃ x, l[a + o]? = some x ∧ l[b + o]? = some x := by
  have hr : 0 < p.rate := by have := hp.1; have := hp.2; omega
  obtain ⟨pts, h1, h2, m, lab, hm, hlab, rfl⟩ := (C72_result resolution order hp hn hq ht hsl v).1 h
  obtain ⟨hl, hpl, hnum⟩ := h1.numbered hr
  obtain ⟨_, hml, hmn⟩ := Cluster.mirrorPt_map hr hnum hm
  have hK : Numbered p.rate e (corrected p m pts) := by
    unfold corrected; split
    · exact hmn
    · exact hnum
  have hKl : (corrected p m pts).length = pts.length := by
    unfold corrected; split
    · exact hml
    · rfl
  have htr : track p m pts = validSteps p.rate ((corrected p m pts).map toPt) := by
    unfold track
    rw [Cluster.effective_toPt hr hnum hm]
  obtain ⟨l, hv, hll, _⟩ := C72_length resolution order hp hn hq ht hsl h
  have hco : ∀ t ∈ track p m pts, ∀ s ∈ t.intersectionSegments p.rate, place p e m pts (t, s) ≠ none := by
    intro t ht' s hs hh
    exact h2 ((C72_scores hp hn resolution order hm hnum (by omega) hq ht (by omega)).1.2 (.inl ⟨t, ht', s, hs, hh⟩))
  refine ⟨l, pts, m, hv, h1, hm, fun a b n o hs hb hf => ?_⟩
  obtain ⟨t, ht1, g3, g4⟩ := hf
  obtain ⟨hsa, hsb⟩ := hs.1, hs.2.1
  have hsame := corrected_same (p := p) hm (h1.same hL (by omega) hs).1 (h1.same hL (by omega) hs).2
  obtain ⟨N, hN⟩ : ∃ N, n - (p.patternLength - 1) = N + 1 := ⟨n - (p.patternLength - 1) - 1, by omega⟩
  rw [hN] at hsame
  unfold place at hlab hco
  rw [htr] at hlab hco hb ht1
  have hnodes := fun k (hk : k < N) => nodesAt_same ht hK.ids hK.segs hlab hco hsame hk
  have ha' := hsame.1
  have hb' := hsame.2.1
  rw [List.length_map] at ha' hb'
  have hraw := stretch_scores hK.ids hK.segs lab (a := a) (b := b) (n := N) (o := o) (q := p.queryLength) (by omega) (by omega) hnodes hb
    ⟨t, ht1, g3, by omega⟩ hq
  rw [← htr] at hraw
  obtain ⟨x, hx⟩ := Option.ne_none_iff_exists'.1 hraw.2
  rw [hx] at hraw
  have v1 := vector_entry (len := pts.length - p.queryLength) (by omega) hx
  have v2 := vector_entry (len := pts.length - p.queryLength) (i := b + o) (by omega) hraw.1.symm
  obtain ⟨n1, n2⟩ := normalize_entry hv (v1.trans v2.symm)
  rw [vector_length] at n1
  obtain ⟨y, hy⟩ : ∃ y, l[a + o]? = some y := ⟨_, List.getElem?_eq_getElem (by omega)⟩
  exact ⟨y, hy, by rw [← n2]; exact hy⟩

/-- The run of `ClusterRunExample.lean` on one node delivers, and the theorem applies to it. -/
example (resolution order : Nat) : ∃ l, Delivers Cluster.hLib resolution order { Cluster.hP with nClusterNodes := 1 } Cluster.hSeries (some l) := by
  obtain ⟨v, hv⟩ := Cluster.hDelivers resolution order
  obtain ⟨l, pts, m, rfl, -⟩ := C90_same_scores resolution order ⟨by decide, by decide⟩ rfl (by decide) (by decide) (by decide)
    (by simp [Cluster.hP, Cluster.hSeries]) hv
  exact ⟨l, hv⟩

end Whole

namespace Joint
open Pca Rotation Points Whole Pipeline Edges SegState Cluster
variable {e w : Nat}

/-- C90 (cluster): the same for what any of two or three nodes delivers, from reading the file on, under the conditions of C75. -/
theorem C90_cluster {lib : Lib w} {resolution order : Nat} {p : Parameters} {series : List (Fin (e + 1) → ℝ)}
    (hqr : ∀ A, gram (lib.qr A) = gram A) (hs : ∀ m, Settled lib (windows w p series m)) (hp : p.WellFormed)
    (hk : 2 ≤ p.nClusterNodes) (hk3 : p.nClusterNodes ≤ 3) (hf : Fits p series.length) (ht : 0 < p.nThreads) (hL : 1 ≤ p.latent)
    (hc : ∀ i < p.nClusterNodes, 0 < count p series.length i ∧ Chunked p.nThreads (count p series.length i)) {q m : List Point}
    (hq : PointsOf lib p series q) (hm : q.mapM (mirrorPoint p.rate) = some m) (hdec : SameDecision p series.length q)
    (g : Good p series.length (Cluster.parts p series.length q m)) (hsl : p.nThreads + p.queryLength + p.patternLength ≤ series.length + 1)
    {i : Nat} (hi : i < p.nClusterNodes) {v : Option (List (Option ℚ))} (h : FileDelivers lib resolution order p series i v) :
    ∃ l pts m, v = some l ∧ PointsOf lib p series pts ∧ pts.mapM (mirrorPoint p.rate) = some m ∧ ∀ a b n o, Same series a b n →
      (∃ t ∈ track p m pts, a ≤ t.src.id ∧ t.src.id ≤ a + o) →
      (∃ t ∈ track p m pts, a + o + p.queryLength ≤ t.src.id ∧ t.src.id + p.patternLength < a + n) →
      ∃ x, l[a + o]? = some x ∧ l[b + o]? = some x :=
  C90_same_scores (p := { p with nClusterNodes := 1 }) resolution order
    (by unfold Parameters.WellFormed at hp ⊢; dsimp only; have := hp.2; constructor <;> omega) rfl g.query ht hL hsl
    ((C87_one_node hqr hs hp hk hk3 hf ht hc hq hm hdec g hi v).1 h)

end Joint
end S2G
