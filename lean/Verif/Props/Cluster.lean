import Verif.Model.Cluster
import Verif.Props.DataReader
import Verif.Props.PhaseSpace
import Verif.Props.Stats
import Verif.Props.RotNet
import Verif.Props.WholeRun

/-!
# C74: the points of a run on several nodes
-/

namespace S2G
namespace Cluster

open Pca Rotation Points Whole

variable {e w : Nat}

/-! ### Minima and maxima -/

theorem foldl_min_spec (xs : List ℝ) (x : ℝ) : xs.foldl min x ∈ x :: xs ∧ ∀ y ∈ x :: xs, xs.foldl min x ≤ y := by
  induction xs generalizing x with
  | nil => simp
  | cons a xs ih =>
    obtain ⟨h1, h2⟩ := ih (min x a)
    rw [List.foldl_cons]
    refine ⟨?_, ?_⟩
    · rcases List.mem_cons.1 h1 with h | h
      · rw [h]
        rcases min_choice x a with h3 | h3 <;> rw [h3] <;> simp
      · exact List.mem_cons_of_mem _ (List.mem_cons_of_mem _ h)
    · intro y hy
      have hm := h2 (min x a) (by simp)
      rcases List.mem_cons.1 hy with rfl | hy
      · exact hm.trans (min_le_left _ _)
      rcases List.mem_cons.1 hy with rfl | hy
      · exact hm.trans (min_le_right _ _)
      · exact h2 y (List.mem_cons_of_mem _ hy)

theorem foldl_max_spec (xs : List ℝ) (x : ℝ) : xs.foldl max x ∈ x :: xs ∧ ∀ y ∈ x :: xs, y ≤ xs.foldl max x := by
  induction xs generalizing x with
  | nil => simp
  | cons a xs ih =>
    obtain ⟨h1, h2⟩ := ih (max x a)
    rw [List.foldl_cons]
    refine ⟨?_, ?_⟩
    · rcases List.mem_cons.1 h1 with h | h
      · rw [h]
        rcases max_choice x a with h3 | h3 <;> rw [h3] <;> simp
      · exact List.mem_cons_of_mem _ (List.mem_cons_of_mem _ h)
    · intro y hy
      have hm := h2 (max x a) (by simp)
      rcases List.mem_cons.1 hy with rfl | hy
      · exact (le_max_left _ _).trans hm
      rcases List.mem_cons.1 hy with rfl | hy
      · exact (le_max_right _ _).trans hm
      · exact h2 y (List.mem_cons_of_mem _ hy)

theorem colMin_iff (l : List ℝ) (m : ℝ) : Kde.colMin l = some m ↔ m ∈ l ∧ ∀ y ∈ l, m ≤ y := by
  cases l with
  | nil => simp [Kde.colMin]
  | cons x xs =>
    obtain ⟨h1, h2⟩ := foldl_min_spec xs x
    rw [Kde.colMin, Option.some.injEq]
    refine ⟨fun h => h ▸ ⟨h1, h2⟩, fun ⟨h3, h4⟩ => le_antisymm (h2 m h3) (h4 _ h1)⟩

theorem colMax_iff (l : List ℝ) (m : ℝ) : Kde.colMax l = some m ↔ m ∈ l ∧ ∀ y ∈ l, y ≤ m := by
  cases l with
  | nil => simp [Kde.colMax]
  | cons x xs =>
    obtain ⟨h1, h2⟩ := foldl_max_spec xs x
    rw [Kde.colMax, Option.some.injEq]
    refine ⟨fun h => h ▸ ⟨h1, h2⟩, fun ⟨h3, h4⟩ => le_antisymm (h4 _ h1) (h2 m h3)⟩

theorem columnMin_congr {a b : List (Fin (e + 1) → ℝ)} (h : ∀ x, x ∈ a ↔ x ∈ b) (m : Fin (e + 1)) : columnMin a m = columnMin b m := by
  unfold columnMin
  apply Option.ext
  intro x
  rw [colMin_iff, colMin_iff]
  simp only [List.mem_map, h]

theorem columnMax_congr {a b : List (Fin (e + 1) → ℝ)} (h : ∀ x, x ∈ a ↔ x ∈ b) (m : Fin (e + 1)) : columnMax a m = columnMax b m := by
  unfold columnMax
  apply Option.ext
  intro x
  rw [colMax_iff, colMax_iff]
  simp only [List.mem_map, h]

/-! ### Data -/

/-- The rows can be handed out (C05): no partition is shorter than a window, and the surplus rows fit into the overlap. -/
def Fits (p : Parameters) (rows : Nat) : Prop :=
  p.nClusterNodes = 1 ∨ (1 < p.nClusterNodes ∧ p.patternLength ≤ rows / p.nClusterNodes ∧ rows % p.nClusterNodes ≤ p.patternLength - 1)

theorem Fits.pos {p : Parameters} {rows : Nat} (h : Fits p rows) : 0 < p.nClusterNodes := by
  rcases h with h | h <;> omega

variable {lib : Lib w} {p : Parameters} {series : List (Fin (e + 1) → ℝ)} {parts : Nat → List (Fin (e + 1) → ℝ)} {n : Nat}
  {first : List (Fin (e + 1) → ℝ)} {ps : Nat → List (List (Fin (e + 1) → ℝ))} {xs : Nat → Nat → Summary (w + 1)}

theorem parts_eq (hf : Fits p series.length) (h : Loaded lib p series parts n first ps xs) :
    (p.nClusterNodes = 1 ∧ parts 0 = series) ∨
      (1 < p.nClusterNodes ∧ ∀ i < p.nClusterNodes, parts i = DataReader.window series p.nClusterNodes p.patternLength i) := by
  have hw := checkedSub_some h.width
  have hr := h.read
  rcases hf with hk | ⟨hk, h1, h2⟩
  · left
    rw [hk, DataReader.C06_single_node] at hr
    simp at hr
    exact ⟨hk, hr.symm⟩
  · right
    rw [DataReader.C05_windows hk (by omega) h1 h2] at hr
    refine ⟨hk, fun i hi => ?_⟩
    have h3 := congrArg (fun l => l[i]?) (Option.some.inj hr)
    simp only [List.getElem?_map, List.getElem?_range hi, Option.map_some, Option.some.injEq, Prod.mk.injEq, true_and] at h3
    exact h3.symm

/-- Number of points of a node. -/
def count (p : Parameters) (rows i : Nat) : Nat :=
  if i = p.nClusterNodes - 1 then rows / p.nClusterNodes + rows % p.nClusterNodes - (p.patternLength - 1) else rows / p.nClusterNodes

theorem space_eq (hf : Fits p series.length) (h : Loaded lib p series parts n first ps xs) :
    (∀ i < p.nClusterNodes, (ps i).length = count p series.length i) ∧
      (List.range p.nClusterNodes).flatMap ps = (List.range (series.length - (p.patternLength - 1))).map (PhaseSpace.specPoint p series) ∧
      PhaseSpace.build p series = some ((List.range p.nClusterNodes).flatMap ps) := by
  have hw := checkedSub_some h.width
  rcases parts_eq hf h with ⟨hk, h1⟩ | ⟨hk, h1⟩
  · have h2 := (h.space 0 (by omega)).1
    rw [h1] at h2
    obtain ⟨h3, h4⟩ := build_some h.width h2
    refine ⟨?_, ?_, ?_⟩
    · intro i hi
      obtain rfl : i = 0 := by omega
      rw [h4]
      simp [count, hk, Nat.mod_one]
    · rw [hk]
      simpa using h4
    · rw [hk]
      simpa using h2
  · obtain ⟨h2, h3⟩ := hf.resolve_left (by omega) |>.2
    have h4 : ∀ i < p.nClusterNodes, ps i = _ := fun i hi =>
      Option.some.inj ((h.space i hi).1.symm.trans (by
        rw [h1 i hi]
        exact PhaseSpace.C15_partition_points p hk (by omega) h2 h3 hi))
    obtain ⟨parts', ids, g1, g2, g3, g4⟩ := PhaseSpace.C15_concatenation p hk (by omega) h2 h3
    have h5 : (List.range p.nClusterNodes).flatMap ps = (List.range p.nClusterNodes).flatMap parts' := by
      apply List.flatMap_congr
      intro i hi
      have hi := List.mem_range.1 hi
      have := (h.space i hi).1
      rw [h1 i hi, g1 i hi] at this
      exact (Option.some.inj this).symm
    refine ⟨?_, ?_, ?_⟩
    · intro i hi
      rw [h4 i hi]
      simp [count]
    · rw [h5]
      exact (build_some h.width g3).2
    · rw [h5]
      exact g3

theorem rows_eq (hf : Fits p series.length) (h : Loaded lib p series parts n first ps xs) : n = series.length := by
  have hw := checkedSub_some h.width
  obtain ⟨ms, h1, h2⟩ := h.rows
  have h3 : ∀ i < p.nClusterNodes, (ms i).n = ((parts i).take ((parts i).length - cutoff p i)).length := by
    intro i hi
    have h4 := (h1 i hi).1
    unfold Stats.calculateStd at h4
    split at h4
    · rw [← Option.some.inj h4]
    · cases h4
  rw [h2, List.map_congr_left (fun i hi => h3 i (List.mem_range.1 hi))]
  rcases parts_eq hf h with ⟨hk, h4⟩ | ⟨hk, h4⟩
  · rw [hk]
    simp [h4, cutoff, hk]
  · obtain ⟨h5, h6⟩ := hf.resolve_left (by omega) |>.2
    conv_rhs => rw [← Stats.C09_rows_of_windows hk (by omega) h5 h6]
    rw [List.length_flatten, List.map_map]
    congr 1
    apply List.map_congr_left
    intro i hi
    rw [h4 i (List.mem_range.1 hi)]
    rfl

theorem mem_parts (hf : Fits p series.length) (h : Loaded lib p series parts n first ps xs) (x : Fin (e + 1) → ℝ) :
    x ∈ (List.range p.nClusterNodes).flatMap parts ↔ x ∈ series := by
  have hw := checkedSub_some h.width
  rcases parts_eq hf h with ⟨hk, h4⟩ | ⟨hk, h4⟩
  · rw [hk]
    simp [h4]
  · obtain ⟨h5, h6⟩ := hf.resolve_left (by omega) |>.2
    constructor
    · intro hx
      obtain ⟨i, hi, hx⟩ := List.mem_flatMap.1 hx
      rw [h4 i (List.mem_range.1 hi)] at hx
      unfold DataReader.window DataReader.rowsFromTo at hx
      first
        | exact List.mem_of_mem_drop (List.mem_of_mem_take hx)
        | exact List.mem_of_mem_take (List.mem_of_mem_drop hx)
    · intro hx
      rw [← Stats.C09_rows_of_windows hk (by omega) h5 h6] at hx
      obtain ⟨l, hl, hx⟩ := List.mem_flatten.1 hx
      obtain ⟨i, hi, rfl⟩ := List.mem_map.1 hl
      rw [List.mem_flatMap]
      exact ⟨i, hi, by rw [h4 i (List.mem_range.1 hi)]; exact List.mem_of_mem_take hx⟩

/-! ### Components -/

theorem column_flatMap (l : List Nat) (m : Fin (e + 1)) :
    (column (l.flatMap ps) m : List (Row (w + 1))) = l.flatMap (fun i => column (ps i) m) := by
  unfold column
  rw [List.map_flatMap]

theorem windows_eq (hf : Fits p series.length) (h : Loaded lib p series parts n first ps xs) (m : Fin (e + 1)) :
    windows w p series m = (List.range p.nClusterNodes).flatMap (fun i => column (ps i) m) := by
  rw [← column_flatMap, (space_eq hf h).2.1]
  rfl

/-- What a complete combined factor and the means of all nodes give. -/
theorem resultOf_eq (hqr : ∀ A, gram (lib.qr A) = gram A) (hs : ∀ m, Settled lib (windows w p series m)) (hf : Fits p series.length)
    (h : Loaded lib p series parts n first ps xs) (m : Fin (e + 1)) {x : List (Row (w + 1)) × List (Nat × Nat)}
    (hg : gram x.1 = ∑ j ∈ Finset.range p.nClusterNodes, gram (xs j m).r)
    (hm : x.2.Perm ((List.range p.nClusterNodes).map (fun j => ((m : Nat), j)))) :
    resultOf lib xs x = ((lib.svd ((windows w p series m).map (fun x => x - mean (windows w p series m)))).map Pca.normalize).map
      (fun c => (c, mean (windows w p series m))) := by
  have h1 : Summarises (windows w p series m)
      (finalize lib.qr (x.2.map (fun a => ((xs a.2 a.1).means, (xs a.2 a.1).n))) x.1) := by
    rw [windows_eq hf h m]
    refine merge_range hqr (sums := fun j => xs j m) ?_ ?_ hg ?_
    · intro i hi
      unfold column
      simpa using (h.space i hi).2
    · intro i hi
      refine (h.factors i hi m).summarises hqr ?_
      unfold column
      simpa using (h.space i hi).2
    · refine (hm.map _).trans ?_
      rw [List.map_map]
      rfl
  have h2 := hs m ((windows w p series m).map (fun x => x - mean (windows w p series m)))
    (finalize lib.qr (x.2.map (fun a => ((xs a.2 a.1).means, (xs a.2 a.1).n))) x.1).r 1 one_pos rfl
    (by rw [one_pow, one_smul]; exact h1.r)
  unfold resultOf
  simp only
  rw [← h2, Option.map_map]
  congr 1
  funext vs
  simp [h1.means]

/-! ### Points -/

theorem addPoints_append (o r : Nat) (a b : List (List ℝ)) {pa pb : List Point} (ha : addPoints o r a = some pa)
    (hb : addPoints (o + a.length) r b = some pb) : addPoints o r (a ++ b) = some (pa ++ pb) := by
  induction a generalizing o pa with
  | nil =>
    cases Option.some.inj ha
    simpa using hb
  | cons c cs ih =>
    simp only [addPoints, Option.bind_eq_bind, Option.bind_eq_some_iff] at ha
    obtain ⟨x, h1, ys, h2, h3⟩ := ha
    cases Option.some.inj h3
    have := ih (o + 1) h2 (by rw [← hb]; congr 1; simp; omega)
    simp only [List.cons_append, addPoints, Option.bind_eq_bind, h1, this, Option.bind_some]

theorem addPoints_coordinates {o r : Nat} {a : List (List ℝ)} {q : List Point} (h : addPoints o r a = some q) : q.map Point.coordinates = a := by
  induction a generalizing o q with
  | nil =>
    cases Option.some.inj h
    rfl
  | cons c cs ih =>
    simp only [addPoints, Option.bind_eq_bind, Option.bind_eq_some_iff] at h
    obtain ⟨x, h1, ys, h2, h3⟩ := h
    cases Option.some.inj h3
    rw [List.map_cons, ih h2]
    unfold newPoint at h1
    simp only [Option.bind_eq_bind, Option.bind_eq_some_iff] at h1
    obtain ⟨_, _, _, _, _, _, h4⟩ := h1
    rw [← Option.some.inj h4]

theorem rows_map (c : Fin (e + 1) → List (Row (w + 1)) × Row (w + 1)) (l : List (List (Fin (e + 1) → ℝ))) :
    (List.range l.length).map (fun r m => reduced (c m).1 (c m).2 ((column l m).getD r 0)) =
      l.map (fun row m => reduced (c m).1 (c m).2 (fun j => row.getD j 0 m)) := by
  apply List.ext_getElem
  · simp
  · intro i h1 h2
    rw [List.getElem_map, List.getElem_map, List.getElem_range]
    funext m
    rw [List.getD_eq_getElem _ _ (by simpa [column] using h2)]
    simp [column]

/-- The points of the nodes one after the other are numbered as the points of one node. -/
theorem applyRotation_concat (hk : 0 < p.nClusterNodes) {R : Fin (e + 1) → Matrix (Fin 3) (Fin 3) ℝ} {rows : Nat → List (Fin (e + 1) → Vec)}
    (hlen : ∀ i, i + 1 < p.nClusterNodes → (rows i).length = n / p.nClusterNodes) {pts : Nat → List Point}
    (h : ∀ i < p.nClusterNodes, applyRotation R (rows i) n p.nClusterNodes i p.rate = some (pts i)) (n' : Nat) :
    applyRotation R ((List.range p.nClusterNodes).flatMap rows) n' 1 0 p.rate = some ((List.range p.nClusterNodes).flatMap pts) := by
  have h1 : ∀ i < p.nClusterNodes, addPoints (n / p.nClusterNodes * i) p.rate ((rows i).map (coordinates R)) = some (pts i) := by
    intro i hi
    have := h i hi
    simpa [applyRotation, checkedDiv, Nat.pos_iff_ne_zero.1 hk] using this
  have h2 : ∀ m < p.nClusterNodes, ((List.range m).flatMap rows).length = n / p.nClusterNodes * m := by
    intro m
    induction m with
    | zero => simp
    | succ m ih =>
      intro hm
      rw [List.range_succ, List.flatMap_append, List.length_append, ih (by omega)]
      simp [hlen m hm]
      ring
  have h3 : ∀ m ≤ p.nClusterNodes, addPoints 0 p.rate (((List.range m).flatMap rows).map (coordinates R)) = some ((List.range m).flatMap pts) := by
    intro m
    induction m with
    | zero =>
      intro _
      rfl
    | succ m ih =>
      intro hm
      rw [List.range_succ, List.flatMap_append, List.map_append, List.flatMap_append]
      refine addPoints_append _ _ _ _ (ih (by omega)) ?_
      rw [List.length_map, h2 m hm]
      simpa using h1 m hm
  have := h3 _ le_rfl
  simpa [applyRotation, checkedDiv] using this

theorem divCeil_add (a b t : Nat) (ht : 0 < t) : divCeil (a + b) t ≤ divCeil a t + divCeil b t := by
  unfold divCeil
  have h1 := Nat.div_add_mod (a + t - 1) t
  have h2 := Nat.div_add_mod (b + t - 1) t
  have h3 := Nat.mod_lt (a + t - 1) ht
  have h4 := Nat.mod_lt (b + t - 1) ht
  have h5 : t * ((a + t - 1) / t + (b + t - 1) / t) = t * ((a + t - 1) / t) + t * ((b + t - 1) / t) := by ring
  have h6 : t * ((a + t - 1) / t + (b + t - 1) / t + 1) = t * ((a + t - 1) / t + (b + t - 1) / t) + t := by ring
  refine Nat.lt_succ_iff.1 ((Nat.div_lt_iff_lt_mul ht).2 ?_)
  rw [Nat.mul_comm, Nat.succ_eq_add_one]
  omega

/-- If the rows of all nodes suffice for a chunk per helper, then all rows together do. -/
theorem chunked_sum {t k : Nat} (hk : 0 < k) {c : Nat → Nat} (h : ∀ i < k, Chunked t (c i)) : Chunked t ((List.range k).map c).sum := by
  by_cases ht : t ≤ 1
  · exact .inl ht
  right
  have h' : ∀ i < k, (t - 1) * divCeil (c i) t < c i := fun i hi => (h i hi).resolve_left ht
  have key : ∀ m ≤ k, (t - 1) * divCeil ((List.range m).map c).sum t + m ≤ ((List.range m).map c).sum := by
    intro m
    induction m with
    | zero =>
      intro _
      have : divCeil 0 t = 0 := by
        unfold divCeil
        exact Nat.div_eq_of_lt (by omega)
      simp [this]
    | succ m ih =>
      intro hm
      have h1 := ih (by omega)
      have h2 := h' m (by omega)
      rw [List.range_succ, List.map_append, List.sum_append]
      simp only [List.map_cons, List.map_nil, List.sum_cons, List.sum_nil, Nat.add_zero]
      have h3 := Nat.mul_le_mul_left (t - 1) (divCeil_add ((List.range m).map c).sum (c m) t (by omega))
      rw [Nat.mul_add] at h3
      omega
  have := key k le_rfl
  omega

/-- The matrices when there are some. -/
theorem matrices_some {res : Nat → Option (List (Row (w + 1)) × List (Nat × Nat))} {R : Fin (e + 1) → Matrix (Fin 3) (Fin 3) ℝ}
    (h : matrices lib xs first res = some R) (m : Fin (e + 1)) :
    ((res m).bind (resultOf lib xs)).bind (fun c => rotationMatrix (reduced c.1 c.2 (fun j => first.getD j 0 m))) = some (R m) := by
  unfold matrices at h
  simp only at h
  split at h
  · next h1 =>
    rw [← Option.some.inj h]
    exact (Option.some_get (h1 m)).symm
  · cases h

/-- What the nodes have after the rotation, if all of them used the same complete results. -/
theorem points_of_results (hqr : ∀ A, gram (lib.qr A) = gram A) (hs : ∀ m, Settled lib (windows w p series m)) (hf : Fits p series.length)
    (h : Loaded lib p series parts n first ps xs) {res : Nat → Option (List (Row (w + 1)) × List (Nat × Nat))}
    (hres : ∀ m : Fin (e + 1), ∃ x, res m = some x ∧ gram x.1 = ∑ j ∈ Finset.range p.nClusterNodes, gram (xs j m).r ∧
      x.2.Perm ((List.range p.nClusterNodes).map (fun j => ((m : Nat), j))))
    {R : Fin (e + 1) → Matrix (Fin 3) (Fin 3) ℝ} (hR : matrices lib xs first res = some R)
    {c : Fin (e + 1) → List (Row (w + 1)) × Row (w + 1)} (hc : ∀ m : Fin (e + 1), (res m).bind (resultOf lib xs) = some (c m)) {pts : Nat → List Point}
    (hpts : ∀ i < p.nClusterNodes, applyRotation R
      ((List.range (ps i).length).map (fun r m => reduced (c m).1 (c m).2 ((column (ps i) m).getD r 0))) n p.nClusterNodes i p.rate =
        some (pts i)) :
    PointsOf lib p series ((List.range p.nClusterNodes).flatMap pts) := by
  obtain ⟨lo, hi, ref, hmm, href, hfirst⟩ := h.reference
  obtain ⟨hlen, hps, hb⟩ := space_eq hf h
  refine ⟨lo, hi, _, ref, fun m => (c m).1, fun m => (c m).2, first, R, ?_, h.width, href, hb, ?_, hfirst, ?_, ?_⟩
  · intro m
    rw [← columnMin_congr (mem_parts hf h), ← columnMax_congr (mem_parts hf h)]
    exact hmm m
  · intro m
    have hwin : (column ((List.range p.nClusterNodes).flatMap ps) m : List (Row (w + 1))) = windows w p series m := by
      rw [hps]
      rfl
    obtain ⟨x, h1, h2, h3⟩ := hres m
    have h4 := hc m
    rw [h1, Option.bind_some, resultOf_eq hqr hs hf h m h2 h3] at h4
    obtain ⟨c', h5, h6⟩ := Option.map_eq_some_iff.1 h4
    have hne : ∀ i < p.nClusterNodes, (column (ps i) m : List (Row (w + 1))) ≠ [] := by
      intro i hi
      unfold column
      simpa using (h.space i hi).2
    rw [hwin, pcaOf_iff hqr (hs m)]
    refine ⟨?_, ?_, ?_, ?_⟩
    · rw [windows_eq hf h m]
      intro h0
      rw [List.flatMap_eq_nil_iff] at h0
      exact hne 0 hf.pos (h0 0 (List.mem_range.2 hf.pos))
    · have := chunked_sum (k := p.nClusterNodes) hf.pos (fun i hi => (h.factors i hi m).chunked (hne i hi))
      rw [windows_eq hf h m, List.length_flatMap]
      exact this
    · show (c m).2 = _
      rw [← h6]
    · show _ = some (c m).1
      rw [h5, ← h6]
  · intro m
    have := matrices_some hR m
    rw [hc m] at this
    exact this
  · rw [rows_map, List.map_flatMap]
    refine applyRotation_concat hf.pos (n := n) ?_ ?_ _
    · intro i hi
      rw [List.length_map, hlen i (by omega), rows_eq hf h, count, if_neg (by omega)]
    · intro i hi
      rw [← rows_map]
      exact hpts i hi

theorem gram_combine (hqr : ∀ A, gram (lib.qr A) = gram A) (a b : List (Row (w + 1))) : gram (combine lib.qr a b) = gram a + gram b := by
  rw [combine, hqr, gram_append]

/-- C74: the points of the nodes of a cluster, one node after the other, are the points of the run on one node, if the schedule
was in time and the results which the nodes reduced with contain the means of all nodes. -/
theorem C74_in_time (hqr : ∀ A, gram (lib.qr A) = gram A) (hs : ∀ m, Settled lib (windows w p series m)) (hf : Fits p series.length)
    (h : Loaded lib p series parts n first ps xs) {s : RotNet (List (Row (w + 1))) (Option (Fin (e + 1) → Matrix (Fin 3) (Fin 3) ℝ))}
    (hr : Rotating lib p first xs RotNet.InTime s)
    (hmeans : ∀ m x, s.reduced 0 m = some x → ∀ i < p.nClusterNodes, (m, i) ∈ x.2) {pts : Nat → List Point}
    (hpts : ∀ i < p.nClusterNodes, NodePoints lib p n ps xs s i (pts i)) :
    PointsOf lib p series ((List.range p.nClusterNodes).flatMap pts) := by
  have hk := hf.pos
  obtain ⟨res, h1, h2⟩ := RotNet.C68_in_time hk (by omega) (g := gram) (gram_combine hqr) hr
  have happ : ∀ i < p.nClusterNodes, s.applied i = [matrices lib xs first res] ∧ ∀ m < e + 1, s.reduced i m = res m ∧ (res m).isSome := by
    intro i hi
    obtain ⟨R, c, h3, _⟩ := hpts i hi
    refine (h2 i hi).2.resolve_left ?_
    rw [h3]
    simp
  obtain ⟨R, c, h3, h4, _⟩ := hpts 0 hk
  have hR : matrices lib xs first res = some R := by
    have := (happ 0 hk).1
    rw [h3] at this
    exact (List.cons.inj this).1.symm
  have hc : ∀ m : Fin (e + 1), (res m).bind (resultOf lib xs) = some (c m) := fun m => by
    rw [← ((happ 0 hk).2 m m.2).1]
    exact h4 m
  refine points_of_results hqr hs hf h ?_ hR hc ?_
  · intro m
    obtain ⟨h5, h6⟩ := (happ 0 hk).2 m m.2
    obtain ⟨x, hx⟩ := Option.isSome_iff_exists.1 h6
    obtain ⟨_, h7, h8, h9, _⟩ := h1 m x hx
    refine ⟨x, hx, h7, ?_⟩
    refine (List.perm_ext_iff_of_nodup h8 (List.Nodup.map (fun a b h => (Prod.mk.inj h).2) List.nodup_range)).2 ?_
    rintro ⟨a, b⟩
    simp only [List.mem_map, List.mem_range, Prod.mk.injEq]
    constructor
    · intro hab
      obtain ⟨g1, g2⟩ := h9 _ hab
      exact ⟨b, g2, g1.symm, rfl⟩
    · rintro ⟨_, g2, rfl, rfl⟩
      exact hmeans _ x (h5.trans hx) _ g2
  · intro i hi
    obtain ⟨R', c', g1, g2, g3⟩ := hpts i hi
    have hR' : R' = R := by
      have := (happ i hi).1
      rw [g1, hR] at this
      exact Option.some.inj (List.cons.inj this).1
    have hc' : c' = c := by
      funext m
      have := g2 m
      rw [((happ i hi).2 m m.2).1, hc m] at this
      exact (Option.some.inj this).symm
    rw [hR', hc'] at g3
    exact g3

/-- C74, up to three nodes: whenever all nodes have rotated, in a schedule in which nobody was early, their points one after the
other are the points of the run on one node. -/
theorem C74_points (hqr : ∀ A, gram (lib.qr A) = gram A) (hs : ∀ m, Settled lib (windows w p series m)) (hf : Fits p series.length)
    (hk3 : p.nClusterNodes ≤ 3) {pts : Nat → List Point} (h : PointsOfAll lib p RotNet.NotEarly series pts) :
    PointsOf lib p series ((List.range p.nClusterNodes).flatMap pts) := by
  obtain ⟨parts, n, first, ps, xs, s, h1, h2, h3⟩ := h
  have h4 := RotNet.notEarly_reachable hf.pos hk3 (by omega : 0 < e + 1) h2
  refine C74_in_time hqr hs hf h1 h4 ?_ h3
  intro m x hx i hi
  obtain ⟨res, g1, g2⟩ := RotNet.C68_in_time hf.pos (by omega : 0 < e + 1) (g := gram) (gram_combine hqr) h4
  have hres : res m = some x := by
    rcases (g2 0 hf.pos).1 m with g | g
    · rw [hx] at g
      cases g
    · rw [← g, hx]
  obtain ⟨_, _, _, _, g3, g4⟩ := g1 m x hres
  have h01 : i = 0 ∨ i = 2 ^ 0 ∨ i = 2 ^ 1 := by omega
  rcases h01 with rfl | rfl | rfl
  · exact g3
  · exact g4 0 hi
  · exact g4 1 hi

/-- C74, up to three nodes, nobody early: when nothing more can happen in the rotation stage, every node has its points, provided
that the run on one node has points. -/
theorem C74_complete (hqr : ∀ A, gram (lib.qr A) = gram A) (hs : ∀ m, Settled lib (windows w p series m)) (hf : Fits p series.length)
    (hk3 : p.nClusterNodes ≤ 3) {q : List Point} (hq : PointsOf lib p series q) (h : Loaded lib p series parts n first ps xs)
    {s : RotNet (List (Row (w + 1))) (Option (Fin (e + 1) → Matrix (Fin 3) (Fin 3) ℝ))} (hr : Rotating lib p first xs RotNet.NotEarly s)
    (hstuck : ∀ t, ¬RotNet.Step p.nClusterNodes (e + 1) (decide (1 < p.nThreads)) (fun m i => (xs i m).r) (combine lib.qr)
      (matrices lib xs first) RotNet.NotEarly s t) :
    ∃ pts : Nat → List Point, (∀ i < p.nClusterNodes, NodePoints lib p n ps xs s i (pts i)) ∧ (List.range p.nClusterNodes).flatMap pts = q := by
  have hk := hf.pos
  obtain ⟨res, h1, _, h2⟩ := RotNet.C68_three hk hk3 (by omega : 0 < e + 1) (g := gram) (gram_combine hqr) hr hstuck
  have hq0 := hq
  obtain ⟨lo, hi, qs, ref, comps, means, first', R, hmm, hw, href, hqs, hpca, hfirst, hR, hpts⟩ := hq0
  have hqs' : qs = (List.range p.nClusterNodes).flatMap ps := Option.some.inj (hqs.symm.trans (space_eq hf h).2.2)
  have hff : first' = first := by
    obtain ⟨lo', hi', ref', hmm', href', hfirst'⟩ := h.reference
    have hlo : lo' = lo := funext fun m => Option.some.inj
      ((hmm' m).1.symm.trans ((columnMin_congr (mem_parts hf h) m).trans (hmm m).1))
    have hhi : hi' = hi := funext fun m => Option.some.inj
      ((hmm' m).2.symm.trans ((columnMax_congr (mem_parts hf h) m).trans (hmm m).2))
    subst hlo hhi
    cases Option.some.inj (href.symm.trans href')
    exact Option.some.inj (hfirst.symm.trans hfirst')
  have hc : ∀ m : Fin (e + 1), (res m).bind (resultOf lib xs) = some (comps m, means m) := by
    intro m
    obtain ⟨x, g1, g2, g3⟩ := h1 m m.2
    rw [g1, Option.bind_some, resultOf_eq hqr hs hf h m g2 g3]
    have hwin : (column qs m : List (Row (w + 1))) = windows w p series m := by
      rw [hqs', (space_eq hf h).2.1]
      rfl
    have g4 := hpca m
    rw [hwin, pcaOf_iff hqr (hs m)] at g4
    rw [g4.2.2.2, g4.2.2.1]
    rfl
  have hM : matrices lib xs first res = some R := by
    have hb : ∀ m : Fin (e + 1), ((res m).bind (resultOf lib xs)).bind
        (fun c => rotationMatrix (reduced c.1 c.2 (fun j => first.getD j 0 m))) = some (R m) := by
      intro m
      rw [hc m, Option.bind_some, ← hff]
      exact hR m
    unfold matrices
    simp only
    rw [dif_pos (fun m => by rw [hb m]; rfl)]
    congr 1
    funext m
    exact Option.some.inj ((Option.some_get _).trans (hb m))
  have hrate : 0 < p.rate := by
    obtain ⟨_, _, g⟩ := (C67_delivers_iff R _ _ _ _ _).1 ⟨q, hpts⟩
    refine g.resolve_right ?_
    rw [List.map_eq_nil_iff, List.range_eq_nil, List.length_eq_zero_iff]
    intro h0
    have := hpca ⟨0, by omega⟩
    rw [h0] at this
    exact this.1 rfl
  choose pts hpts' using fun i : Nat => (C67_delivers_iff R
    ((List.range (ps i).length).map (fun r m => reduced (comps m) (means m) ((column (ps i) m).getD r 0))) n p.nClusterNodes i p.rate).2
    ⟨by omega, hk, .inl hrate⟩
  have hN : ∀ i < p.nClusterNodes, NodePoints lib p n ps xs s i (pts i) := by
    intro i hi
    obtain ⟨g1, g2⟩ := h2 i hi
    exact ⟨R, fun m => (comps m, means m), by rw [g2, hM], fun m => by rw [g1]; exact hc m, hpts' i⟩
  refine ⟨pts, hN, ?_⟩
  exact (PointsOf.unique hqr hs (t := p.nThreads) hq (C74_points hqr hs hf hk3 ⟨parts, n, first, ps, xs, s, h, hr, hN⟩)).symm

/-- The data arrives everywhere: if the rows can be handed out, the main node sends every node its rows, and each has a point and a
chunk for every helper, then there are numbers as in `Loaded`. -/
theorem loaded_exists (lib : Lib w) (hw : checkedSub p.patternLength p.latent = some (w + 1)) (hf : Fits p series.length)
    (hN : p.patternLength ≤ series.length)
    (hc : ∀ i < p.nClusterNodes, 0 < count p series.length i ∧ Chunked p.nThreads (count p series.length i)) :
    ∃ parts n first ps xs, Loaded lib p series parts n first ps xs := by
  have hk := hf.pos
  obtain ⟨hle, hw'⟩ := checkedSub_some hw
  let parts : Nat → List (Fin (e + 1) → ℝ) := fun i => if p.nClusterNodes = 1 then series else
    DataReader.window series p.nClusterNodes p.patternLength i
  have hread : DataReader.readCsv p.nClusterNodes (p.patternLength - 1) series =
      some ((List.range p.nClusterNodes).map (fun i => (i, parts i))) := by
    rcases hf with h1 | ⟨h1, h2, h3⟩
    · rw [h1, DataReader.C06_single_node]
      simp [parts, h1]
    · rw [DataReader.C05_windows h1 (by omega) h2 h3]
      congr 1
      apply List.map_congr_left
      intro i _
      simp [parts, show p.nClusterNodes ≠ 1 by omega]
  have hspace : ∀ i < p.nClusterNodes, ∃ l, PhaseSpace.build p (parts i) = some l ∧ l.length = count p series.length i := by
    intro i hi
    rcases hf with h1 | ⟨h1, h2, h3⟩
    · obtain rfl : i = 0 := by omega
      refine ⟨_, by simp only [parts, if_pos h1]; exact PhaseSpace.C14_windowed_sums p series (by omega) (by omega), ?_⟩
      simp [count, h1, Nat.mod_one]
    · refine ⟨_, by
        simp only [parts, if_neg (show p.nClusterNodes ≠ 1 by omega)]
        exact PhaseSpace.C15_partition_points p h1 (by omega) h2 h3 hi, ?_⟩
      simp [count]
  choose! ps hps hlen using hspace
  have hstd : ∀ i < p.nClusterNodes, ∃ m : Stats.StdMsg (e + 1) ℝ Nat, Stats.calculateStd (cutoff p i) (parts i) i = some m ∧ 0 < m.n := by
    intro i hi
    have h1 := (build_some hw (hps i hi))
    have h2 : (ps i).length = (parts i).length - (p.patternLength - 1) := by
      rw [h1.2]
      simp
    have h3 := (hc i hi).1
    rw [← hlen i hi] at h3
    have h4 : cutoff p i ≤ p.patternLength - 1 := by
      unfold cutoff
      split <;> omega
    refine ⟨_, by unfold Stats.calculateStd; rw [if_pos (by omega)], ?_⟩
    simp only [List.length_take]
    omega
  have : Nonempty (Stats.StdMsg (e + 1) ℝ Nat) := ⟨⟨0, 0, 0, 0⟩⟩
  choose! ms hms using hstd
  have hne : (List.range p.nClusterNodes).flatMap parts ≠ [] := by
    intro h0
    rw [List.flatMap_eq_nil_iff] at h0
    have h1 := h0 0 (List.mem_range.2 hk)
    have h2 := hlen 0 hk
    have h3 := (build_some hw (hps 0 hk)).2
    rw [h1] at h3
    have h4 := (hc 0 hk).1
    rw [← h2, h3] at h4
    simp at h4
  have hmm : ∀ m : Fin (e + 1), ∃ lo hi, columnMin ((List.range p.nClusterNodes).flatMap parts) m = some lo ∧
      columnMax ((List.range p.nClusterNodes).flatMap parts) m = some hi := by
    intro m
    obtain ⟨a, l, hal⟩ := List.exists_cons_of_ne_nil hne
    rw [hal]
    exact ⟨_, _, rfl, rfl⟩
  choose lo hi hmm using hmm
  obtain ⟨ref, href, hfirst⟩ := reference_some hw lo hi
  have hpne : ∀ i < p.nClusterNodes, ps i ≠ [] := by
    intro i hi h0
    have := (hc i hi).1
    rw [← hlen i hi, h0] at this
    simp at this
  have hx : ∀ i m, ∃ x : Summary (w + 1), i < p.nClusterNodes → ∀ hm : m < e + 1, Summarised lib p.nThreads (column (ps i) ⟨m, hm⟩) x := by
    intro i m
    by_cases h : i < p.nClusterNodes ∧ m < e + 1
    · obtain ⟨x, hx⟩ := exists_summarised lib (t := p.nThreads) (data := column (ps i) ⟨m, h.2⟩)
        (by unfold column; simpa using hpne i h.1) (by
          unfold column
          rw [List.length_map, hlen i h.1]
          exact (hc i h.1).2)
      exact ⟨x, fun _ _ => hx⟩
    · exact ⟨⟨0, 0, []⟩, fun h1 h2 => absurd ⟨h1, h2⟩ h⟩
  choose xs hxs using hx
  exact ⟨parts, _, _, ps, xs, hw, hread, ⟨ms, hms, rfl⟩, ⟨lo, hi, ref, hmm, href, hfirst⟩,
    fun i hi => ⟨hps i hi, hpne i hi⟩, fun i hi m => hxs i m hi m.2⟩

/-- Up to three nodes, nobody early: there is a schedule to its end. -/
theorem exists_stuck {M R : Type} {k d : Nat} (hk : 0 < k) (hk3 : k ≤ 3) (hd : 0 < d) (threads : Bool) (init : Nat → Nat → M)
    (comb : M → M → M) (rotm : (Nat → Option (M × List (Nat × Nat))) → R) :
    ∃ s, RotNet.Reachable k d threads init comb rotm RotNet.NotEarly s ∧ ∀ t, ¬RotNet.Step k d threads init comb rotm RotNet.NotEarly s t := by
  by_contra hcon
  have h : ∀ s : {s // RotNet.Reachable k d threads init comb rotm RotNet.NotEarly s},
      ∃ t : {s // RotNet.Reachable k d threads init comb rotm RotNet.NotEarly s},
        RotNet.Step k d threads init comb rotm RotNet.NotEarly s.1 t.1 := by
    rintro ⟨s, hs⟩
    by_contra hno
    exact hcon ⟨s, hs, fun t ht => hno ⟨⟨t, .step hs ht⟩, ht⟩⟩
  choose f hf using h
  let run : Nat → {s // RotNet.Reachable k d threads init comb rotm RotNet.NotEarly s} := fun m => f^[m] ⟨{}, .init⟩
  have h1 := RotNet.C68_terminates hk hk3 hd (run := fun m => (run m).1)
    (n := d * (k * (1 + Nat.clog 2 k) * (Nat.clog 2 k + 3) + 2 * k) + k * (2 * d + 6) + 1) (threads := threads) (init := init) (comb := comb)
    (rotm := rotm) rfl (by
      intro m _
      show RotNet.Step k d threads init comb rotm RotNet.NotEarly (f^[m] ⟨{}, .init⟩).1 (f^[m + 1] ⟨{}, .init⟩).1
      rw [Function.iterate_succ_apply']
      exact hf _)
  omega

/-- C74, exactly: up to three nodes, the clusters in which nobody is early have the points of the run on one node, and no others. -/
theorem C74_exact (hqr : ∀ A, gram (lib.qr A) = gram A) (hs : ∀ m, Settled lib (windows w p series m)) (hf : Fits p series.length)
    (hk3 : p.nClusterNodes ≤ 3) (hc : ∀ i < p.nClusterNodes, 0 < count p series.length i ∧ Chunked p.nThreads (count p series.length i))
    (q : List Point) :
    PointsOf lib p series q ↔ ∃ pts, PointsOfAll lib p RotNet.NotEarly series pts ∧ (List.range p.nClusterNodes).flatMap pts = q := by
  constructor
  · intro hq
    have hw : checkedSub p.patternLength p.latent = some (w + 1) ∧ p.patternLength ≤ series.length := by
      obtain ⟨lo, hi, qs, ref, comps, means, first', R, hmm, hw, href, hqs, hpca, hfirst, hR, hpts⟩ := hq
      have := build_some hw hqs
      have := (hpca ⟨0, by omega⟩).1
      refine ⟨hw, ?_⟩
      by_contra hlt
      have h0 : series.length - (p.patternLength - 1) = 0 := by omega
      simp_all [column]
    obtain ⟨parts, n, first, ps, xs, h⟩ := loaded_exists lib hw.1 hf hw.2 hc
    obtain ⟨s, h1, h2⟩ := exists_stuck hf.pos hk3 (by omega : 0 < e + 1) (decide (1 < p.nThreads)) (fun m i => (xs i m).r)
      (combine lib.qr) (matrices lib xs first)
    obtain ⟨pts, h3, h4⟩ := C74_complete hqr hs hf hk3 hq h h1 h2
    exact ⟨pts, ⟨parts, n, first, ps, xs, s, h, h1, h3⟩, h4⟩
  · rintro ⟨pts, h, rfl⟩
    exact C74_points hqr hs hf hk3 h

end Cluster
end S2G
