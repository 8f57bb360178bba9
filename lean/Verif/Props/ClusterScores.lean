import Verif.Model.ClusterRun
import Verif.Props.Cluster
import Verif.Props.CorrComplete
import Verif.Props.FirstEdge
import Verif.Props.WholeRun
import Verif.Props.Geometry

/-!
# C75: lemmas

Coordinates of crossings which are computed by different nodes, parts of a list, and the segmentation of the parts.
-/

namespace S2G

namespace Geometry

theorem inPlane_scale {m : Nat} {a mx : ℝ} (ha : 0 < a) {rate seg : Nat} {x : Fin (m + 2) → ℝ}
    (h : InPlane (planePoints (a * mx) rate seg) x) : InPlane (planePoints mx rate seg) x := by
  obtain ⟨c, hc⟩ := h
  refine ⟨fun k => c k * a, fun j => ?_⟩
  rw [hc j, planePoints_zero, planePoints_zero, planePoints_scale ha]
  simp only [Pi.zero_apply, zero_add, sub_zero, Pi.smul_apply, smul_eq_mul]
  apply Finset.sum_congr rfl
  intro k _
  ring

/-- The radius of the border planes has no influence on the crossing. -/
theorem linePlane_radius {m : Nat} {mx mx' : ℝ} (h : 0 < mx) (h' : 0 < mx') (l0 l1 : Fin (m + 2) → ℝ) (rate seg : Nat) :
    linePlane l0 l1 (planePoints mx rate seg) = linePlane l0 l1 (planePoints mx' rate seg) := by
  cases h1 : linePlane l0 l1 (planePoints mx rate seg) with
  | none =>
    symm
    rw [C31_border_none_iff] at h1 ⊢
    exact .inr (h1.resolve_left h.ne')
  | some x =>
    cases h2 : linePlane l0 l1 (planePoints mx' rate seg) with
    | none =>
      rw [C31_border_none_iff] at h2
      have h3 := (C31_border_none_iff l0 l1 mx rate seg).2 (.inr (h2.resolve_left h'.ne'))
      rw [h1] at h3
      cases h3
    | some y =>
      obtain ⟨g1, g2, _⟩ := C31_sound h1
      obtain ⟨_, _, g3⟩ := C31_sound h2
      rw [g3 x g1 (inPlane_scale (a := mx / mx') (by positivity) (by rwa [div_mul_cancel₀ _ h'.ne']))]

theorem maxValue_nonneg {n : Nat} (ts : List ((Fin (n + 1) → ℝ) × (Fin (n + 1) → ℝ))) : 0 ≤ maxValue ts :=
  (le_foldl_max _ 0).1

theorem intersectionPoint_zero {m : Nat} {ts : List ((Fin (m + 2) → ℝ) × (Fin (m + 2) → ℝ))}
    {t : (Fin (m + 2) → ℝ) × (Fin (m + 2) → ℝ)} (ht : t ∈ ts) (h : maxValue ts = 0) (mx : ℝ) (rate seg : Nat) :
    linePlane t.1 t.2 (planePoints mx rate seg) = none := by
  rw [C31_border_none_iff]
  have key : ∀ j, t.1 j = 0 ∧ t.2 j = 0 := fun j => by
    have := maxValue_ge ht j
    rw [h] at this
    exact ⟨abs_nonpos_iff.1 this.1, abs_nonpos_iff.1 this.2⟩
  right
  simp [(key 0).1, (key 0).2, (key 1).1, (key 1).2]

/-- The other steps which the data store holds have no influence on a crossing. -/
theorem intersectionPoint_store {m : Nat} {ts ts' : List ((Fin (m + 2) → ℝ) × (Fin (m + 2) → ℝ))}
    {t : (Fin (m + 2) → ℝ) × (Fin (m + 2) → ℝ)} (ht : t ∈ ts) (ht' : t ∈ ts') (rate seg : Nat) :
    intersectionPoint ts rate t seg = intersectionPoint ts' rate t seg := by
  unfold intersectionPoint
  rcases (maxValue_nonneg ts).eq_or_lt with h | h
  · rw [intersectionPoint_zero ht h.symm, intersectionPoint_zero ht h.symm]
  · rcases (maxValue_nonneg ts').eq_or_lt with h' | h'
    · rw [intersectionPoint_zero ht' h'.symm, intersectionPoint_zero ht' h'.symm]
    · exact linePlane_radius h h' _ _ _ _

end Geometry

namespace NodeEst

/-- Node estimation looks at the coordinates of the stored crossings only. -/
theorem estimateNodes_congr {X : Type} {clu : List X → Option (List Nat)} {c1 c2 : Inter → X} {stored : List Inter}
    (h : ∀ x ∈ stored, c1 x = c2 x) (p : Parameters) (j : Nat) :
    estimateNodes clu c1 p j stored = estimateNodes clu c2 p j stored := by
  have h1 : ∀ seg, segmentLabels clu c1 (stored.filter (fun x => x.2 = seg)) = segmentLabels clu c2 (stored.filter (fun x => x.2 = seg)) := by
    intro seg
    have : (stored.filter (fun x => x.2 = seg)).map c1 = (stored.filter (fun x => x.2 = seg)).map c2 :=
      List.map_congr_left (fun x hx => h x (List.mem_filter.1 hx).1)
    generalize stored.filter (fun x => x.2 = seg) = xs at this ⊢
    match xs with
    | [] => rfl
    | [_] => rfl
    | x :: y :: xs => exact congrArg clu this
  have h2 : ∀ n seg rate nodes, rate - seg ≤ n → estimateLoop clu c1 rate stored seg nodes =
      estimateLoop clu c2 rate stored seg nodes := by
    intro n
    induction n with
    | zero =>
      intro seg rate nodes hn
      rw [estimateLoop, estimateLoop, h1]
      simp only [show ¬ seg + 1 < rate by omega, dite_false]
    | succ n ih =>
      intro seg rate nodes hn
      rw [estimateLoop, estimateLoop, h1]
      by_cases hs : seg + 1 < rate
      · simp only [hs, dite_true]
        congr 1
        funext labels
        exact ih _ _ _ (by omega)
      · simp only [hs, dite_false]
  unfold estimateNodes
  simp only [h2 _ _ _ _ le_rfl]

end NodeEst

theorem SegNet.reachable_congr {p : Parameters} {a b : Nat → List Pt} (hab : ∀ i < p.nClusterNodes, a i = b i) {s : SegNet}
    (h : SegNet.Reachable p a s) : SegNet.Reachable p b s := by
  induction h with
  | init => exact .init
  | @step s t _ hs ih =>
    refine .step ih ?_
    cases hs with
    | segment i hi hl hc =>
      have : SegNet.segment p a s i = SegNet.segment p b s i := by
        unfold SegNet.segment
        rw [hab i hi]
      rw [this]
      exact .segment s i hi hl hc
    | first i pt t hf hc => exact .first s i pt t hf hc
    | exchange pre post m hm hc => exact .exchange s pre post m hm hc

namespace Cluster

open Pca Rotation Points Whole Pipeline

variable {e w : Nat}

/-! ### Coordinates -/

theorem interCoord_store {pts : List Point} {ts ts' : List Trans} {x : Inter} (h : x.1 ∈ ts) (h' : x.1 ∈ ts') (rate : Nat) :
    interCoord e pts ts rate x = interCoord e pts ts' rate x := by
  unfold interCoord
  rw [Geometry.intersectionPoint_store (List.mem_map_of_mem h) (List.mem_map_of_mem h')]

theorem interCoord_length {pts : List Point} {ts : List Trans} {rate : Nat} {x : Inter} {l : List ℝ}
    (h : interCoord e pts ts rate x = some l) : l.length = e + 1 := by
  unfold interCoord at h
  obtain ⟨y, _, rfl⟩ := Option.map_eq_some_iff.1 h
  simp

/-- C75 (crossings): whichever node computes a crossing, its coordinates are those which one node computes. -/
theorem C75_crossings {p : Parameters} {pts : List Point} {stores : Nat → List Trans} {ts : List Trans}
    (hs : ∀ t, t ∈ ts ↔ ∃ i < p.nClusterNodes, t ∈ stores i) {x : Inter} (hx : x.1 ∈ ts) :
    crossing e p pts stores x = interCoord e pts ts p.rate x := by
  unfold crossing
  cases hf : (List.range p.nClusterNodes).find? (fun i => x.1 ∈ stores i) with
  | none =>
    obtain ⟨i, hi, h⟩ := (hs x.1).1 hx
    have := List.find?_eq_none.1 hf i (List.mem_range.2 hi)
    simp [h] at this
  | some i =>
    have h1 := List.find?_some hf
    exact interCoord_store (by simpa using h1) hx _

/-! ### Parts of a list -/

/-- The entries of a list which belong to node `i`. -/
def slice {α : Type} (p : Parameters) (rows : Nat) (l : List α) (i : Nat) : List α :=
  (l.drop (rows / p.nClusterNodes * i)).take (count p rows i)

theorem slice_map {α β : Type} (f : α → β) (p : Parameters) (rows : Nat) (l : List α) (i : Nat) :
    slice p rows (l.map f) i = (slice p rows l i).map f := by
  unfold slice
  rw [List.map_take, List.map_drop]

theorem flatMap_prefix {α : Type} {p : Parameters} {rows : Nat} {f : Nat → List α}
    (h : ∀ i, i + 1 < p.nClusterNodes → (f i).length = rows / p.nClusterNodes) (j : Nat) (hj : j < p.nClusterNodes) :
    ((List.range j).flatMap f).length = rows / p.nClusterNodes * j := by
  induction j with
  | zero => simp
  | succ j ih =>
    rw [List.range_succ, List.flatMap_append, List.length_append, ih (by omega)]
    simp [h j hj]
    ring

theorem slice_flatMap {α : Type} {p : Parameters} {rows : Nat} {f : Nat → List α}
    (h : ∀ i < p.nClusterNodes, (f i).length = count p rows i) {i : Nat} (hi : i < p.nClusterNodes) :
    slice p rows ((List.range p.nClusterNodes).flatMap f) i = f i := by
  have h1 : ∀ i, i + 1 < p.nClusterNodes → (f i).length = rows / p.nClusterNodes := fun i hi => by
    rw [h i (by omega), count, if_neg (by omega)]
  obtain ⟨d, hd⟩ : ∃ d, p.nClusterNodes = i + (d + 1) := ⟨p.nClusterNodes - i - 1, by omega⟩
  unfold slice
  have h2 : (List.range p.nClusterNodes).flatMap f = (List.range i).flatMap f ++ (f i ++ ((List.range d).map (fun x => i + (x + 1))).flatMap f) := by
    rw [hd, List.range_add, List.flatMap_append, List.range_succ_eq_map]
    simp [List.flatMap_cons, List.map_map, Function.comp_def]
  rw [h2, List.drop_left' (flatMap_prefix h1 i hi), List.take_left' (h i hi)]

theorem flatMap_slice {α : Type} {p : Parameters} {rows : Nat} (hk : 0 < p.nClusterNodes) {l : List α}
    (hl : l.length = rows / p.nClusterNodes * (p.nClusterNodes - 1) + count p rows (p.nClusterNodes - 1)) :
    (List.range p.nClusterNodes).flatMap (slice p rows l) = l := by
  have key : ∀ j < p.nClusterNodes, (List.range j).flatMap (slice p rows l) = l.take (rows / p.nClusterNodes * j) := by
    intro j
    induction j with
    | zero => intro _; simp
    | succ j ih =>
      intro hj
      rw [List.range_succ, List.flatMap_append, ih (by omega)]
      simp only [List.flatMap_cons, List.flatMap_nil, List.append_nil]
      unfold slice
      rw [count, if_neg (by omega), Nat.mul_succ, List.take_add]
  obtain ⟨k, hk'⟩ : ∃ k, p.nClusterNodes = k + 1 := ⟨p.nClusterNodes - 1, by omega⟩
  have h1 := key k (by omega)
  rw [hk'] at h1 hl ⊢
  rw [List.range_succ, List.flatMap_append, h1]
  simp only [List.flatMap_cons, List.flatMap_nil, List.append_nil]
  unfold slice
  rw [hk', List.take_of_length_le (l := List.drop _ _), List.take_append_drop]
  rw [List.length_drop, hl]
  simp

theorem slice_length {α : Type} {p : Parameters} {rows : Nat} {l : List α}
    (hl : l.length = rows / p.nClusterNodes * (p.nClusterNodes - 1) + count p rows (p.nClusterNodes - 1)) {i : Nat}
    (hi : i < p.nClusterNodes) : (slice p rows l i).length = count p rows i := by
  unfold slice
  rw [List.length_take, List.length_drop, hl]
  by_cases h : i = p.nClusterNodes - 1
  · rw [h]
    simp
  · have h1 : count p rows i = rows / p.nClusterNodes := by rw [count, if_neg h]
    rw [h1]
    obtain ⟨d, hd⟩ : ∃ d, p.nClusterNodes - 1 = i + (d + 1) := ⟨p.nClusterNodes - 1 - i - 1, by omega⟩
    rw [hd, Nat.mul_add, Nat.mul_succ]
    omega

end Cluster
end S2G
