import Verif.Props.WholeColumns
import Verif.Props.Geometry

/-!
# C85: the order of the columns
-/

namespace S2G

/-- The list in another order. -/
def reorder {α : Type} {n : Nat} (σ : Equiv.Perm (Fin n)) (l : List α) : List α :=
  if h : l.length = n then List.ofFn (fun i : Fin n => l[(σ i).val]'(by omega)) else l

theorem reorder_length {α : Type} {n : Nat} (σ : Equiv.Perm (Fin n)) (l : List α) : (reorder σ l).length = l.length := by
  unfold reorder
  split
  · next h => simp [h]
  · rfl

theorem reorder_getElem? {α : Type} {n : Nat} (σ : Equiv.Perm (Fin n)) {l : List α} (h : l.length = n) (i : Fin n) :
    (reorder σ l)[i.val]? = l[(σ i).val]? := by
  unfold reorder
  rw [dif_pos h, List.getElem?_ofFn, dif_pos i.2, List.getElem?_eq_getElem]

theorem reorder_symm {α : Type} {n : Nat} (σ : Equiv.Perm (Fin n)) (l : List α) : reorder σ.symm (reorder σ l) = l := by
  by_cases h : l.length = n
  · apply List.ext_getElem?
    intro i
    by_cases hi : i < n
    · have := reorder_getElem? σ.symm (l := reorder σ l) (by rw [reorder_length, h]) ⟨i, hi⟩
      rw [reorder_getElem? σ h, Equiv.apply_symm_apply] at this
      exact this
    · rw [List.getElem?_eq_none (by rw [reorder_length, reorder_length]; omega), List.getElem?_eq_none (by omega)]
  · unfold reorder
    rw [dif_neg h, dif_neg h]

theorem reorder_injective {α : Type} {n : Nat} (σ : Equiv.Perm (Fin n)) : Function.Injective (reorder (α := α) σ) := by
  intro a b h
  rw [← reorder_symm σ a, h, reorder_symm]

theorem reorder_mapM {α β : Type} {n : Nat} (σ : Equiv.Perm (Fin n)) (F : α → Option β) (l : List α) :
    (reorder σ l).mapM F = (l.mapM F).map (reorder σ) := by
  have key : ∀ (σ : Equiv.Perm (Fin n)) (l : List α) (r : List β), l.mapM F = some r → (reorder σ l).mapM F = some (reorder σ r) := by
    intro σ l r h
    rw [mapM_eq_some] at h ⊢
    have hl := h.length_eq
    rw [List.forall₂_iff_get] at h ⊢
    refine ⟨by rw [reorder_length, reorder_length, hl], fun i h1 h2 => ?_⟩
    simp only [List.get_eq_getElem] at h ⊢
    by_cases hn : l.length = n
    · have hi : i < n := by rw [reorder_length] at h1; omega
      have a := reorder_getElem? σ hn ⟨i, hi⟩
      have b := reorder_getElem? σ (l := r) (by omega) ⟨i, hi⟩
      simp only at a b
      have hs := (σ ⟨i, hi⟩).2
      rw [List.getElem?_eq_getElem h1, List.getElem?_eq_getElem (by omega)] at a
      rw [List.getElem?_eq_getElem h2, List.getElem?_eq_getElem (by omega)] at b
      rw [Option.some.inj a, Option.some.inj b]
      exact h.2 _ (by omega) (by omega)
    · have a : reorder σ l = l := by unfold reorder; rw [dif_neg hn]
      have b : reorder σ r = r := by unfold reorder; rw [dif_neg (by omega)]
      rw [reorder_length] at h1 h2
      simp only [a, b]
      exact h.2 i h1 h2
  cases h : l.mapM F with
  | some r => exact key σ l r h
  | none =>
    cases h' : (reorder σ l).mapM F with
    | none => rfl
    | some r =>
      have := key σ.symm _ _ h'
      rw [reorder_symm, h] at this
      cases this

theorem mapM_congr_left {α β : Type} {F G : α → Option β} {l : List α} (h : ∀ x ∈ l, F x = G x) : l.mapM F = l.mapM G := by
  induction l with
  | nil => rfl
  | cons x l ih => rw [List.mapM_cons, List.mapM_cons, h x (by simp), ih (fun y hy => h y (by simp [hy]))]

namespace Kde

/-- The labels do not depend on the order of the dimensions. -/
theorem cluster_reorder (t resolution order : Nat) {dims : Nat} (σ : Equiv.Perm (Fin dims)) (data : List (List ℝ))
    (h : ∀ r ∈ data, r.length = dims ∨ r = []) :
    (cluster t resolution order dims (data.map (reorder σ))).map Prod.fst = (cluster t resolution order dims data).map Prod.fst := by
  classical
  unfold cluster
  have h1 : (List.range dims).mapM (fun c => (data.map (reorder σ)).mapM (fun row => row[c]?)) =
      (reorder σ (List.range dims)).mapM (fun c => data.mapM (fun row => row[c]?)) := by
    have : reorder σ (List.range dims) = (List.finRange dims).map (fun i => (σ i).val) := by
      unfold reorder
      rw [dif_pos (List.length_range), List.ofFn_eq_map]
      apply List.map_congr_left
      intro i _
      rw [List.getElem_range]
    rw [this, mapM_map_left, ← List.map_coe_finRange_eq_range, mapM_map_left]
    congr 1
    funext i
    rw [mapM_map_left]
    refine mapM_congr_left fun r hr => ?_
    rcases h r hr with h | h
    · exact reorder_getElem? σ h i
    · rw [h]
      have : reorder σ ([] : List ℝ) = [] := List.length_eq_zero_iff.1 (reorder_length σ [])
      rw [this]
      rfl
  rw [h1, reorder_mapM]
  cases (List.range dims).mapM (fun c => data.mapM (fun row => row[c]?)) with
  | none => rfl
  | some cols =>
    simp only [Option.map_some, Option.bind_eq_bind, Option.bind_some, reorder_mapM, List.length_map]
    cases cols.mapM (fun col => (density t resolution col).bind fun dens => columnCenters resolution order col dens) with
    | none => rfl
    | some centers =>
      simp only [Option.map_some, Option.bind_some, reorder_mapM, mapM_map_right]
      cases (List.range data.length).mapM (fun i => centers.mapM (fun col => col[i]?)) with
      | none => rfl
      | some rows =>
        simp only [Option.map_some, Option.bind_some]
        rw [extractLabels_map (reorder_injective σ), Option.map_map]
        rfl

end Kde

/-! ### Geometry -/

namespace Geometry

/-- The order of the coordinates which belongs to an order of the dimensions: the first coordinates of all dimensions, then the second ones. -/
def twice {d : Nat} (σ : Equiv.Perm (Fin d)) : Equiv.Perm (Fin (d + d)) :=
  finSumFinEquiv.symm.trans ((Equiv.sumCongr σ σ).trans finSumFinEquiv)

theorem twice_left {d : Nat} (σ : Equiv.Perm (Fin d)) (i : Fin d) : twice σ (Fin.castAdd d i) = Fin.castAdd d (σ i) := by
  simp [twice]

theorem twice_right {d : Nat} (σ : Equiv.Perm (Fin d)) (i : Fin d) : twice σ (Fin.natAdd d i) = Fin.natAdd d (σ i) := by
  show finSumFinEquiv (Sum.map σ σ (finSumFinEquiv.symm (Fin.natAdd d i))) = _
  rw [finSumFinEquiv_symm_apply_natAdd]
  rfl

theorem distances_reorder {d : Nat} (σ : Equiv.Perm (Fin d)) (x : Fin (d + d) → ℝ) (i : Fin d) :
    distances (x ∘ twice σ) i = distances x (σ i) := by
  unfold distances
  simp only [Function.comp, twice_left, twice_right]

theorem pointMax_reorder {n : Nat} (τ : Equiv.Perm (Fin (n + 1))) (x : Fin (n + 1) → ℝ) : pointMax (x ∘ τ) = pointMax x := by
  unfold pointMax
  have h1 : Finset.univ.sup' Finset.univ_nonempty (x ∘ τ) = Finset.univ.sup' Finset.univ_nonempty x := by
    apply le_antisymm
    · exact Finset.sup'_le _ _ fun i _ => Finset.le_sup' x (Finset.mem_univ (τ i))
    · refine Finset.sup'_le _ _ fun i _ => ?_
      have := Finset.le_sup' (x ∘ τ) (Finset.mem_univ (τ.symm i))
      rwa [Function.comp_apply, Equiv.apply_symm_apply] at this
  have h2 : Finset.univ.inf' Finset.univ_nonempty (x ∘ τ) = Finset.univ.inf' Finset.univ_nonempty x := by
    apply le_antisymm
    · refine Finset.le_inf' _ _ fun i _ => ?_
      have := Finset.inf'_le (x ∘ τ) (Finset.mem_univ (τ.symm i))
      rwa [Function.comp_apply, Equiv.apply_symm_apply] at this
    · exact Finset.le_inf' _ _ fun i _ => Finset.inf'_le x (Finset.mem_univ (τ i))
  rw [h1, h2]

theorem maxValue_reorder {n : Nat} (τ : Equiv.Perm (Fin (n + 1))) (ts : List ((Fin (n + 1) → ℝ) × (Fin (n + 1) → ℝ))) :
    maxValue (ts.map (fun t => (t.1 ∘ τ, t.2 ∘ τ))) = maxValue ts := by
  unfold maxValue
  rw [List.map_map]
  congr 1
  apply List.map_congr_left
  intro t _
  simp only [Function.comp_apply]
  rw [pointMax_reorder, pointMax_reorder]

theorem linePlane_reorder {m : Nat} (τ : Equiv.Perm (Fin (m + 2))) (h0 : τ 0 = 0) (h1 : τ 1 = 1) (l0 l1 : Fin (m + 2) → ℝ) (mx : ℝ)
    (rate seg : Nat) :
    linePlane (l0 ∘ τ) (l1 ∘ τ) (planePoints mx rate seg) = (linePlane l0 l1 (planePoints mx rate seg)).map (· ∘ τ) := by
  have hiff : linePlane (l0 ∘ τ) (l1 ∘ τ) (planePoints mx rate seg) = none ↔ linePlane l0 l1 (planePoints mx rate seg) = none := by
    rw [C31_border_none_iff, C31_border_none_iff]
    simp only [Function.comp, h0, h1]
  cases hx : linePlane l0 l1 (planePoints mx rate seg) with
  | none => rw [hiff.2 hx]; rfl
  | some x =>
    cases hy : linePlane (l0 ∘ τ) (l1 ∘ τ) (planePoints mx rate seg) with
    | none => rw [hiff.1 hy] at hx; cases hx
    | some y =>
      obtain ⟨⟨t, ht⟩, hp, _⟩ := C31_sound hx
      obtain ⟨⟨u, hu⟩, hq, _⟩ := C31_sound hy
      have b1 := inPlane_border hp
      have b2 := inPlane_border hq
      rw [ht 0, ht 1] at b1
      rw [hu 0, hu 1] at b2
      simp only [Function.comp, h0, h1] at b2
      have hne : ¬ (l1 0 - l0 0) * Real.sin (borderAngle rate seg) = (l1 1 - l0 1) * Real.cos (borderAngle rate seg) := by
        intro hc
        rw [(C31_border_none_iff l0 l1 mx rate seg).2 (.inr hc)] at hx
        cases hx
      have htu : t = u := by
        have : (t - u) * ((l1 0 - l0 0) * Real.sin (borderAngle rate seg) - (l1 1 - l0 1) * Real.cos (borderAngle rate seg)) = 0 := by
          linear_combination b1 - b2
        rcases mul_eq_zero.1 this with h | h
        · linarith
        · exact absurd (by linarith) hne
      rw [Option.map_some]
      congr 1
      funext j
      have := ht (τ j)
      rw [← htu] at hu
      rw [hu j]
      exact this.symm

theorem intersectionPoint_reorder {m : Nat} (τ : Equiv.Perm (Fin (m + 2))) (h0 : τ 0 = 0) (h1 : τ 1 = 1)
    (ts : List ((Fin (m + 2) → ℝ) × (Fin (m + 2) → ℝ))) (rate : Nat) (t : (Fin (m + 2) → ℝ) × (Fin (m + 2) → ℝ)) (seg : Nat) :
    intersectionPoint (ts.map (fun t => (t.1 ∘ τ, t.2 ∘ τ))) rate (t.1 ∘ τ, t.2 ∘ τ) seg = (intersectionPoint ts rate t seg).map (· ∘ τ) := by
  unfold intersectionPoint
  rw [maxValue_reorder]
  exact linePlane_reorder τ h0 h1 _ _ _ _ _

end Geometry

/-! ### Points -/

namespace Whole

open Pca Rotation Points Pipeline NodeEst Edges Geometry

variable {e w : Nat}

/-- The point of the reordered columns. -/
def reorderPt (σ : Equiv.Perm (Fin (e + 2))) (x : Point) : Point := { x with coordinates := reorder (twice σ) x.coordinates }

theorem coordinates_reorder (σ : Equiv.Perm (Fin (e + 2))) (R : Fin (e + 2) → Matrix (Fin 3) (Fin 3) ℝ) (row : Fin (e + 2) → Vec) :
    coordinates (R ∘ σ) (row ∘ σ) = reorder (twice σ) (coordinates R row) := by
  have hl : ∀ (R : Fin (e + 2) → Matrix (Fin 3) (Fin 3) ℝ) (row : Fin (e + 2) → Vec), (coordinates R row).length = (e + 2) + (e + 2) := by
    intro R row
    simp [coordinates]
  have h1 : ∀ (R : Fin (e + 2) → Matrix (Fin 3) (Fin 3) ℝ) (row : Fin (e + 2) → Vec) (i : Fin (e + 2)),
      (coordinates R row)[(Fin.castAdd (e + 2) i).val]? = some (rotateRow (R i) (row i)).1 := by
    intro R row i
    have hi := i.2
    simp only [coordinates, List.flatMap_cons, List.flatMap_nil, List.append_nil, Fin.val_castAdd]
    rw [List.getElem?_append_left (by simp)]
    simp
  have h2 : ∀ (R : Fin (e + 2) → Matrix (Fin 3) (Fin 3) ℝ) (row : Fin (e + 2) → Vec) (i : Fin (e + 2)),
      (coordinates R row)[(Fin.natAdd (e + 2) i).val]? = some (rotateRow (R i) (row i)).2 := by
    intro R row i
    simp [coordinates]
  apply List.ext_getElem?
  intro i
  by_cases hi : i < (e + 2) + (e + 2)
  · show (coordinates (R ∘ σ) (row ∘ σ))[(⟨i, hi⟩ : Fin _).val]? = (reorder (twice σ) (coordinates R row))[(⟨i, hi⟩ : Fin _).val]?
    rw [reorder_getElem? _ (hl R row)]
    generalize (⟨i, hi⟩ : Fin ((e + 2) + (e + 2))) = j
    induction j using Fin.addCases with
    | left j => rw [twice_left, h1, h1]; rfl
    | right j => rw [twice_right, h2, h2]; rfl
  · rw [List.getElem?_eq_none (by rw [hl]; omega), List.getElem?_eq_none (by rw [reorder_length, hl]; omega)]

theorem twice_zero (σ : Equiv.Perm (Fin (e + 2))) (h0 : σ 0 = 0) : twice σ ⟨0, by omega⟩ = ⟨0, by omega⟩ := by
  have := twice_left σ 0
  rw [h0] at this
  exact this

theorem twice_one (σ : Equiv.Perm (Fin (e + 2))) (h1 : σ 1 = 1) : twice σ ⟨1, by omega⟩ = ⟨1, by omega⟩ := by
  have := twice_left σ 1
  rw [h1] at this
  exact this

theorem reorder_first (σ : Equiv.Perm (Fin (e + 2))) (h0 : σ 0 = 0) (h1 : σ 1 = 1) {cs : List ℝ} (hl : cs.length = (e + 2) + (e + 2)) :
    (reorder (twice σ) cs)[0]? = cs[0]? ∧ (reorder (twice σ) cs)[1]? = cs[1]? := by
  have a := reorder_getElem? (twice σ) hl ⟨0, by omega⟩
  have b := reorder_getElem? (twice σ) hl ⟨1, by omega⟩
  rw [twice_zero σ h0] at a
  rw [twice_one σ h1] at b
  exact ⟨a, b⟩

theorem newPoint_reorder (σ : Equiv.Perm (Fin (e + 2))) (h0 : σ 0 = 0) (h1 : σ 1 = 1) (id : Nat) {cs : List ℝ}
    (hl : cs.length = (e + 2) + (e + 2)) (n : Nat) :
    newPoint id (reorder (twice σ) cs) n = (newPoint id cs n).map (reorderPt σ) := by
  obtain ⟨a, b⟩ := reorder_first σ h0 h1 hl
  unfold newPoint
  rw [a, b]
  cases cs[0]? with
  | none => rfl
  | some x =>
    cases cs[1]? with
    | none => rfl
    | some y =>
      simp only [Option.bind_eq_bind, Option.bind_some]
      cases SegmentId.pointSegment x y n <;> rfl

theorem addPoints_reorder (σ : Equiv.Perm (Fin (e + 2))) (h0 : σ 0 = 0) (h1 : σ 1 = 1) (n : Nat) : ∀ (cs : List (List ℝ)) (offset : Nat),
    (∀ c ∈ cs, c.length = (e + 2) + (e + 2)) →
    addPoints offset n (cs.map (reorder (twice σ))) = (addPoints offset n cs).map (List.map (reorderPt σ))
  | [], _, _ => rfl
  | c :: cs, offset, h => by
    rw [List.map_cons, addPoints, addPoints, newPoint_reorder σ h0 h1 _ (h c (by simp)),
      addPoints_reorder σ h0 h1 n cs _ (fun x hx => h x (by simp [hx]))]
    cases newPoint offset c n with
    | none => rfl
    | some x =>
      cases addPoints (offset + 1) n cs <;> rfl

theorem applyRotation_reorder (σ : Equiv.Perm (Fin (e + 2))) (h0 : σ 0 = 0) (h1 : σ 1 = 1) (R : Fin (e + 2) → Matrix (Fin 3) (Fin 3) ℝ)
    (rows : List (Fin (e + 2) → Vec)) (n k i rate : Nat) :
    applyRotation (R ∘ σ) (rows.map (· ∘ σ)) n k i rate = (applyRotation R rows n k i rate).map (List.map (reorderPt σ)) := by
  unfold applyRotation
  rw [if_neg (by omega), if_neg (by omega), List.map_map]
  cases checkedDiv n k with
  | none => rfl
  | some q =>
    simp only [Option.bind_eq_bind, Option.bind_some]
    rw [← addPoints_reorder σ h0 h1, List.map_map]
    · congr 1
      apply List.map_congr_left
      intro row _
      exact coordinates_reorder σ R row
    · intro c hc
      obtain ⟨row, _, rfl⟩ := List.mem_map.1 hc
      simp [coordinates]

theorem PointsOf.reorder {lib : Lib w} {p : Parameters} {series : List (Fin (e + 2) → ℝ)} {pts : List Point} (h : PointsOf lib p series pts)
    (σ : Equiv.Perm (Fin (e + 2))) (h0 : σ 0 = 0) (h1 : σ 1 = 1) :
    PointsOf lib p (series.map (· ∘ σ)) (pts.map (reorderPt σ)) := by
  obtain ⟨hw, hN, lo, comps, means, R, hlo, hpca, hR, hpts⟩ := pointsOf_iff.1 h
  have hcol : ∀ m, (series.map (· ∘ σ)).map (· m) = series.map (· (σ m)) := by
    intro m
    rw [List.map_map]
    rfl
  have hwin : ∀ m, windows w p (series.map (· ∘ σ)) m = windows w p series (σ m) := fun m => windows_congr (hcol m)
  refine pointsOf_iff.2 ⟨hw, by rwa [List.length_map], lo ∘ σ, comps ∘ σ, means ∘ σ, R ∘ σ, fun m => ?_, fun m => ?_, fun m => hR (σ m), ?_⟩
  · rw [columnMin_congr (hcol m)]
    exact hlo (σ m)
  · rw [hwin]
    exact hpca (σ m)
  · have := congrArg (Option.map (List.map (reorderPt σ))) hpts
    rw [← applyRotation_reorder σ h0 h1, Option.map_some] at this
    rw [← this, List.length_map, List.map_map]
    congr 1
    apply List.map_congr_left
    intro i _
    funext m
    simp only [Function.comp, hwin]

/-! ### Scores -/

theorem reorder_nil {α : Type} {n : Nat} (σ : Equiv.Perm (Fin n)) : reorder σ ([] : List α) = [] :=
  List.length_eq_zero_iff.1 (reorder_length σ [])

theorem mirrorPoint_reorder (σ : Equiv.Perm (Fin (e + 2))) (h0 : σ 0 = 0) (h1 : σ 1 = 1) (rate : Nat) {x : Point}
    (hl : x.coordinates.length = 2 * (e + 1 + 1)) :
    mirrorPoint rate (reorderPt σ x) = (mirrorPoint rate x).map (reorderPt σ) := by
  obtain ⟨id, l, seg⟩ := x
  simp only at hl
  have key : ∀ (l : List ℝ) (r : Nat) (i s : Nat), l ≠ [] →
      mirrorPoint r ⟨i, l, s⟩ = newPoint i (l.set 0 (l.getD 0 0 * (-1))) r := by
    intro l r i s hne
    obtain ⟨c, cs, rfl⟩ := List.exists_cons_of_ne_nil hne
    rfl
  have hne : l ≠ [] := by rintro rfl; simp at hl
  have hne' : reorder (twice σ) l ≠ [] := by
    intro h
    have := reorder_length (twice σ) l
    rw [h] at this
    simp at this
    omega
  show mirrorPoint rate ⟨id, reorder (twice σ) l, seg⟩ = _
  rw [key _ _ _ _ hne, key _ _ _ _ hne', ← newPoint_reorder σ h0 h1 id (by rw [List.length_set]; omega)]
  congr 1
  have hg : (reorder (twice σ) l).getD 0 0 = l.getD 0 0 := by
    rw [List.getD_eq_getElem?_getD, List.getD_eq_getElem?_getD, (reorder_first σ h0 h1 (by omega)).1]
  rw [hg]
  apply List.ext_getElem?
  intro i
  by_cases hi : i < (e + 2) + (e + 2)
  · have a := reorder_getElem? (twice σ) (l := l.set 0 (l.getD 0 0 * (-1))) (by rw [List.length_set]; omega) ⟨i, hi⟩
    have b := reorder_getElem? (twice σ) (l := l) (by omega) ⟨i, hi⟩
    simp only at a b
    rw [a, List.getElem?_set, List.getElem?_set, b, reorder_length]
    by_cases hz : 0 = i
    · subst hz
      rw [twice_zero σ h0]
    · rw [if_neg hz, if_neg]
      intro hc
      have : (twice σ) ⟨i, hi⟩ = (twice σ) ⟨0, by omega⟩ := by
        rw [twice_zero σ h0]
        exact Fin.ext hc.symm
      have := congrArg Fin.val ((twice σ).injective this)
      exact hz this.symm
  · rw [List.getElem?_eq_none (by rw [List.length_set, reorder_length]; omega),
      List.getElem?_eq_none (by rw [reorder_length, List.length_set]; omega)]

theorem mapM_mirror_reorder (σ : Equiv.Perm (Fin (e + 2))) (h0 : σ 0 = 0) (h1 : σ 1 = 1) (rate : Nat) {pts : List Point}
    (hl : ∀ x ∈ pts, x.coordinates.length = 2 * (e + 1 + 1)) :
    (pts.map (reorderPt σ)).mapM (mirrorPoint rate) = (pts.mapM (mirrorPoint rate)).map (List.map (reorderPt σ)) := by
  rw [Kde.mapM_map_left, ← Kde.mapM_map_right]
  exact mapM_congr_left fun x hx => mirrorPoint_reorder σ h0 h1 rate (hl x hx)

theorem find_reorder (σ : Equiv.Perm (Fin (e + 2))) (pts : List Point) (id : Nat) :
    (pts.map (reorderPt σ)).find? (fun x => x.id = id) = (pts.find? (fun x => x.id = id)).map (reorderPt σ) := by
  rw [List.find?_map]
  rfl

theorem mirrorPt_reorder (σ : Equiv.Perm (Fin (e + 2))) (mirrored : List Point) :
    mirrorPt (mirrored.map (reorderPt σ)) = mirrorPt mirrored := by
  funext b
  unfold mirrorPt
  rw [find_reorder]
  cases mirrored.find? (fun x => x.id = b.id) <;> rfl

theorem toPt_reorder (σ : Equiv.Perm (Fin (e + 2))) (pts : List Point) : (pts.map (reorderPt σ)).map toPt = pts.map toPt := by
  rw [List.map_map]
  rfl

theorem coordsOf_reorder (σ : Equiv.Perm (Fin (e + 2))) (pts : List Point) (id : Nat) :
    coordsOf (pts.map (reorderPt σ)) id = reorder (twice σ) (coordsOf pts id) := by
  unfold coordsOf
  rw [find_reorder]
  cases pts.find? (fun x => x.id = id) with
  | none => exact (reorder_nil _).symm
  | some x => rfl

theorem coordsOf_length {n : Nat} {pts : List Point} (hl : ∀ x ∈ pts, x.coordinates.length = n) (id : Nat) :
    (coordsOf pts id).length = n ∨ coordsOf pts id = [] := by
  unfold coordsOf
  cases h : pts.find? (fun x => x.id = id) with
  | none => exact .inr rfl
  | some x => exact .inl (hl x (List.mem_of_find?_eq_some h))

/-- `twice` with the index type of the geometry. -/
def coordOrder (σ : Equiv.Perm (Fin (e + 2))) : Equiv.Perm (Fin (2 * (e + 1) + 2)) :=
  (finCongr (by omega)).trans ((twice σ).trans (finCongr (by omega)))

theorem vec_reorder (σ : Equiv.Perm (Fin (e + 2))) {l : List ℝ} (hl : l.length = 2 * (e + 1 + 1) ∨ l = []) :
    vec (2 * (e + 1) + 2) (reorder (twice σ) l) = vec (2 * (e + 1) + 2) l ∘ coordOrder σ := by
  funext i
  unfold vec
  rcases hl with hl | rfl
  · have hi := i.2
    have a := reorder_getElem? (twice σ) (l := l) (by omega) ⟨i.val, by omega⟩
    simp only at a
    rw [Function.comp, List.getD_eq_getElem?_getD, List.getD_eq_getElem?_getD, a]
    rfl
  · rw [reorder_nil]
    rfl

theorem ends_reorder (σ : Equiv.Perm (Fin (e + 2))) {pts : List Point} (hl : ∀ x ∈ pts, x.coordinates.length = 2 * (e + 1 + 1)) (t : Trans) :
    (ends (pts.map (reorderPt σ)) t : (Fin (2 * (e + 1) + 2) → ℝ) × (Fin (2 * (e + 1) + 2) → ℝ)) =
      ((ends pts t).1 ∘ coordOrder σ, (ends pts t).2 ∘ coordOrder σ) := by
  unfold ends
  rw [coordsOf_reorder, coordsOf_reorder, vec_reorder σ (coordsOf_length hl _), vec_reorder σ (coordsOf_length hl _)]

theorem reorder_ofFn {n : Nat} (σ : Equiv.Perm (Fin n)) (f : Fin n → ℝ) : reorder σ (List.ofFn f) = List.ofFn (fun i => f (σ i)) := by
  unfold reorder
  rw [dif_pos (List.length_ofFn)]
  congr 1
  funext i
  rw [List.getElem_ofFn]

theorem interCoord_reorder (σ : Equiv.Perm (Fin (e + 2))) (h0 : σ 0 = 0) (h1 : σ 1 = 1) {pts : List Point}
    (hl : ∀ x ∈ pts, x.coordinates.length = 2 * (e + 1 + 1)) (ts : List Trans) (rate : Nat) (x : Inter) :
    interCoord (e + 1) (pts.map (reorderPt σ)) ts rate x = (interCoord (e + 1) pts ts rate x).map (reorder σ) := by
  unfold interCoord
  have : ts.map (ends (pts.map (reorderPt σ))) = (ts.map (ends pts)).map
      (fun t : (Fin (2 * (e + 1) + 2) → ℝ) × (Fin (2 * (e + 1) + 2) → ℝ) => (t.1 ∘ coordOrder σ, t.2 ∘ coordOrder σ)) := by
    rw [List.map_map]
    apply List.map_congr_left
    intro t _
    exact ends_reorder σ hl t
  have c0 : coordOrder σ 0 = 0 := by
    apply Fin.ext
    have := congrArg Fin.val (twice_zero σ h0)
    exact this
  have c1 : coordOrder σ 1 = 1 := by
    apply Fin.ext
    have := congrArg Fin.val (twice_one σ h1)
    exact this
  rw [this, ends_reorder σ hl, Geometry.intersectionPoint_reorder _ c0 c1, Option.map_map, Option.map_map]
  congr 1
  funext y
  simp only [Function.comp_apply]
  rw [reorder_ofFn]
  congr 1
  funext i
  rw [← distances_reorder σ]
  rfl

theorem scoreWith_reorder (σ : Equiv.Perm (Fin (e + 2))) (h0 : σ 0 = 0) (h1 : σ 1 = 1) (resolution order : Nat) (p : Parameters) (len : Nat)
    (mirror : Pt → Pt) (pts : List Pt) {eff : List Point} (hl : ∀ x ∈ eff, x.coordinates.length = 2 * (e + 1 + 1)) (stored : List Trans) :
    scoreWith resolution order p (e + 1) len mirror pts (eff.map (reorderPt σ)) stored =
      scoreWith resolution order p (e + 1) len mirror pts eff stored := by
  unfold scoreWith
  simp only [interCoord_reorder σ h0 h1 hl, Option.isSome_map]
  split
  · apply localRun_congr
    intro l
    have hlen : ∀ r ∈ l.map (fun x => (interCoord (e + 1) eff stored p.rate x).getD []), r.length = e + 2 ∨ r = [] := by
      intro r hr
      obtain ⟨x, _, rfl⟩ := List.mem_map.1 hr
      unfold interCoord
      cases Geometry.intersectionPoint (m := 2 * (e + 1)) (stored.map (ends eff)) p.rate (ends eff x.1) x.2 with
      | none => exact .inr rfl
      | some y => exact .inl (by simp)
    refine Eq.trans ?_ (Kde.cluster_reorder p.nThreads resolution order σ _ hlen)
    rw [List.map_map]
    unfold clustering
    congr 3
    funext x
    simp only [Function.comp]
    cases interCoord (e + 1) eff stored p.rate x with
    | none => exact (reorder_nil σ).symm
    | some y => rfl
  · rfl

theorem effectivePoints_reorder (σ : Equiv.Perm (Fin (e + 2))) (p : Parameters) (mirrored pts : List Point) :
    effectivePoints p (mirrored.map (reorderPt σ)) (pts.map (reorderPt σ)) =
      (effectivePoints p mirrored pts).map (List.map (reorderPt σ)) := by
  unfold effectivePoints
  rw [toPt_reorder]
  cases SegState.buildSegments p 0 {} (pts.map toPt) with
  | none => rfl
  | some s =>
    simp only [Option.bind_eq_bind, Option.bind_some, Option.map_some]
    split <;> rfl

theorem score_reorder (σ : Equiv.Perm (Fin (e + 2))) (h0 : σ 0 = 0) (h1 : σ 1 = 1) (resolution order : Nat) {p : Parameters} (hr : 0 < p.rate)
    (len : Nat) {pts : List Point} (hl : ∀ x ∈ pts, x.coordinates.length = 2 * (e + 1 + 1)) :
    score resolution order p (e + 1) len (pts.map (reorderPt σ)) = score resolution order p (e + 1) len pts := by
  obtain ⟨m, hm, _, hml, _⟩ := mirrored_some hr hl
  unfold score
  rw [mapM_mirror_reorder σ h0 h1 _ hl, toPt_reorder, hm, Option.map_some]
  simp only [Option.bind_eq_bind, Option.bind_some]
  rw [mirrorPt_reorder, effectivePoints_reorder]
  cases heff : effectivePoints p m pts with
  | none => simp only [Option.map_none, Option.bind_none]
  | some eff =>
    have hel : ∀ x ∈ eff, x.coordinates.length = 2 * (e + 1 + 1) := by
      unfold effectivePoints at heff
      cases hs : SegState.buildSegments p 0 {} (pts.map toPt) with
      | none => rw [hs] at heff; cases heff
      | some s =>
        rw [hs] at heff
        simp only [Option.bind_eq_bind, Option.bind_some, Option.some.injEq] at heff
        rw [← heff]
        split
        · exact hml
        · exact hl
    rw [Option.map_some, Option.bind_some, Option.bind_some]
    cases Pipeline.segment p (mirrorPt m) (pts.map toPt) with
    | none => simp only [Option.bind_none]
    | some t =>
      rw [Option.bind_some, Option.bind_some]
      exact scoreWith_reorder σ h0 h1 resolution order p len _ _ hel _

/-- C85: the order of the columns from the third on has no influence: exactly the same vectors of scores can be delivered. -/
theorem C85_reorder (lib : Lib w) (resolution order : Nat) {p : Parameters} (hr : 0 < p.rate) (series : List (Fin (e + 2) → ℝ))
    (σ : Equiv.Perm (Fin (e + 2))) (h0 : σ 0 = 0) (h1 : σ 1 = 1) (v : Option (List (Option ℚ))) :
    Delivers lib resolution order p (series.map (· ∘ σ)) v ↔ Delivers lib resolution order p series v := by
  have key : ∀ (σ : Equiv.Perm (Fin (e + 2))) (series : List (Fin (e + 2) → ℝ)), σ 0 = 0 → σ 1 = 1 →
      Delivers lib resolution order p series v → Delivers lib resolution order p (series.map (· ∘ σ)) v := by
    rintro σ series h0 h1 ⟨pts, s0, s, hp, hs, h⟩
    have hl := (hp.numbered hr).2.2.coords
    refine ⟨_, s0, s, hp.reorder σ h0 h1, ?_, h⟩
    rw [List.length_map, score_reorder σ h0 h1 resolution order hr _ hl]
    exact hs
  refine ⟨fun h => ?_, key σ series h0 h1⟩
  have := key σ.symm _ (by rw [Equiv.symm_apply_eq, h0]) (by rw [Equiv.symm_apply_eq, h1]) h
  rw [List.map_map] at this
  have hid : ((fun x : Fin (e + 2) → ℝ => x ∘ σ.symm) ∘ fun x => x ∘ σ) = id := by
    funext x m
    simp
  rwa [hid, List.map_id] at this

end Whole
end S2G
