import Verif.Props.KdeDensity
import Verif.Props.KdePeaks

/-!
# The clustering does not depend on the order of the intersections

Intersections arrive at a node in an order that depends on message timing. Which intersections share a cluster does not
(used for C62).
-/

namespace S2G
namespace Kde

theorem foldl_min_perm {xs ys : List ℝ} (h : xs.Perm ys) (a : ℝ) : xs.foldl min a = ys.foldl min a :=
  h.foldl_eq' (fun x _ y _ z => by simp [min_assoc, min_comm x y]) a

theorem foldl_max_perm {xs ys : List ℝ} (h : xs.Perm ys) (a : ℝ) : xs.foldl max a = ys.foldl max a :=
  h.foldl_eq' (fun x _ y _ z => by simp [max_assoc, max_comm x y]) a

theorem colMin_perm {xs ys : List ℝ} (h : xs.Perm ys) : colMin xs = colMin ys := by
  cases xs with
  | nil => rw [List.nil_perm.1 h]
  | cons a xs =>
    cases ys with
    | nil => exact absurd h (by simp)
    | cons b ys =>
      have e : ∀ (c : ℝ) (l : List ℝ), l.foldl min c = (c :: l).foldl min c := by
        intro c l; simp
      have hm : ∀ (c d : ℝ) (l : List ℝ), d ∈ l → l.foldl min (min c d) = l.foldl min c := by
        intro c d l
        induction l generalizing c with
        | nil => intro h; cases h
        | cons x l ih =>
          intro hd
          rw [List.foldl_cons, List.foldl_cons]
          rcases List.mem_cons.1 hd with rfl | hd
          · rw [min_assoc, min_self]
          · rw [min_assoc, min_comm d x, ← min_assoc, ih _ hd]
      simp only [colMin, Option.some.injEq]
      rw [e a xs, e b ys, ← hm a b (a :: xs) (h.symm.subset (by simp)), ← hm b a (b :: ys) (h.subset (by simp)),
        min_comm, foldl_min_perm h]

theorem colMax_perm {xs ys : List ℝ} (h : xs.Perm ys) : colMax xs = colMax ys := by
  cases xs with
  | nil => rw [List.nil_perm.1 h]
  | cons a xs =>
    cases ys with
    | nil => exact absurd h (by simp)
    | cons b ys =>
      have e : ∀ (c : ℝ) (l : List ℝ), l.foldl max c = (c :: l).foldl max c := by
        intro c l; simp
      have hm : ∀ (c d : ℝ) (l : List ℝ), d ∈ l → l.foldl max (max c d) = l.foldl max c := by
        intro c d l
        induction l generalizing c with
        | nil => intro h; cases h
        | cons x l ih =>
          intro hd
          rw [List.foldl_cons, List.foldl_cons]
          rcases List.mem_cons.1 hd with rfl | hd
          · rw [max_assoc, max_self]
          · rw [max_assoc, max_comm d x, ← max_assoc, ih _ hd]
      simp only [colMax, Option.some.injEq]
      rw [e a xs, e b ys, ← hm a b (a :: xs) (h.symm.subset (by simp)), ← hm b a (b :: ys) (h.subset (by simp)),
        max_comm, foldl_max_perm h]

theorem variance_perm {xs ys : List ℝ} (h : xs.Perm ys) : variance xs = variance ys := by
  unfold variance
  rw [h.sum_eq, h.length_eq]
  simp only
  rw [(h.map _).sum_eq]

theorem scottsFactor_perm {xs ys : List ℝ} (h : xs.Perm ys) : scottsFactor xs = scottsFactor ys := by
  unfold scottsFactor
  rw [h.length_eq]

theorem precision_perm {xs ys : List ℝ} (h : xs.Perm ys) : precision xs = precision ys := by
  unfold precision
  rw [variance_perm h, scottsFactor_perm h]

theorem kernel_perm {xs ys : List ℝ} (h : xs.Perm ys) : kernel xs = kernel ys := by
  funext prec mn mx r x j
  unfold kernel
  rw [h.length_eq]

theorem density_perm {t resolution : Nat} (ht : 1 ≤ t) {xs ys : List ℝ} (h : xs.Perm ys) (h2 : 2 ≤ xs.length) :
    density t resolution xs = density t resolution ys := by
  have h2' : 2 ≤ ys.length := by rw [← h.length_eq]; exact h2
  obtain ⟨a1, a2⟩ := density_spec (resolution := resolution) ht h2
  obtain ⟨b1, b2⟩ := density_spec (resolution := resolution) ht h2'
  cases hx : density t resolution xs with
  | none =>
    symm
    rw [b1]
    rw [hx] at a1
    intro x hx y hy
    exact a1.1 rfl x (h.mem_iff.2 hx) y (h.mem_iff.2 hy)
  | some d =>
    cases hy : density t resolution ys with
    | none =>
      have : density t resolution xs = none := a1.2 (fun x hx y hy' => b1.1 hy x (h.mem_iff.1 hx) y (h.mem_iff.1 hy'))
      rw [hx] at this
      cases this
    | some e =>
      obtain ⟨mn, mx, prec, c1, c2, c3, rfl⟩ := a2 d hx
      obtain ⟨mn', mx', prec', d1, d2, d3, rfl⟩ := b2 e hy
      rw [← colMin_perm h, c1] at d1
      rw [← colMax_perm h, c2] at d2
      rw [← precision_perm h, c3] at d3
      cases d1; cases d2; cases d3
      congr 1
      funext j
      rw [kernel_perm h]
      exact (h.map _).sum_eq

/-- The centre of a value of a column. -/
noncomputable def centerFn (t resolution order : Nat) (col : List ℝ) : Option (ℝ → ℝ) := do
  let dens ← density t resolution col
  let mn ← colMin col
  let mx ← colMax col
  let idx ← findPeakIndex order ((List.range resolution).map dens)
  let peaks := idx.map (gridAt mn mx resolution)
  some (fun x => (closestPeak peaks x).getD 0)

theorem centerFn_perm {t resolution order : Nat} (ht : 1 ≤ t) {xs ys : List ℝ} (h : xs.Perm ys) (h2 : 2 ≤ xs.length) :
    centerFn t resolution order xs = centerFn t resolution order ys := by
  unfold centerFn
  rw [density_perm ht h h2, colMin_perm h, colMax_perm h]

theorem centers_eq (t resolution order : Nat) (col : List ℝ) :
    (do
      let dens ← density t resolution col
      columnCenters resolution order col dens) = (centerFn t resolution order col).map (fun f => col.map f) := by
  unfold centerFn columnCenters
  cases density t resolution col with
  | none => rfl
  | some dens =>
    cases colMin col with
    | none => rfl
    | some mn =>
      cases colMax col with
      | none => rfl
      | some mx =>
        simp only [Option.bind_eq_bind, Option.bind_some]
        cases findPeakIndex order ((List.range resolution).map dens) with
        | none => rfl
        | some idx =>
          simp only [Option.bind_some, Option.map_some]
          generalize idx.map (gridAt mn mx resolution) = peaks
          cases peaks with
          | nil => simp [closestPeak, List.map_const']
          | cons p ps =>
            rw [if_neg (by simp)]
            induction col with
            | nil => rfl
            | cons x col ih => simp [List.mapM_cons, ih, closestPeak]

/-- The values of a column. -/
def column (data : List (List ℝ)) (c : Nat) : List ℝ := data.map (fun row => row.getD c 0)

/-- The centre of a row. -/
def rowCenter (dims : Nat) (fs : List (ℝ → ℝ)) (row : List ℝ) : List ℝ :=
  List.zipWith (fun f c => f (row.getD c 0)) fs (List.range dims)

theorem mapM_congr' {α β : Type} {f g : α → Option β} {l : List α} (h : ∀ a ∈ l, f a = g a) : l.mapM f = l.mapM g := by
  induction l with
  | nil => rfl
  | cons a l ih => rw [List.mapM_cons, List.mapM_cons, h a (by simp), ih (fun b hb => h b (by simp [hb]))]

theorem mapM_map_option {α β γ : Type} (f : α → Option β) (g : α → β → γ) (l : List α) :
    l.mapM (fun a => (f a).map (g a)) = (l.mapM f).map (fun bs => List.zipWith (fun b a => g a b) bs l) := by
  induction l with
  | nil => rfl
  | cons a l ih =>
    rw [List.mapM_cons, List.mapM_cons, ih]
    cases f a with
    | none => rfl
    | some b =>
      cases l.mapM f with
      | none => rfl
      | some bs => rfl

open Classical in
theorem cluster_eq (t resolution order dims : Nat) {data : List (List ℝ)} (hd : ∀ row ∈ data, row.length = dims) :
    cluster t resolution order dims data =
      ((List.range dims).mapM (fun c => centerFn t resolution order (column data c))).bind
        (fun fs => extractLabels (data.map (rowCenter dims fs))) := by
  unfold cluster
  have hcols : (List.range dims).mapM (fun c => data.mapM (fun row => row[c]?)) =
      some ((List.range dims).map (column data)) := by
    rw [show (some ((List.range dims).map (column data))) = (List.range dims).mapM (fun c => some (column data c)) by
      induction List.range dims with
      | nil => rfl
      | cons a l ih => rw [List.mapM_cons, ← ih]; rfl]
    apply mapM_congr'
    intro c hc
    rw [List.mem_range] at hc
    unfold column
    clear * - hd hc
    induction data with
    | nil => rfl
    | cons row data ih =>
      have h1 := hd row (by simp)
      rw [List.mapM_cons, ih (fun r hr => hd r (by simp [hr])), List.getElem?_eq_getElem (by omega)]
      simp [List.getD, List.getElem?_eq_getElem (show c < row.length by omega)]
  rw [hcols]
  simp only [Option.bind_eq_bind, Option.bind_some]
  have hcen := fun col => centers_eq t resolution order col
  simp only [Option.bind_eq_bind] at hcen
  simp only [hcen]
  rw [List.mapM_map]
  simp only [Function.comp_def]
  rw [mapM_map_option (fun c => centerFn t resolution order (column data c)) (fun c f => (column data c).map f)]
  cases hfs : (List.range dims).mapM (fun c => centerFn t resolution order (column data c)) with
  | none => rfl
  | some fs =>
    simp only [Option.map_some, Option.bind_some]
    have hlen : fs.length = dims := by rw [length_of_mapM hfs, List.length_range]
    have hrows : (List.range data.length).mapM (fun i =>
        (List.zipWith (fun f c => (column data c).map f) fs (List.range dims)).mapM (fun col => col[i]?)) =
        some (data.map (rowCenter dims fs)) := by
      have hin : ∀ i (hi : i < data.length),
          (List.zipWith (fun f c => (column data c).map f) fs (List.range dims)).mapM (fun col => col[i]?) =
            some (rowCenter dims fs data[i]) := by
        intro i hi
        unfold rowCenter
        generalize List.range dims = cs
        clear * - hi
        induction fs generalizing cs with
        | nil => rfl
        | cons f fs ih =>
          cases cs with
          | nil => rfl
          | cons c cs =>
            rw [List.zipWith_cons_cons, List.mapM_cons, ih cs, List.zipWith_cons_cons]
            simp [column, List.getElem?_eq_getElem hi]
      have : (List.range data.length).mapM (fun i => data[i]?.map (rowCenter dims fs)) =
          some (data.map (rowCenter dims fs)) := by
        clear * -
        induction data using List.reverseRecOn with
        | nil => rfl
        | append_singleton l a ih =>
          rw [List.length_append, List.length_singleton, List.range_succ, List.mapM_append, List.map_append]
          have : (List.range l.length).mapM (fun i => (l ++ [a])[i]?.map (rowCenter dims fs)) =
              (List.range l.length).mapM (fun i => l[i]?.map (rowCenter dims fs)) := by
            apply mapM_congr'
            intro i hi
            rw [List.mem_range] at hi
            rw [List.getElem?_append_left hi]
          rw [this, ih]
          simp
      rw [← this]
      apply mapM_congr'
      intro i hi
      rw [List.mem_range] at hi
      rw [hin i hi, List.getElem?_eq_getElem hi]
      rfl
    rw [hrows]
    rfl

/-- The labels only depend on which intersections are there, not on their order: a reordering crashes iff the original does,
and two intersections share a label iff they do so in the reordering. -/
theorem cluster_order_free {t resolution order dims : Nat} (ht : 1 ≤ t) {data data' : List (List ℝ)}
    (hd : ∀ row ∈ data, row.length = dims) (h2 : 2 ≤ data.length) (h : data.Perm data') :
    (cluster t resolution order dims data = none ↔ cluster t resolution order dims data' = none) ∧
    ∀ ls tb ls' tb', cluster t resolution order dims data = some (ls, tb) → cluster t resolution order dims data' = some (ls', tb') →
      ∀ (i j i' j' : Nat) (a b : List ℝ), data[i]? = some a → data[j]? = some b → data'[i']? = some a → data'[j']? = some b →
        (ls[i]? = ls[j]? ↔ ls'[i']? = ls'[j']?) := by
  classical
  have hd' : ∀ row ∈ data', row.length = dims := fun row hr => hd row (h.mem_iff.2 hr)
  have hfs : (List.range dims).mapM (fun c => centerFn t resolution order (column data c)) =
      (List.range dims).mapM (fun c => centerFn t resolution order (column data' c)) := by
    apply mapM_congr'
    intro c _
    exact centerFn_perm ht (h.map _) (by unfold column; rw [List.length_map]; exact h2)
  have hne : data ≠ [] := by rintro rfl; simp at h2
  have hne' : data' ≠ [] := by
    rintro rfl
    exact hne h.eq_nil
  rw [cluster_eq _ _ _ _ hd, cluster_eq _ _ _ _ hd', ← hfs]
  cases (List.range dims).mapM (fun c => centerFn t resolution order (column data c)) with
  | none => exact ⟨Iff.rfl, fun _ _ _ _ h => by cases h⟩
  | some fs =>
    simp only [Option.bind_some]
    obtain ⟨ls, tb, e, -, hl, -⟩ := C34_labels (centers := data.map (rowCenter dims fs)) (by simpa using hne)
    obtain ⟨ls', tb', e', -, hl', -⟩ := C34_labels (centers := data'.map (rowCenter dims fs)) (by simpa using hne')
    rw [e, e']
    refine ⟨by simp, ?_⟩
    rintro _ _ _ _ ⟨⟩ ⟨⟩ i j i' j' a b hi hj hi' hj'
    rw [hl i j _ _ (by rw [List.getElem?_map, hi]; rfl) (by rw [List.getElem?_map, hj]; rfl),
      hl' i' j' _ _ (by rw [List.getElem?_map, hi']; rfl) (by rw [List.getElem?_map, hj']; rfl)]

end Kde
end S2G
