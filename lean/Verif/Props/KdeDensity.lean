import Verif.Props.KdePeaks
import Verif.Props.DirectProtocol
import Mathlib.Algebra.Order.BigOperators.Group.List
import Mathlib.Tactic.Ring
import Mathlib.Tactic.FieldSimp
import Mathlib.Tactic.Positivity

/-!
# C37: parallel density estimation, C38: crashes of the clustering
-/

namespace S2G
namespace Kde

/-! ## The ranges of the tasks partition the data -/

theorem drop_take_append {α : Type} (l : List α) {a b : Nat} (h : a ≤ b) :
    l.take a ++ (l.take b).drop a = l.take b := by
  conv_rhs => rw [← List.take_append_drop a (l.take b)]
  rw [List.take_take, Nat.min_eq_left h]

theorem tasks_prefix {α : Type} (l : List α) (chunk k t : Nat) (hk : k < t) :
    ((List.range k).map (fun i => (i * chunk, if i + 1 < t then (i + 1) * chunk else l.length))).flatMap
      (fun r => (l.take r.2).drop r.1) = l.take (k * chunk) := by
  induction k with
  | zero => simp
  | succ k ih =>
    rw [List.range_succ, List.map_append, List.flatMap_append, ih (by omega)]
    simp only [List.map_cons, List.map_nil, List.flatMap_cons, List.flatMap_nil, List.append_nil, if_pos hk]
    exact drop_take_append l (Nat.mul_le_mul_right _ (by omega))

/-- C37: for every number of threads `≥ 1` the ranges of the tasks, one after the other, are the data. -/
theorem C37_ranges {α : Type} (l : List α) {t : Nat} (ht : 1 ≤ t) :
    ∃ rs, tasks l.length t = some rs ∧ rs.length = t ∧ rs.flatMap (fun r => (l.take r.2).drop r.1) = l := by
  refine ⟨_, by simp only [tasks, checkedDiv, if_neg (by omega : t ≠ 0)]; rfl, by simp, ?_⟩
  obtain ⟨k, rfl⟩ : ∃ k, t = k + 1 := ⟨t - 1, by omega⟩
  rw [List.range_succ, List.map_append, List.flatMap_append, tasks_prefix l _ k (k + 1) (by omega)]
  simp only [List.map_cons, List.map_nil, List.flatMap_cons, List.flatMap_nil, List.append_nil, Nat.lt_irrefl,
    if_false, List.take_length]
  exact List.take_append_drop _ l

/-- C37 (crash): with 0 threads (see C56) the stage crashes. -/
theorem C37_zero_threads (n : Nat) : tasks n 0 = none := rfl

/-! ## Collecting the answers -/

theorem start_proto (t : Nat) : (GState.start t).proto = { nTotal := t, nSent := t, nReceived := 0 } := by
  unfold GState.start
  have : ∀ k (p : HelperProto), (List.range k).foldl (fun p _ => p.sent) p = { p with nSent := p.nSent + k } := by
    intro k
    induction k with
    | zero => intro p; rfl
    | succ k ih =>
      intro p
      rw [List.range_succ, List.foldl_append, ih]
      rfl
  rw [this]
  simp

/-- After `k < t` answers the sum of these answers is stored and nothing has been reported. -/
theorem onResponse_prefix (t : Nat) (es : List (Nat → ℝ)) (h : es.length < t) :
    ∃ s, es.foldlM GState.onResponse (GState.start t) = some s ∧
      s.proto = { nTotal := t, nSent := t - es.length, nReceived := es.length } ∧ s.out = [] ∧
      s.estimate = if es = [] then none else some (fun j => (es.map (fun e => e j)).sum) := by
  induction es using List.reverseRecOn with
  | nil => exact ⟨_, rfl, by rw [start_proto]; simp, rfl, rfl⟩
  | append_singleton l e ih =>
    rw [List.length_append, List.length_singleton] at h
    obtain ⟨s, h1, h2, h3, h4⟩ := ih (by omega)
    rw [List.foldlM_append, h1]
    have hrec : s.proto.received
        = some { nTotal := t, nSent := t - l.length - 1, nReceived := l.length + 1 } := by
      rw [h2]
      simp only [HelperProto.received, checkedSub, if_pos (show 1 ≤ t - l.length by omega)]
      rfl
    have hrun : (HelperProto.mk t (l.length + 1) (t - l.length - 1)).isRunning = true := by
      simp [HelperProto.isRunning]; omega
    refine ⟨{ s with
        proto := { nTotal := t, nSent := t - l.length - 1, nReceived := l.length + 1 }
        estimate := some (addEstimate s.estimate e) }, ?_, ?_, h3, ?_⟩
    · simp [GState.onResponse, hrec, hrun]
    · simp; omega
    · simp only [h4]
      cases l with
      | nil => simp [addEstimate]
      | cons a l => simp [addEstimate, add_assoc]

/-- C37: whatever the order in which the helpers answer, exactly one density is reported, with the last answer, and
it is the sum over all data points. -/
theorem C37_any_order {col : List ℝ} {prec mn mx : ℝ} {resolution t : Nat} (ht : 1 ≤ t) {ranges : List (Nat × Nat)}
    (hr : tasks col.length t = some ranges) {answers : List (Nat → ℝ)}
    (ha : answers.Perm (ranges.map (evaluate col prec mn mx resolution))) :
    (∃ s, answers.foldlM GState.onResponse (GState.start t) = some s ∧
      s.out = [fun j => (col.map (fun x => kernel col prec mn mx resolution x j)).sum]) ∧
    ∀ k < t, ∃ s, (answers.take k).foldlM GState.onResponse (GState.start t) = some s ∧ s.out = [] := by
  obtain ⟨rs, hrs, hlen, hflat⟩ := C37_ranges col ht
  rw [hr, Option.some.injEq] at hrs
  subst hrs
  have hal : answers.length = t := by rw [ha.length_eq, List.length_map, hlen]
  constructor
  · obtain ⟨init, last, rfl⟩ : ∃ init last, answers = init ++ [last] :=
      ⟨_, _, (List.dropLast_append_getLast (List.ne_nil_of_length_pos (by omega))).symm⟩
    rw [List.length_append, List.length_singleton] at hal
    obtain ⟨s, h1, h2, h3, h4⟩ := onResponse_prefix t init (by omega)
    have hrec : s.proto.received = some { nTotal := t, nSent := 0, nReceived := t } := by
      rw [h2]
      simp only [HelperProto.received, checkedSub, if_pos (show 1 ≤ t - init.length by omega)]
      simp; omega
    have hrun : (HelperProto.mk t t 0).isRunning = false := by simp [HelperProto.isRunning]
    rw [List.foldlM_append, h1]
    refine ⟨{ proto := { nTotal := t, nSent := 0, nReceived := t }, estimate := none,
              out := s.out ++ [addEstimate s.estimate last] }, by simp [GState.onResponse, hrec, hrun], ?_⟩
    simp only [h3, h4, List.nil_append, List.cons.injEq, and_true]
    have hsum : ∀ j, ((init ++ [last]).map (fun e => e j)).sum
        = (col.map (fun x => kernel col prec mn mx resolution x j)).sum := by
      intro j
      rw [(ha.map (fun e => e j)).sum_eq, List.map_map]
      have hev : ∀ r, ((fun e : Nat → ℝ => e j) ∘ evaluate col prec mn mx resolution) r
          = (((col.take r.2).drop r.1).map (fun x => kernel col prec mn mx resolution x j)).sum := fun r => rfl
      rw [show ranges.map ((fun e : Nat → ℝ => e j) ∘ evaluate col prec mn mx resolution) = ranges.map
        (fun r => (((col.take r.2).drop r.1).map (fun x => kernel col prec mn mx resolution x j)).sum) from
        List.map_congr_left (fun r _ => hev r)]
      generalize (fun x => kernel col prec mn mx resolution x j) = f
      conv_rhs => rw [← hflat]
      generalize ranges = rs
      induction rs with
      | nil => simp
      | cons r rs ih =>
        rw [List.map_cons, List.sum_cons, ih, List.flatMap_cons, List.map_append, List.sum_append]
    funext j
    rw [← hsum]
    cases init with
    | nil => simp [addEstimate]
    | cons a l => simp [addEstimate, add_assoc]
  · intro k hk
    obtain ⟨s, h1, _, h3, _⟩ := onResponse_prefix t (answers.take k) (by rw [List.length_take]; omega)
    exact ⟨s, h1, h3⟩

/-! ## C38: when the clustering crashes -/

theorem sum_sq_eq_zero {l : List ℝ} {m : ℝ} (h : (l.map (fun x => (x - m) * (x - m))).sum = 0) :
    ∀ x ∈ l, x = m := by
  induction l with
  | nil => simp
  | cons a l ih =>
    rw [List.map_cons, List.sum_cons] at h
    have h1 : 0 ≤ (a - m) * (a - m) := mul_self_nonneg _
    have h2 : 0 ≤ (l.map (fun x => (x - m) * (x - m))).sum := by
      apply List.sum_nonneg
      intro y hy
      obtain ⟨x, _, rfl⟩ := List.mem_map.1 hy
      exact mul_self_nonneg _
    intro x hx
    rcases List.mem_cons.1 hx with rfl | hx
    · have : (x - m) * (x - m) = 0 := by linarith
      have := mul_self_eq_zero.1 this
      linarith
    · exact ih (by linarith) x hx

theorem sum_const {l : List ℝ} {c : ℝ} (h : ∀ x ∈ l, x = c) : l.sum = l.length * c := by
  induction l with
  | nil => simp
  | cons a l ih =>
    rw [List.sum_cons, ih (fun x hx => h x (List.mem_cons_of_mem _ hx)), h a (List.mem_cons_self ..)]
    push_cast [List.length_cons]
    ring

/-- The variance of at least two values is zero iff all are equal. -/
theorem variance_eq_zero {col : List ℝ} (h2 : 2 ≤ col.length) :
    variance col = 0 ↔ ∀ x ∈ col, ∀ y ∈ col, x = y := by
  have hn : (2 : ℝ) ≤ col.length := by exact_mod_cast h2
  unfold variance
  constructor
  · intro h
    rcases div_eq_zero_iff.1 h with h | h
    · have := sum_sq_eq_zero h
      intro x hx y hy
      rw [this x hx, this y hy]
    · linarith
  · intro h
    obtain ⟨c, hc⟩ := List.exists_mem_of_ne_nil col (List.ne_nil_of_length_pos (by omega))
    have hs := sum_const (fun x hx => h x hx c hc)
    have hm : col.sum / col.length = c := by rw [hs]; field_simp
    simp only [hm]
    rw [div_eq_zero_iff]
    left
    have : ∀ y ∈ col.map (fun x => (x - c) * (x - c)), y = 0 := by
      intro y hy
      obtain ⟨x, hx, rfl⟩ := List.mem_map.1 hy
      rw [h x hx c hc]; ring
    rw [sum_const this]; ring

/-- The density of a column: exists iff the column is not constant, and then it is the kernel density estimate. -/
theorem density_spec {t resolution : Nat} (ht : 1 ≤ t) {col : List ℝ} (h2 : 2 ≤ col.length) :
    (density t resolution col = none ↔ ∀ x ∈ col, ∀ y ∈ col, x = y) ∧
    ∀ dens, density t resolution col = some dens → ∃ mn mx prec, colMin col = some mn ∧ colMax col = some mx ∧
      precision col = some prec ∧ dens = fun j => (col.map (fun x => kernel col prec mn mx resolution x j)).sum := by
  obtain ⟨mn, hmn⟩ : ∃ m, colMin col = some m := by
    cases col with
    | nil => simp at h2
    | cons a l => exact ⟨_, rfl⟩
  obtain ⟨mx, hmx⟩ : ∃ m, colMax col = some m := by
    cases col with
    | nil => simp at h2
    | cons a l => exact ⟨_, rfl⟩
  obtain ⟨rs, hrs, _⟩ := C37_ranges col ht
  unfold density
  rw [hmn, hmx, hrs]
  rcases hp : precision col with _ | prec
  · have hv : variance col = 0 := by
      unfold precision at hp
      split at hp
      · assumption
      · cases hp
    refine ⟨by simp [← variance_eq_zero h2, hv], by simp⟩
  · have hv : variance col ≠ 0 := by
      unfold precision at hp
      split at hp
      · cases hp
      · assumption
    obtain ⟨⟨s, hs, hout⟩, _⟩ := C37_any_order (prec := prec) (mn := mn) (mx := mx) (resolution := resolution) ht hrs
      (List.Perm.refl _)
    simp only [Option.bind_eq_bind, Option.bind_some, hs, hout, List.head?_cons]
    refine ⟨?_, ?_⟩
    · rw [← variance_eq_zero h2]
      simp [hv]
    · intro dens hd
      exact ⟨mn, mx, prec, rfl, rfl, rfl, (Option.some.inj hd).symm⟩

theorem mapM_some_iff {α β : Type} (f : α → Option β) (l : List α) :
    (∃ r, l.mapM f = some r) ↔ ∀ x ∈ l, ∃ y, f x = some y := by
  induction l with
  | nil => simp
  | cons a l ih =>
    rw [List.mapM_cons, List.forall_mem_cons, ← ih]
    cases f a with
    | none => simp
    | some y =>
      cases l.mapM f with
      | none => simp
      | some r => simp

theorem length_of_mapM {α β : Type} {f : α → Option β} {l : List α} {r : List β} (h : l.mapM f = some r) :
    r.length = l.length := by
  induction l generalizing r with
  | nil =>
    have : r = [] := by simpa using h.symm
    rw [this]; rfl
  | cons a l ih =>
    rw [List.mapM_cons] at h
    simp only [Option.bind_eq_bind, Option.bind_eq_some_iff, Option.pure_def] at h
    obtain ⟨y, _, ys, hys, e⟩ := h
    cases e
    simp [ih hys]

theorem map_of_mapM {α β : Type} {f : α → Option β} {l : List α} {r : List β} (h : l.mapM f = some r) :
    l.map f = r.map some := by
  induction l generalizing r with
  | nil =>
    have : r = [] := by simpa using h.symm
    rw [this]; rfl
  | cons a l ih =>
    rw [List.mapM_cons] at h
    simp only [Option.bind_eq_bind, Option.bind_eq_some_iff, Option.pure_def] at h
    obtain ⟨y, hy, ys, hys, e⟩ := h
    cases e
    simp [ih hys, hy]

/-- The centres of a column can always be found. -/
theorem columnCenters_total {resolution order : Nat} (hr : 1 ≤ resolution) (ho : order ≤ resolution) {col : List ℝ}
    (hc : col ≠ []) (dens : Nat → ℝ) :
    ∃ cs, columnCenters resolution order col dens = some cs ∧ cs.length = col.length := by
  obtain ⟨mn, hmn⟩ : ∃ m, colMin col = some m := by
    cases col with
    | nil => exact absurd rfl hc
    | cons a l => exact ⟨_, rfl⟩
  obtain ⟨mx, hmx⟩ : ∃ m, colMax col = some m := by
    cases col with
    | nil => exact absurd rfl hc
    | cons a l => exact ⟨_, rfl⟩
  obtain ⟨idx, hidx, _⟩ := C35_peaks (order := order) (est := (List.range resolution).map dens)
    (by intro h; have := congrArg List.length h; simp at this; omega) (by simpa using ho)
  unfold columnCenters
  rw [hmn, hmx, hidx]
  simp only [Option.bind_eq_bind, Option.bind_some]
  split
  · exact ⟨_, rfl, by simp⟩
  · rename_i hne
    obtain ⟨r, hr'⟩ := (mapM_some_iff (closestPeak (idx.map (gridAt mn mx resolution))) col).2
      (fun x _ => C36_total hne x)
    exact ⟨r, hr', length_of_mapM hr'⟩

theorem mapM_getElem?_range {α : Type} {f : Nat → Option α} {n : Nat} {r : List α}
    (h : (List.range n).mapM f = some r) {i : Nat} (hi : i < n) : f i = r[i]? := by
  obtain ⟨y, hy⟩ := (mapM_some_iff f (List.range n)).1 ⟨r, h⟩ i (List.mem_range.2 hi)
  have hl := length_of_mapM h
  induction n generalizing r i with
  | zero => omega
  | succ n ih =>
    rw [List.range_succ, List.mapM_append] at h
    simp only [Option.bind_eq_bind, Option.bind_eq_some_iff, Option.pure_def, List.mapM_cons, List.mapM_nil,
      Option.bind_some] at h
    obtain ⟨ys, hys, z, hz, e⟩ := h
    have hyl := length_of_mapM hys
    rw [List.length_range] at hyl
    obtain ⟨w, hw, e1⟩ := hz
    cases e1
    cases e
    by_cases hin : i < n
    · rw [List.getElem?_append_left (by omega)]
      exact ih hys hin hy (by rw [hyl, List.length_range])
    · have : i = n := by omega
      subst this
      rw [List.getElem?_append_right (by omega), hyl, hw]
      simp

/-- C38: clustering `≥ 2` intersections with `dims ≥ 1` distances crashes iff some distance is the same for all of
them. In all other cases it returns one label per intersection. -/
theorem C38_crash_iff {t resolution order dims : Nat} (ht : 1 ≤ t) (hr : 1 ≤ resolution) (ho : order ≤ resolution)
    {data : List (List ℝ)} (h2 : 2 ≤ data.length) (hd : ∀ row ∈ data, row.length = dims) :
    (cluster t resolution order dims data = none ↔
      ∃ c, c < dims ∧ ∀ a ∈ data, ∀ b ∈ data, a[c]? = b[c]?) ∧
    ∀ labels table, cluster t resolution order dims data = some (labels, table) → labels.length = data.length := by
  classical
  obtain ⟨cols, hcols⟩ : ∃ cols, (List.range dims).mapM (fun c => data.mapM (fun row => row[c]?)) = some cols := by
    rw [mapM_some_iff]
    intro c hc
    rw [mapM_some_iff]
    intro row hrow
    have := hd row hrow
    exact ⟨_, List.getElem?_eq_getElem (by rw [this]; exact List.mem_range.1 hc)⟩
  have hcl := length_of_mapM hcols
  rw [List.length_range] at hcl
  have hcol : ∀ c < dims, ∃ col, cols[c]? = some col ∧ data.mapM (fun row => row[c]?) = some col := by
    intro c hc
    have := mapM_getElem?_range hcols hc
    exact ⟨cols[c], List.getElem?_eq_getElem (by omega), by rw [this]; exact List.getElem?_eq_getElem (by omega)⟩
  -- a column is constant iff the entries of all rows agree
  have hconst : ∀ (c : Nat) col, data.mapM (fun row => row[c]?) = some col →
      ((∀ x ∈ col, ∀ y ∈ col, x = y) ↔ ∀ a ∈ data, ∀ b ∈ data, a[c]? = b[c]?) := by
    intro c col h
    have hm : data.map (fun row => row[c]?) = col.map some := map_of_mapM h
    constructor
    · intro hx a ha b hb
      have h1 : a[c]? ∈ col.map some := by rw [← hm]; exact List.mem_map_of_mem ha
      have h2 : b[c]? ∈ col.map some := by rw [← hm]; exact List.mem_map_of_mem hb
      obtain ⟨x, hx1, hx2⟩ := List.mem_map.1 h1
      obtain ⟨y, hy1, hy2⟩ := List.mem_map.1 h2
      rw [← hx2, ← hy2, hx x hx1 y hy1]
    · intro hab x hx y hy
      have h1 : some x ∈ data.map (fun row => row[c]?) := by rw [hm]; exact List.mem_map_of_mem hx
      have h2 : some y ∈ data.map (fun row => row[c]?) := by rw [hm]; exact List.mem_map_of_mem hy
      obtain ⟨a, ha1, ha2⟩ := List.mem_map.1 h1
      obtain ⟨b, hb1, hb2⟩ := List.mem_map.1 h2
      have := hab a ha1 b hb1
      rw [ha2, hb2] at this
      exact Option.some.inj this
  have hstep : ∀ col ∈ cols, 2 ≤ col.length := by
    intro col hc
    obtain ⟨c, hc', e⟩ := List.getElem_of_mem hc
    obtain ⟨col', h1, h2'⟩ := hcol c (by omega)
    rw [List.getElem?_eq_getElem hc', e, Option.some.injEq] at h1
    subst h1
    rw [length_of_mapM h2']; exact h2
  have hlen : ∀ col ∈ cols, col.length = data.length := by
    intro col hc
    obtain ⟨c, hc', e⟩ := List.getElem_of_mem hc
    obtain ⟨col', h1, h2'⟩ := hcol c (by omega)
    rw [List.getElem?_eq_getElem hc', e, Option.some.injEq] at h1
    subst h1
    exact length_of_mapM h2'
  obtain ⟨g, hg⟩ : ∃ g : List ℝ → Option (List ℝ), g = fun col =>
    (density t resolution col).bind (fun dens => columnCenters resolution order col dens) := ⟨_, rfl⟩
  have hgnone : ∀ col ∈ cols, (g col = none ↔ ∀ x ∈ col, ∀ y ∈ col, x = y) := by
    intro col hc
    have hds := density_spec (t := t) (resolution := resolution) ht (hstep col hc)
    rw [← hds.1, hg]
    dsimp only
    rcases density t resolution col with _ | dens
    · simp
    · have hne : col ≠ [] := by
        have := hstep col hc
        intro e; rw [e] at this; simp at this
      obtain ⟨cs, h1, _⟩ := columnCenters_total hr ho hne dens
      simp [h1]
  have hglen : ∀ col ∈ cols, ∀ cs, g col = some cs → cs.length = data.length := by
    intro col hc cs h
    rw [hg] at h
    dsimp only at h
    rcases hde : density t resolution col with _ | dens
    · rw [hde] at h; cases h
    · rw [hde, Option.bind_some] at h
      have hne : col ≠ [] := by
        have := hstep col hc
        intro e; rw [e] at this; simp at this
      obtain ⟨cs', h1, h2'⟩ := columnCenters_total hr ho hne dens
      rw [h1, Option.some.injEq] at h
      rw [← h, h2', hlen col hc]
  have hcluster : cluster t resolution order dims data = (cols.mapM g).bind (fun centers =>
      ((List.range data.length).mapM (fun i => centers.mapM (fun col => col[i]?))).bind
        (fun rows => extractLabels rows)) := by
    rw [hg]
    unfold cluster
    rw [hcols]
    rfl
  rw [hcluster]
  rcases hm : cols.mapM g with _ | centers
  · refine ⟨?_, by simp⟩
    simp only [Option.bind_none, true_iff]
    have : ¬ ∀ x ∈ cols, ∃ y, g x = some y := by
      rw [← mapM_some_iff, hm]; simp
    push Not at this
    obtain ⟨col, hc, hno⟩ := this
    have hn : g col = none := by
      rcases h : g col with _ | y
      · rfl
      · exact absurd h (hno y)
    obtain ⟨c, hc', e⟩ := List.getElem_of_mem hc
    obtain ⟨col', h1, h2'⟩ := hcol c (by omega)
    rw [List.getElem?_eq_getElem hc', e, Option.some.injEq] at h1
    subst h1
    exact ⟨c, by omega, (hconst c col h2').1 ((hgnone col hc).1 hn)⟩
  · have hall := (mapM_some_iff g cols).1 ⟨_, hm⟩
    have hcenters : ∀ cs ∈ centers, cs.length = data.length := by
      intro cs hcs
      have : some cs ∈ cols.map g := by
        rw [map_of_mapM hm]; exact List.mem_map_of_mem hcs
      obtain ⟨col, hc, e⟩ := List.mem_map.1 this
      exact hglen col hc cs e
    obtain ⟨rows, hrows⟩ : ∃ rows, (List.range data.length).mapM (fun i => centers.mapM (fun col => col[i]?))
        = some rows := by
      rw [mapM_some_iff]
      intro i hi
      rw [mapM_some_iff]
      intro cs hcs
      have := hcenters cs hcs
      exact ⟨_, List.getElem?_eq_getElem (by rw [this]; exact List.mem_range.1 hi)⟩
    have hrl := length_of_mapM hrows
    rw [List.length_range] at hrl
    obtain ⟨labels, table, hl, hll, _⟩ := C34_labels (centers := rows)
      (List.ne_nil_of_length_pos (by omega))
    simp only [Option.bind_some, hrows]
    refine ⟨?_, ?_⟩
    · refine iff_of_false (fun hn => ?_) ?_
      · have : (some (labels, table) : Option _) = none := by rw [← hl]; convert hn
        cases this
      · rintro ⟨c, hc, hab⟩
        obtain ⟨col, h1, h2'⟩ := hcol c hc
        have hmem : col ∈ cols := List.mem_of_getElem? h1
        obtain ⟨y, hy⟩ := hall col hmem
        have := (hgnone col hmem).2 ((hconst c col h2').2 hab)
        rw [hy] at this
        cases this
    · intro labels' table' h
      have : (some (labels, table) : Option _) = some (labels', table') := by rw [← hl, ← h]
      cases this
      rw [hll, hrl]

/-- C38 is false: two equal intersections crash the clustering. -/
theorem C38_counterexample (t : Nat) (ht : 1 ≤ t) : cluster t 250 1 1 [[1], [1]] = none := by
  refine (C38_crash_iff ht (by omega) (by omega) (by simp) (by simp)).1.2 ⟨0, by omega, ?_⟩
  simp

/-- Concrete instance: two different intersections are clustered. -/
example : cluster 3 250 1 1 [[1], [2]] ≠ none := by
  intro h
  obtain ⟨c, hc, hab⟩ := (C38_crash_iff (t := 3) (resolution := 250) (order := 1) (dims := 1) (data := [[1], [2]])
    (by omega) (by omega) (by omega) (by simp) (by simp)).1.1 h
  have : c = 0 := by omega
  subst this
  have := hab [1] (by simp) [2] (by simp)
  norm_num at this

example : tasks 10 3 = some [(0, 3), (3, 6), (6, 10)] := by decide
example : tasks 2 4 = some [(0, 0), (0, 0), (0, 0), (0, 2)] := by decide

end Kde
end S2G
