import Verif.Props.ClusterRun

/-!
# C76: crossings of whole runs, and series which repeat themselves
-/

namespace S2G
namespace Whole

open Pca Rotation Points Pipeline Edges SegState

variable {e w : Nat}

/-! ### Where a step crosses a border -/

/-- C76 (crossings): a stored step has no crossing with a border exactly if it is parallel to it in the first two coordinates.
Otherwise the crossing is the common point of the line through the end points and the border, and it is kept as one distance per
dimension. -/
theorem C76_crossing {pts : List Point} {ts : List Trans} {t : Trans} (ht : t ∈ ts) (rate s : Nat) :
    (interCoord e pts ts rate (t, s) = none ↔
      ((coordsOf pts t.dst.id).getD 0 0 - (coordsOf pts t.src.id).getD 0 0) * Real.sin (2 * Real.pi * s / rate) =
        ((coordsOf pts t.dst.id).getD 1 0 - (coordsOf pts t.src.id).getD 1 0) * Real.cos (2 * Real.pi * s / rate)) ∧
    ∀ c, interCoord e pts ts rate (t, s) = some c → ∃ (z : Nat → ℝ) (a : ℝ),
      (∀ j < 2 * e + 2, z j = (coordsOf pts t.src.id).getD j 0 + a * ((coordsOf pts t.dst.id).getD j 0 - (coordsOf pts t.src.id).getD j 0)) ∧
      z 0 * Real.sin (2 * Real.pi * s / rate) = z 1 * Real.cos (2 * Real.pi * s / rate) ∧
      c = (List.range (e + 1)).map (fun i => √(z i ^ 2 + z (e + 1 + i) ^ 2)) := by
  have hmem : (ends (e := e) pts t) ∈ ts.map (ends (e := e) pts) := List.mem_map_of_mem ht
  constructor
  · unfold interCoord
    rw [Option.map_eq_none_iff]
    constructor
    · intro h
      unfold Geometry.intersectionPoint at h
      rw [Geometry.C31_border_none_iff] at h
      rcases h with h | h
      · have key : ∀ j, (ends (e := e) pts t).1 j = 0 ∧ (ends (e := e) pts t).2 j = 0 := fun j => by
          have := Geometry.maxValue_ge hmem j
          rw [h] at this
          exact ⟨abs_nonpos_iff.1 this.1, abs_nonpos_iff.1 this.2⟩
        have h0 := key 0
        have h1 := key 1
        simp only [ends, vec, Fin.val_zero, Fin.val_one] at h0 h1
        rw [h0.1, h0.2, h1.1, h1.2]
        simp
      · exact h
    · intro h
      unfold Geometry.intersectionPoint
      rw [Geometry.C31_border_none_iff]
      exact .inr h
  · intro c hc
    unfold interCoord at hc
    obtain ⟨x, hx, rfl⟩ := Option.map_eq_some_iff.1 hc
    obtain ⟨⟨a, ha⟩, h2, _⟩ := Geometry.C31_sound hx
    have h3 := Geometry.inPlane_border h2
    refine ⟨fun j => if h : j < 2 * e + 2 then x ⟨j, h⟩ else 0, a, fun j hj => ?_, ?_, ?_⟩
    · beta_reduce
      rw [dif_pos hj, ha]
      rfl
    · beta_reduce
      rw [dif_pos (by omega), dif_pos (by omega)]
      exact h3
    · apply List.ext_getElem
      · simp
      · intro i h1 h2
        simp only [List.length_ofFn] at h1
        rw [List.getElem_ofFn, List.getElem_map, List.getElem_range]
        beta_reduce
        rw [dif_pos (by omega), dif_pos (by omega)]
        rfl

/-- C76 (crash): the exact condition for a crash after the rotation. -/
theorem C76_crash_iff {p : Parameters} (hp : p.WellFormed) (hn : p.nClusterNodes = 1) {resolution order : Nat} (hres : 1 ≤ resolution)
    (hord : order ≤ resolution) {len : Nat} {mirrored pts : List Point} (hm : pts.mapM (mirrorPoint p.rate) = some mirrored)
    (hnum : Numbered p.rate e pts) (hlen : pts.length ≤ len) (hq : 1 ≤ p.queryLength) (ht : 1 ≤ p.nThreads)
    (hsl : p.nThreads + p.queryLength ≤ pts.length) :
    score resolution order p e len pts = none ↔
      (∃ t ∈ track p mirrored pts, ∃ s ∈ t.intersectionSegments p.rate, place p e mirrored pts (t, s) = none) ∨
      (∃ s < p.rate, 2 ≤ (crossings p.rate (track p mirrored pts) s).length ∧ ∃ c ≤ e,
        ∀ x ∈ crossings p.rate (track p mirrored pts) s, ∀ y ∈ crossings p.rate (track p mirrored pts) s,
          (place p e mirrored pts x).map (fun l => l[c]?) = (place p e mirrored pts y).map (fun l => l[c]?)) ∨
      ∃ t ∈ (track p mirrored pts).head?, t.src.seg + 2 = p.rate ∧ t.dst.seg < t.src.seg := by
  rw [(C72_scores hp hn resolution order hm hnum hlen hq ht hsl).1]
  by_cases hpl : ∃ t ∈ track p mirrored pts, ∃ s ∈ t.intersectionSegments p.rate, place p e mirrored pts (t, s) = none
  · exact ⟨fun _ => .inl hpl, fun _ => .inl hpl⟩
  refine or_congr_right (or_congr_left (exists_congr fun s => and_congr_right fun hs => and_congr_right fun h2 => ?_))
  have hsome : ∀ x ∈ crossings p.rate (track p mirrored pts) s, ∃ l, place p e mirrored pts x = some l ∧ l.length = e + 1 := by
    intro x hx
    obtain ⟨h1, h3⟩ := Cluster.mem_crossings hx
    obtain ⟨l, hl⟩ := Option.ne_none_iff_exists'.1 (fun h => hpl ⟨x.1, h1, x.2, h3, h⟩)
    exact ⟨l, hl, Cluster.interCoord_length hl⟩
  have hrows : ∀ row ∈ (crossings p.rate (track p mirrored pts) s).reverse.map (fun x => (place p e mirrored pts x).getD []),
      row.length = e + 1 := by
    intro row hrow
    obtain ⟨x, hx, rfl⟩ := List.mem_map.1 hrow
    obtain ⟨l, h1, h3⟩ := hsome x (List.mem_reverse.1 hx)
    rw [h1]
    exact h3
  have h38 := (Kde.C38_crash_iff ht hres hord (by rw [List.length_map, List.length_reverse]; exact h2) hrows).1
  unfold clustering
  rw [Option.map_eq_none_iff, h38]
  refine exists_congr fun c => and_congr Nat.lt_succ_iff ⟨fun h x hx y hy => ?_, fun h a ha b hb => ?_⟩
  · have := h _ (List.mem_map_of_mem (List.mem_reverse.2 hx)) _ (List.mem_map_of_mem (List.mem_reverse.2 hy))
    obtain ⟨l, h1, _⟩ := hsome x hx
    obtain ⟨l', h1', _⟩ := hsome y hy
    rw [h1, h1'] at this ⊢
    exact congrArg some this
  · obtain ⟨x, hx, rfl⟩ := List.mem_map.1 ha
    obtain ⟨y, hy, rfl⟩ := List.mem_map.1 hb
    have := h x (List.mem_reverse.1 hx) y (List.mem_reverse.1 hy)
    obtain ⟨l, h1, _⟩ := hsome x (List.mem_reverse.1 hx)
    obtain ⟨l', h1', _⟩ := hsome y (List.mem_reverse.1 hy)
    rw [h1, h1'] at this ⊢
    exact Option.some.inj this

/-! ### Series which repeat themselves -/

/-- The list repeats itself after `T` entries. -/
def Repeats {α : Type} (T : Nat) (l : List α) : Prop := ∀ j, j + T < l.length → l[j + T]? = l[j]?

theorem repeats_map {α β : Type} (f : α → β) {T : Nat} {l : List α} (h : Repeats T l) : Repeats T (l.map f) := by
  intro j hj
  rw [List.length_map] at hj
  rw [List.getElem?_map, List.getElem?_map, h j hj]

theorem specPoint_repeats {p : Parameters} {series : List (Fin (e + 1) → ℝ)} {T j : Nat} (hs : Repeats T series) (hL : 1 ≤ p.latent)
    (hw : p.latent ≤ p.patternLength) (hj : j + T < series.length - (p.patternLength - 1)) :
    PhaseSpace.specPoint p series (j + T) = PhaseSpace.specPoint p series j := by
  unfold PhaseSpace.specPoint
  apply List.map_congr_left
  intro i hi
  rw [List.mem_range] at hi
  apply Finset.sum_congr rfl
  intro t ht
  rw [Finset.mem_range] at ht
  unfold PhaseSpace.series
  have := hs (j + i + t) (by omega)
  rw [List.getD_eq_getElem?_getD, List.getD_eq_getElem?_getD, ← this]
  congr 2
  omega

theorem addPoints_new {o r : Nat} {a : List (List ℝ)} {q : List Point} (h : addPoints o r a = some q) :
    ∀ x ∈ q, newPoint x.id x.coordinates r = some x := by
  induction a generalizing o q with
  | nil =>
    cases Option.some.inj h
    simp
  | cons c cs ih =>
    simp only [addPoints, Option.bind_eq_bind, Option.bind_eq_some_iff] at h
    obtain ⟨y, hy, ys, hys, h⟩ := h
    cases h
    intro x hx
    rcases List.mem_cons.1 hx with rfl | hx
    · have h1 := hy
      simp only [newPoint, Option.bind_eq_bind, Option.bind_eq_some_iff] at h1
      obtain ⟨_, _, _, _, _, _, h1⟩ := h1
      cases h1
      exact hy
    · exact ih hys x hx

/-- Points of a series which repeats itself. -/
theorem PointsOf.repeats {lib : Lib w} {p : Parameters} {series : List (Fin (e + 1) → ℝ)} {q : List Point} {T : Nat}
    (h : PointsOf lib p series q) (hL : 1 ≤ p.latent) (hs : Repeats T series) :
    Repeats T (q.map Point.coordinates) ∧ ∀ x ∈ q, newPoint x.id x.coordinates p.rate = some x := by
  obtain ⟨lo, hi, ps, ref, comps, means, first, R, hmm, hw, href, hps, hpca, hfirst, hR, hpts⟩ := h
  obtain ⟨hN, rfl⟩ := build_some hw hps
  obtain ⟨hle, hw'⟩ := checkedSub_some hw
  rw [Cluster.rows_map (fun m => (comps m, means m))] at hpts
  unfold applyRotation at hpts
  rw [if_neg (by omega)] at hpts
  simp only [checkedDiv, Option.bind_eq_bind, Option.bind_eq_some_iff] at hpts
  obtain ⟨o, ho, hpts⟩ := hpts
  refine ⟨?_, addPoints_new hpts⟩
  rw [Cluster.addPoints_coordinates hpts]
  refine repeats_map _ (repeats_map _ ?_)
  intro j hj
  rw [List.length_map, List.length_range] at hj
  rw [List.getElem?_map, List.getElem?_map, List.getElem?_range hj, List.getElem?_range (by omega)]
  exact congrArg some (specPoint_repeats hs hL (by omega) hj)

/-- What the later stages see of a point besides its id. -/
def shape (x : Point) : List ℝ × Nat := (x.coordinates, x.segment)

theorem newPoint_shape {i j r : Nat} {c : List ℝ} {x y : Point} (hx : newPoint i c r = some x) (hy : newPoint j c r = some y) :
    shape x = shape y := by
  simp only [newPoint, Option.bind_eq_bind, Option.bind_eq_some_iff] at hx hy
  obtain ⟨a, ha, b, hb, s, hs, hx⟩ := hx
  obtain ⟨a', ha', b', hb', s', hs', hy⟩ := hy
  cases ha.symm.trans ha'
  cases hb.symm.trans hb'
  cases hs.symm.trans hs'
  cases hx
  cases hy
  rfl

theorem mirrorPoint_shape {r : Nat} {a b x y : Point} (h : a.coordinates = b.coordinates) (hx : mirrorPoint r a = some x)
    (hy : mirrorPoint r b = some y) : shape x = shape y := by
  obtain ⟨i, c, g⟩ := a
  obtain ⟨j, c', g'⟩ := b
  cases (h : c = c')
  cases c with
  | nil => cases hx
  | cons c cs => exact newPoint_shape hx hy

/-- The points after self correction repeat themselves. -/
theorem corrected_repeats {p : Parameters} {q m : List Point} {T : Nat} (hm : q.mapM (mirrorPoint p.rate) = some m)
    (hq : Repeats T (q.map Point.coordinates)) (hnew : ∀ x ∈ q, newPoint x.id x.coordinates p.rate = some x) :
    Repeats T ((corrected p m q).map shape) := by
  have h1 : Repeats T (q.map shape) := by
    intro j hj
    rw [List.length_map] at hj
    have h := hq j (by rw [List.length_map]; exact hj)
    rw [List.getElem?_map, List.getElem?_map, List.getElem?_eq_getElem hj, List.getElem?_eq_getElem (by omega)] at h ⊢
    have h := Option.some.inj h
    have h2 := hnew _ (List.getElem_mem hj)
    have h3 := hnew _ (List.getElem_mem (show j < q.length by omega))
    rw [h] at h2
    exact congrArg some (newPoint_shape h2 h3)
  have h2 : Repeats T (m.map shape) := by
    have hmap := Kde.map_of_mapM hm
    have hl : m.length = q.length := by simpa using (congrArg List.length hmap).symm
    intro j hj
    rw [List.length_map] at hj
    have h := hq j (by rw [List.length_map]; omega)
    have key : ∀ i (hi : i < q.length), mirrorPoint p.rate q[i] = some (m[i]'(by omega)) := fun i hi => by
      have := congrArg (fun l => l[i]?) hmap
      simpa [List.getElem?_eq_getElem hi, List.getElem?_eq_getElem (show i < m.length by omega)] using this
    rw [List.getElem?_map, List.getElem?_map, List.getElem?_eq_getElem (by omega), List.getElem?_eq_getElem (by omega)] at h ⊢
    exact congrArg some (mirrorPoint_shape (Option.some.inj h) (key _ (by omega)) (key _ (by omega)))
  unfold corrected
  split
  · exact h2
  · exact h1

theorem mem_steps_iff {l : List Pt} {t : Trans} : t ∈ steps l ↔ ∃ j, l[j]? = some t.src ∧ l[j + 1]? = some t.dst := by
  induction l with
  | nil => simp [steps]
  | cons a l ih =>
    cases l with
    | nil => simp [steps]
    | cons b l =>
      rw [steps, List.mem_cons, ih]
      constructor
      · rintro (rfl | ⟨j, h⟩)
        · exact ⟨0, rfl, rfl⟩
        · exact ⟨j + 1, h⟩
      · rintro ⟨j, h1, h2⟩
        cases j with
        | zero =>
          left
          obtain ⟨x, y⟩ := t
          cases Option.some.inj h1
          cases Option.some.inj h2
          rfl
        | succ j => exact .inr ⟨j, h1, h2⟩

theorem repeats_mod {α : Type} {T : Nat} {l : List α} (h : Repeats T l) (j : Nat) (hj : j < l.length) : l[j % T]? = l[j]? := by
  induction j using Nat.strong_induction_on with
  | _ j ih =>
    by_cases hT : T = 0
    · rw [hT, Nat.mod_zero]
    · by_cases hlt : j < T
      · rw [Nat.mod_eq_of_lt hlt]
      · have h1 := ih (j - T) (by omega) (by omega)
        rw [← Nat.mod_eq_sub_mod (by omega)] at h1
        rw [h1]
        have := h (j - T) (by omega)
        rw [← this]
        congr 1
        omega

theorem kind_congr {t u : Trans} (h0 : t.src.seg = u.src.seg) (h1 : t.dst.seg = u.dst.seg) (rate : Nat) :
    t.isValid rate = u.isValid rate ∧ t.intersectionSegments rate = u.intersectionSegments rate := by
  obtain ⟨⟨_, a⟩, ⟨_, b⟩⟩ := t
  obtain ⟨⟨_, c⟩, ⟨_, d⟩⟩ := u
  cases (h0 : a = c)
  cases (h1 : b = d)
  exact ⟨rfl, rfl⟩

/-- Steps one or more periods apart are of the same kind, cross the same borders and have the same end points. -/
theorem step_repeats {K : List Point} {T rate : Nat} (hK : Repeats T (K.map shape)) (hid : K.map Point.id = List.range K.length)
    {t : Trans} {i : Nat} (ht : t ∈ validSteps rate (K.map toPt)) (hi : i + 1 < K.length) (hmod : i % T = t.src.id % T) :
    ∃ u ∈ validSteps rate (K.map toPt), u.src.id = i ∧ u.intersectionSegments rate = t.intersectionSegments rate ∧
      ends (e := e) K u = ends K t := by
  have hids : ∀ j (hj : j < K.length), K[j].id = j := fun j hj => by
    have h1 : (K.map Point.id)[j]? = some j := by rw [hid, List.getElem?_range hj]
    rw [List.getElem?_map, List.getElem?_eq_getElem hj] at h1
    exact Option.some.inj h1
  obtain ⟨h1, h2⟩ := List.mem_filter.1 ht
  obtain ⟨j, h3, h4⟩ := mem_steps_iff.1 h1
  obtain ⟨x, hx, hxs⟩ : ∃ x, K[j]? = some x ∧ toPt x = t.src := by simpa using h3
  obtain ⟨y, hy, hyd⟩ : ∃ y, K[j + 1]? = some y ∧ toPt y = t.dst := by simpa using h4
  obtain ⟨hj, rfl⟩ := List.getElem?_eq_some_iff.1 hx
  obtain ⟨hj1, rfl⟩ := List.getElem?_eq_some_iff.1 hy
  have hsrc : t.src.id = j := by rw [← hxs]; exact hids j hj
  have hdst : t.dst.id = j + 1 := by rw [← hyd]; exact hids (j + 1) hj1
  rw [hsrc] at hmod
  have same : ∀ a b (ha : a < K.length) (hb : b < K.length), a % T = b % T → shape K[a] = shape K[b] := fun a b ha hb hab => by
    have h5 := repeats_mod hK a (by rw [List.length_map]; exact ha)
    have h6 := repeats_mod hK b (by rw [List.length_map]; exact hb)
    rw [hab, h6, List.getElem?_map, List.getElem?_map, List.getElem?_eq_getElem ha, List.getElem?_eq_getElem hb] at h5
    exact (Option.some.inj h5).symm
  have hmod1 : (i + 1) % T = (j + 1) % T := by rw [Nat.add_mod, hmod, ← Nat.add_mod]
  have s0 := same i j (by omega) hj hmod
  have s1 := same (i + 1) (j + 1) hi hj1 hmod1
  have g0 : (toPt K[i]).seg = t.src.seg := by rw [← hxs]; exact congrArg Prod.snd s0
  have g1 : (toPt K[i + 1]).seg = t.dst.seg := by rw [← hyd]; exact congrArg Prod.snd s1
  have c0 : coordsOf K i = coordsOf K j := by
    unfold coordsOf
    rw [Cluster.find_numbered hid (by omega), Cluster.find_numbered hid hj]
    exact congrArg Prod.fst s0
  have c1 : coordsOf K (i + 1) = coordsOf K (j + 1) := by
    unfold coordsOf
    rw [Cluster.find_numbered hid hi, Cluster.find_numbered hid hj1]
    exact congrArg Prod.fst s1
  refine ⟨⟨toPt K[i], toPt K[i + 1]⟩, List.mem_filter.2 ⟨mem_steps_iff.2 ⟨i, ?_, ?_⟩, ?_⟩, hids i (by omega), ?_, ?_⟩
  · rw [List.getElem?_map, List.getElem?_eq_getElem (by omega)]; rfl
  · rw [List.getElem?_map, List.getElem?_eq_getElem hi]; rfl
  · rw [← h2]
    exact (kind_congr g0 g1 rate).1
  · exact (kind_congr g0 g1 rate).2
  · unfold ends
    show (vec _ (coordsOf K K[i].id), vec _ (coordsOf K K[i + 1].id)) = _
    rw [hids i (by omega), hids (i + 1) hi, hsrc, hdst, c0, c1]

/-- C76 (series which repeat themselves): if the series repeats itself after `T` values at least twice, and some border is crossed by
exactly one of the steps of the first period, then the run crashes. -/
theorem C76_periodic {lib : Lib w} {p : Parameters} (hp : p.WellFormed) (hn : p.nClusterNodes = 1) {resolution order : Nat}
    (hres : 1 ≤ resolution) (hord : order ≤ resolution) (hq1 : 1 ≤ p.queryLength) (ht : 1 ≤ p.nThreads) (hL : 1 ≤ p.latent)
    {series : List (Fin (e + 1) → ℝ)} (hsl : p.nThreads + p.queryLength + p.patternLength ≤ series.length + 1) {T : Nat}
    (hs : Repeats T series) (hT : 2 * T + p.patternLength ≤ series.length) {q m : List Point} (hq : PointsOf lib p series q)
    (hm : q.mapM (mirrorPoint p.rate) = some m) {s : Nat} (hsr : s < p.rate)
    (hone : ((crossings p.rate (track p m q) s).filter (fun x => x.1.src.id < T)).length = 1) :
    score resolution order p e series.length q = none := by
  have hr : 0 < p.rate := by omega
  obtain ⟨hl, hpl, hnum⟩ := hq.numbered hr
  obtain ⟨hrep, hnew⟩ := hq.repeats hL hs
  have hK := corrected_repeats (p := p) hm hrep hnew
  obtain ⟨_, hml, hmn⟩ := Cluster.mirrorPt_map hr hnum hm
  have hid : (corrected p m q).map Point.id = List.range (corrected p m q).length := by
    unfold corrected; split
    · exact hmn.ids
    · exact hnum.ids
  have hKl : (corrected p m q).length = q.length := by
    unfold corrected; split
    · exact hml
    · rfl
  have htr : track p m q = validSteps p.rate ((corrected p m q).map toPt) := by
    unfold track
    rw [Cluster.effective_toPt hr hnum hm]
  obtain ⟨x0, hx0⟩ := List.length_eq_one_iff.1 hone
  have hmem0 : x0 ∈ (crossings p.rate (track p m q) s).filter (fun x => x.1.src.id < T) := by rw [hx0]; simp
  obtain ⟨hc0, hlt0⟩ := List.mem_filter.1 hmem0
  have hlt0 : x0.1.src.id < T := by simpa using hlt0
  have mem_iff : ∀ x, x ∈ crossings p.rate (track p m q) s ↔ x.2 = s ∧ x.1 ∈ track p m q ∧ s ∈ x.1.intersectionSegments p.rate := by
    rintro ⟨t, s'⟩
    unfold crossings
    simp only [List.mem_map, List.mem_filter, decide_eq_true_eq, Prod.mk.injEq]
    constructor
    · rintro ⟨t', ⟨a, b⟩, rfl, rfl⟩
      exact ⟨rfl, a, b⟩
    · rintro ⟨rfl, a, b⟩
      exact ⟨t, ⟨a, b⟩, rfl, rfl⟩
  obtain ⟨hs0, ht0, hb0⟩ := (mem_iff x0).1 hc0
  -- every crossing of the border lies where the crossing of the first period lies
  have hplace : ∀ x ∈ crossings p.rate (track p m q) s, place p e m q x = place p e m q x0 := by
    intro x hx
    obtain ⟨hxs, hxt, hxb⟩ := (mem_iff x).1 hx
    obtain ⟨u, hu, hui, hus, hue⟩ := step_repeats (e := e) (rate := p.rate) hK hid (t := x.1) (i := x.1.src.id % T) (by rw [← htr]; exact hxt)
      (by have := Nat.mod_lt x.1.src.id (show 0 < T by omega); omega) (Nat.mod_mod _ _)
    have : (u, s) ∈ (crossings p.rate (track p m q) s).filter (fun x => x.1.src.id < T) := by
      refine List.mem_filter.2 ⟨(mem_iff _).2 ⟨rfl, by rw [htr]; exact hu, by rw [hus]; exact hxb⟩, ?_⟩
      rw [decide_eq_true_eq]
      show u.src.id < T
      rw [hui]
      exact Nat.mod_lt _ (by omega)
    rw [hx0, List.mem_singleton] at this
    unfold place interCoord
    rw [← this, hxs]
    show Option.map _ (Geometry.intersectionPoint _ _ (ends _ x.1) s) = Option.map _ (Geometry.intersectionPoint _ _ (ends _ u) s)
    rw [hue]
  rw [C76_crash_iff hp hn hres hord hm hnum (by omega) hq1 ht (by omega)]
  refine .inr (.inl ⟨s, hsr, ?_, 0, by omega, fun x hx y hy => by rw [hplace x hx, hplace y hy]⟩)
  obtain ⟨u, hu, hui, hus, hue⟩ := step_repeats (e := e) (rate := p.rate) hK hid (t := x0.1) (i := x0.1.src.id + T) (by rw [← htr]; exact ht0)
    (by omega) (Nat.add_mod_right _ _)
  have hu1 : (u, s) ∈ crossings p.rate (track p m q) s := (mem_iff _).2 ⟨rfl, by rw [htr]; exact hu, by rw [hus]; exact hb0⟩
  by_contra hlen
  have hpos := List.length_pos_of_mem hc0
  obtain ⟨y, hy⟩ := List.length_eq_one_iff.1 (show (crossings p.rate (track p m q) s).length = 1 by omega)
  rw [hy, List.mem_singleton] at hu1 hc0
  have : x0.1.src.id = u.src.id := by rw [hc0, ← hu1]
  omega

/-- C76 (no result): if all points which a run may have are of that kind, then nothing is delivered. -/
theorem C76_nothing {lib : Lib w} {p : Parameters} (hp : p.WellFormed) (hn : p.nClusterNodes = 1) {resolution order : Nat}
    (hres : 1 ≤ resolution) (hord : order ≤ resolution) (hq1 : 1 ≤ p.queryLength) (ht : 1 ≤ p.nThreads) (hL : 1 ≤ p.latent)
    {series : List (Fin (e + 1) → ℝ)} (hsl : p.nThreads + p.queryLength + p.patternLength ≤ series.length + 1) {T : Nat}
    (hs : Repeats T series) (hT : 2 * T + p.patternLength ≤ series.length)
    (hone : ∀ q m, PointsOf lib p series q → q.mapM (mirrorPoint p.rate) = some m →
      ∃ s < p.rate, ((crossings p.rate (track p m q) s).filter (fun x => x.1.src.id < T)).length = 1) (v : Option (List (Option ℚ))) :
    ¬ Delivers lib resolution order p series v := by
  rintro ⟨q, s0, _, hq, hs0, _⟩
  have hr : 0 < p.rate := by have := hp.1; have := hp.2; omega
  obtain ⟨hl, hpl, hnum⟩ := hq.numbered hr
  obtain ⟨m, hm, _⟩ := mirrored_some hr hnum.coords
  obtain ⟨s, hsr, h1⟩ := hone q m hq hm
  rw [C76_periodic hp hn hres hord hq1 ht hL hsl hs hT hq hm hsr h1] at hs0
  cases hs0

end Whole
end S2G
