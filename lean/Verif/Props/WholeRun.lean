import Verif.Props.WholeScale
import Verif.Props.Distributed

/-!
# C71, C72: what the scores of a run on one node depend on
-/

namespace S2G

namespace Kde

theorem density_threads {t t' : Nat} (ht : 1 ≤ t) (ht' : 1 ≤ t') (resolution : Nat) (col : List ℝ) :
    density t resolution col = density t' resolution col := by
  by_cases h2 : 2 ≤ col.length
  · obtain ⟨h3, h4⟩ := density_spec (t := t) (resolution := resolution) ht h2
    obtain ⟨h5, h6⟩ := density_spec (t := t') (resolution := resolution) ht' h2
    cases hd : density t resolution col with
    | none => rw [h5.2 (h3.1 hd)]
    | some d =>
      cases hd' : density t' resolution col with
      | none => rw [h3.2 (h5.1 hd')] at hd; cases hd
      | some d' =>
        obtain ⟨mn, mx, prec, g1, g2, g3, rfl⟩ := h4 d hd
        obtain ⟨mn', mx', prec', g4, g5, g6, rfl⟩ := h6 d' hd'
        rw [Option.some.inj (g1.symm.trans g4), Option.some.inj (g2.symm.trans g5), Option.some.inj (g3.symm.trans g6)]
  · rw [density_short (by omega), density_short (by omega)]

theorem cluster_threads {t t' : Nat} (ht : 1 ≤ t) (ht' : 1 ≤ t') (resolution order dims : Nat) (data : List (List ℝ)) :
    cluster t resolution order dims data = cluster t' resolution order dims data := by
  unfold cluster
  simp only [density_threads ht ht']

theorem cluster_length {t resolution order dims : Nat} {data : List (List ℝ)} (hne : data ≠ []) {labels : List Nat}
    {table : List (List ℝ)} (h : cluster t resolution order dims data = some (labels, table)) : labels.length = data.length := by
  classical
  unfold cluster at h
  simp only [Option.bind_eq_bind, Option.bind_eq_some_iff] at h
  obtain ⟨cols, _, centers, _, rows, hr, h⟩ := h
  have hl := length_of_mapM hr
  rw [List.length_range] at hl
  obtain ⟨labels', table', h1, h2, _⟩ := C34_labels (centers := rows) (by
    intro he
    rw [he] at hl
    exact hne (List.length_eq_zero_iff.1 hl.symm))
  have : some (labels, table) = some (labels', table') := by
    rw [← h1, ← h]
  cases this
  omega

end Kde

namespace Whole

open Pca Rotation Points Pipeline NodeEst Edges

variable {e w : Nat}

theorem clustering_oneLabel (resolution order : Nat) (p : Parameters) (e : Nat) : OneLabelEach (clustering resolution order p e) := by
  intro xs labels h2 h
  unfold clustering at h
  obtain ⟨⟨l, tb⟩, h1, rfl⟩ := Option.map_eq_some_iff.1 h
  exact Kde.cluster_length (by rintro rfl; simp at h2) h1

/-! ### Points -/

/-- Points numbered from 0 on with coordinates for `e + 1` dimensions in segments of the circle. -/
structure Numbered (rate e : Nat) (pts : List Point) : Prop where
  ids : pts.map Point.id = List.range pts.length
  coords : ∀ x ∈ pts, x.coordinates.length = 2 * (e + 1)
  segs : ∀ x ∈ pts, x.segment < rate

theorem pointSegment_lt {x y : ℝ} {n s : Nat} (h : SegmentId.pointSegment x y n = some s) : s < n := by
  unfold SegmentId.pointSegment SegmentId.getSegmentId checkedMod at h
  simp only at h
  split at h
  · cases h
  · next hn =>
    rw [← Option.some.inj h]
    exact Nat.mod_lt _ (by omega)

theorem applyRotation_numbered {R : Fin (e + 1) → Matrix (Fin 3) (Fin 3) ℝ} {rows : List (Fin (e + 1) → Vec)} {n rate : Nat}
    (hr : 0 < rate) {pts : List Point} (h : applyRotation R rows n 1 0 rate = some pts) :
    pts.length = rows.length ∧ Numbered rate e pts := by
  obtain ⟨pts', h1, h2, h3⟩ := C67_points R rows (n := n) (k := 1) (i := 0) (rate := rate) (by omega) (by omega) hr
  rw [h] at h1
  cases h1
  refine ⟨h2, ?_, ?_, ?_⟩
  · apply List.ext_getElem
    · simp
    · intro i hi _
      rw [List.length_map] at hi
      obtain ⟨row, _, h4, _⟩ := h3 i pts[i] (List.getElem?_eq_getElem hi)
      rw [List.getElem_map, h4, List.getElem_range]
      omega
  · intro x hx
    obtain ⟨i, hi⟩ := List.mem_iff_getElem?.1 hx
    obtain ⟨row, _, _, h4, _⟩ := h3 i x hi
    exact h4
  · intro x hx
    obtain ⟨i, hi⟩ := List.mem_iff_getElem?.1 hx
    obtain ⟨row, _, _, _, _, x, y, _, _, h4⟩ := h3 i x hi
    exact pointSegment_lt h4

theorem PointsOf.numbered {lib : Lib w} {p : Parameters} (hr : 0 < p.rate) {series : List (Fin (e + 1) → ℝ)} {pts : List Point}
    (h : PointsOf lib p series pts) : pts.length = series.length - (p.patternLength - 1) ∧ 1 ≤ p.patternLength ∧ Numbered p.rate e pts := by
  obtain ⟨lo, hi, ps, ref, comps, means, first, R, hmm, hw, href, hps, hpca, hfirst, hR, hpts⟩ := h
  obtain ⟨hN, rfl⟩ := build_some hw hps
  obtain ⟨hle, hw'⟩ := checkedSub_some hw
  obtain ⟨h1, h2⟩ := applyRotation_numbered hr hpts
  exact ⟨by rw [h1]; simp, by omega, h2⟩

theorem mirrorPoint_some {rate : Nat} (hr : 0 < rate) {x : Point} (hx : x.coordinates.length = 2 * (e + 1)) :
    ∃ y, mirrorPoint rate x = some y ∧ y.id = x.id ∧ y.coordinates.length = 2 * (e + 1) ∧ y.segment < rate := by
  obtain ⟨id, cs, seg⟩ := x
  match cs, hx with
  | [], hx => simp at hx
  | [_], hx => simp at hx; omega
  | c :: c' :: cs, hx =>
    obtain ⟨s, hs⟩ := segment_some (c * -1) c' hr
    refine ⟨⟨id, c * -1 :: c' :: cs, s⟩, ?_, rfl, by simpa using hx, pointSegment_lt hs⟩
    unfold mirrorPoint newPoint
    simp only [List.getElem?_cons_zero, List.getElem?_cons_succ, Option.bind_eq_bind, Option.bind_some, hs]

/-- C72: mirroring a point works exactly if it has two coordinates and there is a segment. The mirror image keeps the id and all
coordinates but the first, which changes its sign; its segment is that of the image; and mirroring a point which was created from
its coordinates twice gives it back. -/
theorem C72_mirror {rate : Nat} (x : Point) :
    ((∃ y, mirrorPoint rate x = some y) ↔ 2 ≤ x.coordinates.length ∧ 0 < rate) ∧
    ∀ y, mirrorPoint rate x = some y → y.id = x.id ∧
      (∃ c d cs, x.coordinates = c :: d :: cs ∧ y.coordinates = -c :: d :: cs ∧ SegmentId.pointSegment (-c) d rate = some y.segment) ∧
      (newPoint x.id x.coordinates rate = some x → mirrorPoint rate y = some x) := by
  obtain ⟨id, cs, seg⟩ := x
  match cs with
  | [] => simp [mirrorPoint]
  | [c] => simp [mirrorPoint, newPoint]
  | c :: d :: cs =>
    refine ⟨⟨?_, ?_⟩, ?_⟩
    · rintro ⟨y, hy⟩
      refine ⟨by simp, Nat.pos_of_ne_zero fun h0 => ?_⟩
      simp [mirrorPoint, newPoint, SegmentId.pointSegment, SegmentId.getSegmentId, checkedMod, h0] at hy
    · rintro ⟨_, hr⟩
      obtain ⟨s, hs⟩ := segment_some (c * -1) d hr
      refine ⟨⟨id, c * -1 :: d :: cs, s⟩, ?_⟩
      unfold mirrorPoint newPoint
      simp only [List.getElem?_cons_zero, List.getElem?_cons_succ, Option.bind_eq_bind, Option.bind_some, hs]
    · intro y hy
      unfold mirrorPoint newPoint at hy
      simp only [List.getElem?_cons_zero, List.getElem?_cons_succ, Option.bind_eq_bind, Option.bind_some] at hy
      cases hs : SegmentId.pointSegment (c * -1) d rate with
      | none =>
        rw [hs] at hy
        cases hy
      | some s =>
        rw [hs] at hy
        simp only [Option.bind_some, Option.some.injEq] at hy
        subst hy
        refine ⟨rfl, ⟨c, d, cs, rfl, by simp, by simpa using hs⟩, fun hx => ?_⟩
        show newPoint id (c * -1 * -1 :: d :: cs) rate = _
        rw [mul_neg_one, mul_neg_one, neg_neg]
        exact hx

/-- A point with four coordinates and its mirror image. -/
example : ∃ s t, newPoint 7 [1, 2, 3, 4] 2 = some ⟨7, [1, 2, 3, 4], s⟩ ∧
    mirrorPoint 2 ⟨7, [1, 2, 3, 4], s⟩ = some ⟨7, [-1, 2, 3, 4], t⟩ ∧ mirrorPoint 2 ⟨7, [-1, 2, 3, 4], t⟩ = some ⟨7, [1, 2, 3, 4], s⟩ := by
  obtain ⟨s, hs⟩ := segment_some (1 : ℝ) 2 (rate := 2) (by omega)
  have hp : newPoint 7 [1, 2, 3, 4] 2 = some ⟨7, [1, 2, 3, 4], s⟩ := by simp [newPoint, hs]
  obtain ⟨hiff, hall⟩ := C72_mirror (rate := 2) ⟨7, [1, 2, 3, 4], s⟩
  obtain ⟨⟨i, cs, t⟩, hy⟩ := hiff.2 ⟨by simp, by omega⟩
  obtain ⟨h1, ⟨c, d, l, h2, h3, _⟩, h4⟩ := hall _ hy
  have h5 := h4 hp
  simp only at h1 h3
  injection h2 with h2 h6
  injection h6 with h6 h7
  subst h1 h2 h6 h7 h3
  exact ⟨s, t, hp, hy, h5⟩

theorem mirrored_some {rate : Nat} (hr : 0 < rate) {pts : List Point} (h : ∀ x ∈ pts, x.coordinates.length = 2 * (e + 1)) :
    ∃ m, pts.mapM (mirrorPoint rate) = some m ∧ m.map Point.id = pts.map Point.id ∧
      (∀ x ∈ m, x.coordinates.length = 2 * (e + 1)) ∧ ∀ x ∈ m, x.segment < rate := by
  induction pts with
  | nil => exact ⟨[], rfl, rfl, by simp, by simp⟩
  | cons x pts ih =>
    obtain ⟨y, h1, h2, h3, h4⟩ := mirrorPoint_some hr (h x (by simp))
    obtain ⟨m, h5, h6, h7, h8⟩ := ih (fun z hz => h z (by simp [hz]))
    refine ⟨y :: m, ?_, by rw [List.map_cons, List.map_cons, h2, h6], ?_, ?_⟩
    · rw [List.mapM_cons, h1, h5]
      rfl
    · intro z hz
      rcases List.mem_cons.1 hz with rfl | hz
      · exact h3
      · exact h7 z hz
    · intro z hz
      rcases List.mem_cons.1 hz with rfl | hz
      · exact h4
      · exact h8 z hz

theorem mirrorPt_spec {rate : Nat} {m : List Point} (hseg : ∀ x ∈ m, x.segment < rate) (a : Pt) :
    (mirrorPt m a).id = a.id ∧ (a.seg < rate → (mirrorPt m a).seg < rate) := by
  unfold mirrorPt
  cases h : m.find? (fun x => x.id = a.id) with
  | none => exact ⟨rfl, fun h => h⟩
  | some x =>
    have h1 := List.find?_some h
    have h2 := List.mem_of_find?_eq_some h
    refine ⟨?_, fun _ => hseg x h2⟩
    simpa [toPt] using h1

/-! ### From the points to the scores -/

/-- The valid steps of the points after self correction. -/
noncomputable def track (p : Parameters) (mirrored pts : List Point) : List Trans :=
  validSteps p.rate (effective p (mirrorPt mirrored) (pts.map toPt))

/-- The points after self correction. -/
noncomputable def corrected (p : Parameters) (mirrored pts : List Point) : List Point :=
  if p.selfCorrection = true ∧ (validSteps p.rate (pts.map toPt)).length < (SelfCorrection.invalidSteps p.rate (pts.map toPt)).length
  then mirrored else pts

theorem effectivePoints_eq {p : Parameters} (hp : p.WellFormed) (hn : p.nClusterNodes = 1) (mirrored pts : List Point) :
    effectivePoints p mirrored pts = some (corrected p mirrored pts) := by
  obtain ⟨s, h1, _⟩ := SegState.buildSegments_built hp 0 {} (pts.map toPt)
  unfold effectivePoints corrected
  rw [h1]
  simp only [Option.bind_eq_bind, Option.bind_some]
  have hcond : (p.selfCorrection && SelfCorrection.mirrors (SelfCorrection.localCount s)) = true ↔
      (p.selfCorrection = true ∧ (validSteps p.rate (pts.map toPt)).length <
        (SelfCorrection.invalidSteps p.rate (pts.map toPt)).length) := by
    rw [Bool.and_eq_true]
    exact and_congr_right (fun hsc => SelfCorrection.C29_local_decision hp hn hsc h1)
  by_cases h : p.selfCorrection = true ∧ (validSteps p.rate (pts.map toPt)).length <
      (SelfCorrection.invalidSteps p.rate (pts.map toPt)).length
  · rw [if_pos h, if_pos (hcond.2 h)]
  · rw [if_neg h, if_neg (fun hh => h (hcond.1 hh))]

/-- The coordinates of a crossing. -/
noncomputable def place (p : Parameters) (e : Nat) (mirrored pts : List Point) (x : Inter) : Option (List ℝ) :=
  interCoord e (corrected p mirrored pts) (track p mirrored pts) p.rate x

theorem score_eq {p : Parameters} (hp : p.WellFormed) (hn : p.nClusterNodes = 1) (resolution order e len : Nat) {mirrored pts : List Point}
    (hm : pts.mapM (mirrorPoint p.rate) = some mirrored) :
    score resolution order p e len pts = scoreWith resolution order p e len (mirrorPt mirrored) (pts.map toPt)
      (corrected p mirrored pts) (track p mirrored pts) := by
  obtain ⟨s, h1, h2⟩ := segment_spec hp hn (mirrorPt mirrored) (pts.map toPt)
  unfold score
  simp only [hm, Option.bind_eq_bind, Option.bind_some, effectivePoints_eq hp hn, h1, h2]
  rfl

theorem toPt_ids (pts : List Point) : (pts.map toPt).map Pt.id = pts.map Point.id := by
  rw [List.map_map]
  rfl

/-- C72 (from the points to the scores): the run crashes exactly if a crossing has no coordinates, if the clustering of a segment
crashes (C38), or in the case of C40. Otherwise every schedule delivers at most one vector, and exactly one when it has ended: the
normalised scores of the walk through the clusters. -/
theorem C72_scores {p : Parameters} (hp : p.WellFormed) (hn : p.nClusterNodes = 1) (resolution order : Nat) {e len : Nat}
    {mirrored pts : List Point} (hm : pts.mapM (mirrorPoint p.rate) = some mirrored) (hnum : Numbered p.rate e pts)
    (hlen : pts.length ≤ len) (hq : 1 ≤ p.queryLength) (ht : 1 ≤ p.nThreads) (hsl : p.nThreads + p.queryLength ≤ pts.length) :
    (score resolution order p e len pts = none ↔
      (∃ t ∈ track p mirrored pts, ∃ s ∈ t.intersectionSegments p.rate, place p e mirrored pts (t, s) = none) ∨
      (∃ s < p.rate, 2 ≤ (crossings p.rate (track p mirrored pts) s).length ∧
        clustering resolution order p e ((crossings p.rate (track p mirrored pts) s).reverse.map
          (fun x => (place p e mirrored pts x).getD [])) = none) ∨
      ∃ t ∈ (track p mirrored pts).head?, t.src.seg + 2 = p.rate ∧ t.dst.seg < t.src.seg) ∧
    ∀ s0, score resolution order p e len pts = some s0 →
      ∃ lab, Labelled (clustering resolution order p e) (fun x => (place p e mirrored pts x).getD []) p.rate (track p mirrored pts) lab ∧
      ∀ s, ParScore.Reachable s0 s →
      (delivered s = [] ∨ delivered s = [Scoring.normalize (vector (pairs (walk p.rate lab (track p mirrored pts)))
        p.queryLength (pts.length - p.queryLength))]) ∧
      (s.pool = [] → delivered s = [Scoring.normalize (vector (pairs (walk p.rate lab (track p mirrored pts)))
        p.queryLength (pts.length - p.queryLength))]) ∧
      (∀ pre m post, s.pool = pre ++ m :: post → ∃ u, ParScore.handle { s with pool := pre ++ post } m = some u ∧
        u.pool.length + (p.nThreads - u.proto.nReceived) < s.pool.length + (p.nThreads - s.proto.nReceived)) := by
  have hr : 0 < p.rate := by have := hp.1; have := hp.2; omega
  obtain ⟨m', hm', hmid, hmc, hms⟩ := mirrored_some hr hnum.coords
  rw [hm] at hm'
  cases hm'
  rw [score_eq hp hn resolution order e len hm]
  have hlenp : (pts.map toPt).length = pts.length := List.length_map _
  have hid : (pts.map toPt).map Pt.id = List.range (pts.map toPt).length := by rw [toPt_ids, hnum.ids, hlenp]
  have hseg : ∀ x ∈ pts.map toPt, x.seg < p.rate := by
    intro x hx
    obtain ⟨y, hy, rfl⟩ := List.mem_map.1 hx
    exact hnum.segs y hy
  have hmir := fun a => mirrorPt_spec hms a
  have hrun := C64_run (clustering_oneLabel resolution order p e) (fun x => (place p e mirrored pts x).getD []) hp hn hmir hid hseg
    (len := len) (by omega) hq ht (by omega)
  have heid : (effective p (mirrorPt mirrored) (pts.map toPt)).Pairwise (fun a b => a.id < b.id) ∧
      (∀ x ∈ effective p (mirrorPt mirrored) (pts.map toPt), x.seg < p.rate) ∧
      ∀ x ∈ effective p (mirrorPt mirrored) (pts.map toPt), x.id < len := by
    have key : ∀ l : List Pt, l.map Pt.id = List.range l.length → l.length = pts.length →
        l.Pairwise (fun a b => a.id < b.id) ∧ ∀ x ∈ l, x.id < len := by
      intro l h1 h2
      obtain ⟨a, b⟩ := Pipeline.numbered h1
      exact ⟨a, fun x hx => by have := b x hx; omega⟩
    unfold effective
    split
    · obtain ⟨a, b⟩ := key ((pts.map toPt).map (mirrorPt mirrored)) (by
        rw [List.length_map, ← hid, List.map_map]
        apply List.map_congr_left
        intro x _
        exact (hmir x).1) (by simp)
      refine ⟨a, ?_, b⟩
      intro x hx
      obtain ⟨y, hy, rfl⟩ := List.mem_map.1 hx
      exact (hmir y).2 (hseg y hy)
    · obtain ⟨a, b⟩ := key _ hid hlenp
      exact ⟨a, hseg, b⟩
  have hgraph := C64_graph (clustering_oneLabel resolution order p e) (fun x => (place p e mirrored pts x).getD []) (mirrorPt mirrored) hp hn
    (len := len) (pts := pts.map toPt) heid.2.1 heid.1 heid.2.2
  have htasks : ((intersectionTasks p.rate (track p mirrored pts)).all
      (fun x => (interCoord e (corrected p mirrored pts) (track p mirrored pts) p.rate x).isSome) = true) ↔
      ¬ ∃ t ∈ track p mirrored pts, ∃ s ∈ t.intersectionSegments p.rate, place p e mirrored pts (t, s) = none := by
    rw [List.all_eq_true]
    constructor
    · rintro h ⟨t, ht, s, hs, h0⟩
      have := h (t, s) (by
        unfold intersectionTasks
        exact List.mem_reverse.2 (List.mem_flatMap.2 ⟨t, ht, List.mem_map.2 ⟨s, hs, rfl⟩⟩))
      unfold place at h0
      rw [h0] at this
      cases this
    · intro h x hx
      unfold intersectionTasks at hx
      obtain ⟨t, ht, hx⟩ := List.mem_flatMap.1 (List.mem_reverse.1 hx)
      obtain ⟨s, hs, rfl⟩ := List.mem_map.1 hx
      by_contra hc
      exact h ⟨t, ht, s, hs, Option.not_isSome_iff_eq_none.1 hc⟩
  unfold scoreWith
  by_cases hcase : ∃ t ∈ track p mirrored pts, ∃ s ∈ t.intersectionSegments p.rate, place p e mirrored pts (t, s) = none
  · rw [if_neg (fun hh => htasks.1 hh hcase)]
    exact ⟨⟨fun _ => .inl hcase, fun _ => rfl⟩, fun s0 h0 => by cases h0⟩
  · rw [if_pos (htasks.2 hcase)]
    by_cases hbad : (∃ s < p.rate, 2 ≤ (crossings p.rate (track p mirrored pts) s).length ∧
        clustering resolution order p e ((crossings p.rate (track p mirrored pts) s).reverse.map
          (fun x => (place p e mirrored pts x).getD [])) = none) ∨
      ∃ t ∈ (track p mirrored pts).head?, t.src.seg + 2 = p.rate ∧ t.dst.seg < t.src.seg
    · have h0 := hgraph.1.2 hbad
      have h1 : localRun (clustering resolution order p e) (fun x => (place p e mirrored pts x).getD []) (mirrorPt mirrored) p len
          (pts.map toPt) = none := by
        unfold localRun
        rw [h0]
        rfl
      exact ⟨⟨fun _ => .inr hbad, fun _ => h1⟩, fun s0 hs0 => by have := h1.symm.trans hs0; cases this⟩
    · obtain ⟨lab, hlab, s0, h1, h2⟩ := hrun (fun s hs h2 h3 => hbad (.inl ⟨s, hs, h2, h3⟩)) (fun t ht h => hbad (.inr ⟨t, ht, h⟩))
      refine ⟨⟨fun h => ?_, fun h => ?_⟩, fun s0' hs0' => ⟨lab, hlab, ?_⟩⟩
      · have := h1.symm.trans h
        cases this
      · rcases h with h | h
        · exact absurd h hcase
        · exact absurd h hbad
      · cases h1.symm.trans hs0'
        rw [hlenp] at h2
        exact h2

/-! ### Number of threads and schedule -/

theorem sameGroups_of_labelled {X : Type} {clu : List X → Option (List Nat)} {coord : Inter → X} {rate : Nat} {ts : List Trans}
    (hv : ∀ t ∈ ts, ValidStep rate t) {lab lab' : Nat → Nat → Nat} (h : Labelled clu coord rate ts lab)
    (h' : Labelled clu coord rate ts lab') : SameGroups rate ts lab lab' := by
  have hcross : ∀ a s, (a, s) ∈ keysOf rate ts → s < rate ∧ ∃ x ∈ crossings rate ts s, x.1.src.id = a := by
    intro a s hk
    obtain ⟨t, ht, hk⟩ := List.mem_flatMap.1 hk
    obtain ⟨s', hs', he⟩ := List.mem_map.1 hk
    obtain ⟨rfl, rfl⟩ := Prod.mk.inj he
    refine ⟨?_, (t, s'), List.mem_map.2 ⟨t, List.mem_filter.2 ⟨ht, by simpa using hs'⟩, rfl⟩, rfl⟩
    obtain ⟨hf, hd, hval⟩ := hv t ht
    obtain ⟨k, _, he, _⟩ := Trans.C30_segments t hf hd hval
    rw [he] at hs'
    obtain ⟨j, _, rfl⟩ := List.mem_map.1 hs'
    exact Nat.mod_lt _ (by omega)
  intro s a b ha hb
  obtain ⟨hs, x, hx, rfl⟩ := hcross a s ha
  obtain ⟨_, y, hy, rfl⟩ := hcross b s hb
  by_cases h2 : 2 ≤ (crossings rate ts s).length
  · have h3 := Option.some.inj ((h s hs h2).symm.trans (h' s hs h2))
    rw [List.map_inj_left] at h3
    rw [h3 x (List.mem_reverse.2 hx), h3 y (List.mem_reverse.2 hy)]
  · match hc : crossings rate ts s with
    | [] => rw [hc] at hx; cases hx
    | [z] =>
      rw [hc] at hx hy
      rw [List.mem_singleton.1 hx, List.mem_singleton.1 hy]
      simp
    | _ :: _ :: _ => rw [hc] at h2; simp at h2

/-- With a library as in `Settled`, the points do not depend on the number of threads nor on the schedule. -/
theorem PointsOf.threads {lib : Lib w} (hqr : ∀ A, gram (lib.qr A) = gram A) {p : Parameters} (hr : 0 < p.rate) {series : List (Fin (e + 1) → ℝ)}
    (hs : ∀ m, Settled lib (windows w p series m)) {t : Nat} {pts : List Point} (h : PointsOf lib p series pts)
    (hc : Chunked t pts.length) : PointsOf lib { p with nThreads := t } series pts := by
  have hl := (h.numbered hr).1
  obtain ⟨lo, hi, ps, ref, comps, means, first, R, hmm, hw, href, hps, hpca, hfirst, hR, hpts⟩ := h
  obtain ⟨hN, rfl⟩ := build_some hw hps
  refine ⟨lo, hi, _, ref, comps, means, first, R, hmm, hw, href, hps, fun m => ?_, hfirst, hR, hpts⟩
  have := (pcaOf_iff hqr (hs m)).1 (hpca m)
  refine (pcaOf_iff hqr (hs m)).2 ⟨this.1, ?_, this.2.2⟩
  have hl' : (windows w p series m).length = pts.length := by
    rw [hl]
    simp [windows, column]
  rw [hl']
  exact hc

theorem PointsOf.unique {lib : Lib w} (hqr : ∀ A, gram (lib.qr A) = gram A) {p : Parameters} {series : List (Fin (e + 1) → ℝ)}
    (hs : ∀ m, Settled lib (windows w p series m)) {t : Nat} {pts pts' : List Point} (h : PointsOf lib p series pts)
    (h' : PointsOf lib { p with nThreads := t } series pts') : pts = pts' := by
  obtain ⟨lo, hi, ps, ref, comps, means, first, R, hmm, hw, href, hps, hpca, hfirst, hR, hpts⟩ := h
  obtain ⟨hN, rfl⟩ := build_some hw hps
  obtain ⟨lo', hi', ps', ref', comps', means', first', R', hmm', hw', href', hps', hpca', hfirst', hR', hpts'⟩ := h'
  cases Option.some.inj (hps.symm.trans hps')
  have hlo : lo' = lo := funext fun m => Option.some.inj ((hmm' m).1.symm.trans (hmm m).1)
  have hhi : hi' = hi := funext fun m => Option.some.inj ((hmm' m).2.symm.trans (hmm m).2)
  subst hlo hhi
  cases Option.some.inj (href.symm.trans href')
  cases Option.some.inj (hfirst.symm.trans hfirst')
  have hme : means' = means := funext fun m => by
    rw [((pcaOf_iff hqr (hs m)).1 (hpca m)).2.2.1]
    exact ((pcaOf_iff hqr (hs m)).1 (hpca' m)).2.2.1
  have hco : comps' = comps := funext fun m =>
    Option.some.inj (((pcaOf_iff hqr (hs m)).1 (hpca' m)).2.2.2.symm.trans ((pcaOf_iff hqr (hs m)).1 (hpca m)).2.2.2)
  subst hme hco
  have hRR : R' = R := funext fun m => Option.some.inj ((hR' m).symm.trans (hR m))
  subst hRR
  exact Option.some.inj (hpts.symm.trans hpts')

/-- Every run comes to an end, and then there is a vector. -/
theorem exists_delivered {s0 : ParScore} {k : Nat} {v : Option (List (Option ℚ))}
    (h : ∀ s, ParScore.Reachable s0 s → (s.pool = [] → delivered s = [v]) ∧
      ∀ pre m post, s.pool = pre ++ m :: post → ∃ u, ParScore.handle { s with pool := pre ++ post } m = some u ∧
        u.pool.length + (k - u.proto.nReceived) < s.pool.length + (k - s.proto.nReceived)) :
    ∃ s, ParScore.Reachable s0 s ∧ delivered s = [v] := by
  have key : ∀ n s, s.pool.length + (k - s.proto.nReceived) ≤ n → ParScore.Reachable s0 s →
      ∃ s', ParScore.Reachable s0 s' ∧ delivered s' = [v] := by
    intro n
    induction n with
    | zero =>
      intro s hm hr
      exact ⟨s, hr, (h s hr).1 (List.length_eq_zero_iff.1 (by omega))⟩
    | succ n ih =>
      intro s hm hr
      cases hp : s.pool with
      | nil => exact ⟨s, hr, (h s hr).1 hp⟩
      | cons m post =>
        obtain ⟨u, h1, h2⟩ := (h s hr).2 [] m post hp
        exact ih u (by omega) (hr.step (ParScore.Step.handle s [] post m hp h1))
  exact key _ s0 le_rfl .init

theorem track_valid {p : Parameters} {mirrored pts : List Point} (hseg : ∀ x ∈ pts, x.segment < p.rate)
    (hms : ∀ x ∈ mirrored, x.segment < p.rate) : ∀ t ∈ track p mirrored pts, ValidStep p.rate t := by
  have hseg' : ∀ x ∈ pts.map toPt, x.seg < p.rate := by
    intro x hx
    obtain ⟨y, hy, rfl⟩ := List.mem_map.1 hx
    exact hseg y hy
  refine validSteps_valid ?_
  unfold effective
  split
  · intro x hx
    obtain ⟨y, hy, rfl⟩ := List.mem_map.1 hx
    exact (mirrorPt_spec hms y).2 (hseg' y hy)
  · exact hseg'

/-- The vector of a run on one node with these points: the normalised scores of the walk through the clusters of the crossings. -/
def Result (resolution order : Nat) (p : Parameters) (e : Nat) (pts : List Point) (v : Option (List (Option ℚ))) : Prop :=
  ∃ mirrored lab, pts.mapM (mirrorPoint p.rate) = some mirrored ∧
    Labelled (clustering resolution order p e) (fun x => (place p e mirrored pts x).getD []) p.rate (track p mirrored pts) lab ∧
    v = Scoring.normalize (vector (pairs (walk p.rate lab (track p mirrored pts))) p.queryLength (pts.length - p.queryLength))

theorem clustering_threads (resolution order : Nat) (p : Parameters) (e : Nat) (ht : 1 ≤ p.nThreads) {t : Nat} (ht' : 1 ≤ t) :
    clustering resolution order { p with nThreads := t } e = clustering resolution order p e := by
  funext data
  unfold clustering
  rw [Kde.cluster_threads ht' ht]

theorem Result.unique {resolution order e : Nat} {p : Parameters} (ht : 1 ≤ p.nThreads) {t : Nat} (ht' : 1 ≤ t) {pts : List Point}
    (hnum : Numbered p.rate e pts) (hr : 0 < p.rate) {v v' : Option (List (Option ℚ))} (h : Result resolution order p e pts v)
    (h' : Result resolution order { p with nThreads := t } e pts v') : v' = v := by
  obtain ⟨m, lab, hm, h1, rfl⟩ := h
  obtain ⟨m', lab', hm', h1', rfl⟩ := h'
  cases Option.some.inj (hm.symm.trans hm')
  rw [clustering_threads resolution order p e ht ht'] at h1'
  obtain ⟨m', hm', _, _, hms⟩ := mirrored_some hr hnum.coords
  cases Option.some.inj (hm.symm.trans hm')
  exact congrArg Scoring.normalize
    (vector_sameGroups (sameGroups_of_labelled (track_valid hnum.segs hms) h1 h1') p.queryLength (pts.length - p.queryLength))

/-- What a run delivers: exactly the results of points with which it does not crash. -/
theorem C72_result {lib : Lib w} (resolution order : Nat) {p : Parameters} (hp : p.WellFormed) (hn : p.nClusterNodes = 1)
    {series : List (Fin (e + 1) → ℝ)} (hq : 1 ≤ p.queryLength) (ht : 1 ≤ p.nThreads)
    (hsl : p.nThreads + p.queryLength + p.patternLength ≤ series.length + 1) (v : Option (List (Option ℚ))) :
    Delivers lib resolution order p series v ↔ ∃ pts, PointsOf lib p series pts ∧
      score resolution order p e series.length pts ≠ none ∧ Result resolution order p e pts v := by
  have hr : 0 < p.rate := by have := hp.1; have := hp.2; omega
  constructor
  · rintro ⟨pts, s0, s, h1, h2, h3, h4⟩
    obtain ⟨hl, hpl, hnum⟩ := h1.numbered hr
    obtain ⟨m, hm, _⟩ := mirrored_some hr hnum.coords
    obtain ⟨lab, hlab, h⟩ := (C72_scores hp hn resolution order hm hnum (by omega) hq ht (by omega)).2 s0 h2
    refine ⟨pts, h1, by rw [h2]; simp, m, lab, hm, hlab, ?_⟩
    rcases (h s h3).1 with h | h <;> rw [h] at h4
    · cases h4
    · exact List.mem_singleton.1 h4
  · rintro ⟨pts, h1, h2, h3⟩
    obtain ⟨hl, hpl, hnum⟩ := h1.numbered hr
    obtain ⟨m, hm, _⟩ := mirrored_some hr hnum.coords
    obtain ⟨s0, hs0⟩ := Option.ne_none_iff_exists'.1 h2
    obtain ⟨lab, hlab, h⟩ := (C72_scores hp hn resolution order hm hnum (by omega) hq ht (by omega)).2 s0 hs0
    obtain ⟨s, hs, hd⟩ := exists_delivered (fun s hs => (h s hs).2)
    refine ⟨pts, s0, s, h1, hs0, hs, ?_⟩
    rw [hd, List.mem_singleton]
    exact Result.unique (t := p.nThreads) ht ht hnum hr ⟨m, lab, hm, hlab, rfl⟩ h3

theorem score_threads {resolution order e len : Nat} {p : Parameters} (hp : p.WellFormed) (hn : p.nClusterNodes = 1)
    (ht : 1 ≤ p.nThreads) {t : Nat} (ht' : 1 ≤ t) {pts : List Point} (hnum : Numbered p.rate e pts) (hlen : pts.length ≤ len)
    (hq : 1 ≤ p.queryLength) (hsl : p.nThreads + p.queryLength ≤ pts.length) (hsl' : t + p.queryLength ≤ pts.length) :
    score resolution order { p with nThreads := t } e len pts = none ↔ score resolution order p e len pts = none := by
  have hr : 0 < p.rate := by have := hp.1; have := hp.2; omega
  obtain ⟨m, hm, _⟩ := mirrored_some hr hnum.coords
  have h1 := (C72_scores hp hn resolution order hm hnum hlen hq ht hsl).1
  have h2 := (C72_scores (p := { p with nThreads := t }) hp hn resolution order hm hnum hlen hq ht' hsl').1
  rw [clustering_threads resolution order p e ht ht'] at h2
  exact h2.trans h1.symm

/-- C72: neither the number of threads nor the order of messages has an influence on the scores: what is delivered with `t` threads
is what is delivered with any other number (or in another schedule), and it is delivered provided there are rows for each thread. -/
theorem C72_threads {lib : Lib w} (hqr : ∀ A, gram (lib.qr A) = gram A) (resolution order : Nat) {p : Parameters}
    (hp : p.WellFormed) (hn : p.nClusterNodes = 1) {series : List (Fin (e + 1) → ℝ)}
    (hs : ∀ m, Settled lib (windows w p series m)) (hq : 1 ≤ p.queryLength) (ht : 1 ≤ p.nThreads)
    (hsl : p.nThreads + p.queryLength + p.patternLength ≤ series.length + 1) {t : Nat} (ht' : 1 ≤ t)
    (hsl' : t + p.queryLength + p.patternLength ≤ series.length + 1) {v : Option (List (Option ℚ))}
    (h : Delivers lib resolution order p series v) :
    (∀ v', Delivers lib resolution order { p with nThreads := t } series v' → v' = v) ∧
    (Chunked t (series.length + 1 - p.patternLength) → Delivers lib resolution order { p with nThreads := t } series v) := by
  have hr : 0 < p.rate := by have := hp.1; have := hp.2; omega
  obtain ⟨pts, h1, h2, h3⟩ := (C72_result resolution order hp hn hq ht hsl v).1 h
  obtain ⟨hl, hpl, hnum⟩ := h1.numbered hr
  refine ⟨fun v' h' => ?_, fun hc => ?_⟩
  · obtain ⟨pts', h4, h5, h6⟩ := (C72_result (p := { p with nThreads := t }) resolution order hp hn hq ht' hsl' v').1 h'
    cases h1.unique hqr hs h4
    exact Result.unique ht ht' hnum hr h3 h6
  · refine (C72_result (p := { p with nThreads := t }) resolution order hp hn hq ht' hsl' v).2
      ⟨pts, h1.threads hqr hr hs (by rw [hl]; convert hc using 1; omega), ?_, ?_⟩
    · intro h4
      exact h2 ((score_threads hp hn ht ht' hnum (by omega) hq (by omega) (by omega)).1 h4)
    · obtain ⟨m, lab, hm, hlab, rfl⟩ := h3
      exact ⟨m, lab, hm, by rw [clustering_threads resolution order p e ht ht']; exact hlab, rfl⟩

/-- C72: the delivered vector has an entry for each window of `patternLength + queryLength` rows; the entries are numbers from 0 to 1,
or all are NaN. -/
theorem C72_length {lib : Lib w} (resolution order : Nat) {p : Parameters} (hp : p.WellFormed) (hn : p.nClusterNodes = 1)
    {series : List (Fin (e + 1) → ℝ)} (hq : 1 ≤ p.queryLength) (ht : 1 ≤ p.nThreads)
    (hsl : p.nThreads + p.queryLength + p.patternLength ≤ series.length + 1) {v : Option (List (Option ℚ))}
    (h : Delivers lib resolution order p series v) :
    ∃ l, v = some l ∧ l.length = series.length + 1 - p.patternLength - p.queryLength ∧
      ((∀ x ∈ l, x = none) ∨ ∀ x ∈ l, ∃ y, x = some y ∧ 0 ≤ y ∧ y ≤ 1) := by
  have hr : 0 < p.rate := by have := hp.1; have := hp.2; omega
  obtain ⟨pts, h1, h2, m, lab, hm, hlab, rfl⟩ := (C72_result resolution order hp hn hq ht hsl v).1 h
  obtain ⟨hl, hpl, hnum⟩ := h1.numbered hr
  have hlen := vector_length (pairs (walk p.rate lab (track p m pts))) p.queryLength (pts.length - p.queryLength)
  generalize vector (pairs (walk p.rate lab (track p m pts))) p.queryLength (pts.length - p.queryLength) = l at hlen
  have hne : l ≠ [] := by rintro rfl; simp at hlen; omega
  unfold Scoring.normalize
  cases hmax : l.max? with
  | none => simp at hmax; exact absurd hmax hne
  | some hi =>
    cases hmin : l.min? with
    | none => simp at hmin; exact absurd hmin hne
    | some lo =>
      obtain ⟨_, hhi⟩ := List.max?_eq_some_iff.1 hmax
      obtain ⟨_, hlo⟩ := List.min?_eq_some_iff.1 hmin
      refine ⟨_, rfl, by rw [List.length_map]; omega, ?_⟩
      by_cases h0 : hi - lo = 0
      · left
        intro x hx
        obtain ⟨y, _, rfl⟩ := List.mem_map.1 hx
        rw [if_pos h0]
      · right
        intro x hx
        obtain ⟨y, hy, rfl⟩ := List.mem_map.1 hx
        have h3 := hhi y hy
        have h4 := hlo y hy
        have h5 : 0 < hi - lo := lt_of_le_of_ne (by linarith) (Ne.symm h0)
        rw [if_neg h0]
        exact ⟨_, rfl, div_nonneg (by linarith) h5.le, (div_le_one h5).2 (by linarith)⟩

/-! ### The last row -/

theorem foldl_min_le_init : ∀ (l : List ℝ) (x : ℝ), l.foldl min x ≤ x
  | [], _ => le_rfl
  | y :: l, x => (foldl_min_le_init l (min x y)).trans (min_le_left _ _)

theorem foldl_min_le : ∀ (l : List ℝ) (x : ℝ) {y : ℝ}, y ∈ l → l.foldl min x ≤ y
  | [], _, _, h => by cases h
  | z :: l, x, y, h => by
    rcases List.mem_cons.1 h with rfl | h
    · exact (foldl_min_le_init l (min x y)).trans (min_le_right _ _)
    · exact foldl_min_le l _ h

theorem columnMax_some {series : List (Fin (e + 1) → ℝ)} (hne : series ≠ []) (m : Fin (e + 1)) : ∃ b, columnMax series m = some b := by
  obtain ⟨x, xs, rfl⟩ := List.exists_cons_of_ne_nil hne
  exact ⟨_, rfl⟩

theorem PointsOf.last_row {lib : Lib w} {p : Parameters} {data : List (Fin (e + 1) → ℝ)} {x y : Fin (e + 1) → ℝ}
    (hmin : ∀ m, columnMin (data ++ [x]) m = columnMin (data ++ [y]) m) {pts : List Point}
    (h : PointsOf lib p (data ++ [x]) pts) : PointsOf lib p (data ++ [y]) pts := by
  obtain ⟨lo, hi, ps, ref, comps, means, first, R, hmm, hw, href, hps, hpca, hfirst, hR, hpts⟩ := h
  obtain ⟨hN, _⟩ := build_some hw hps
  obtain ⟨hle, hw'⟩ := checkedSub_some hw
  choose hi' hhi' using fun m => columnMax_some (series := data ++ [y]) (by simp) m
  obtain ⟨ref0, hr1, hr2⟩ := reference_some hw lo hi
  obtain ⟨ref', hr3, hr4⟩ := reference_some hw lo hi'
  cases Option.some.inj (hr1.symm.trans href)
  cases Option.some.inj (hr2.symm.trans hfirst)
  refine ⟨lo, hi', ps, ref', comps, means, _, R, fun m => ⟨(hmin m).symm.trans (hmm m).1, hhi' m⟩, hw, hr3, ?_, hpca, hr4, hR, ?_⟩
  · rw [← PhaseSpace.C58_last_row_ignored p data x y (by omega) (by simpa using hN)]
    exact hps
  · simpa using hpts

/-- C71: the last row of the series has no influence on the scores, except through the minima of the columns. The maxima have none
at all. -/
theorem C71_last_row (lib : Lib w) (resolution order : Nat) (p : Parameters) (data : List (Fin (e + 1) → ℝ)) (x y : Fin (e + 1) → ℝ)
    (hmin : ∀ m, columnMin (data ++ [x]) m = columnMin (data ++ [y]) m) (v : Option (List (Option ℚ))) :
    Delivers lib resolution order p (data ++ [x]) v ↔ Delivers lib resolution order p (data ++ [y]) v := by
  constructor
  · rintro ⟨pts, s0, s, h1, h2, h3⟩
    exact ⟨pts, s0, s, h1.last_row hmin, by simpa using h2, h3⟩
  · rintro ⟨pts, s0, s, h1, h2, h3⟩
    exact ⟨pts, s0, s, h1.last_row (fun m => (hmin m).symm), by simpa using h2, h3⟩

/-- If the last row contains no minimum, any other such row gives the same scores. -/
theorem C71_no_minimum (lib : Lib w) (resolution order : Nat) (p : Parameters) {data : List (Fin (e + 1) → ℝ)} {x y : Fin (e + 1) → ℝ}
    (hx : ∀ m, ∃ r ∈ data, r m ≤ x m) (hy : ∀ m, ∃ r ∈ data, r m ≤ y m) (v : Option (List (Option ℚ))) :
    Delivers lib resolution order p (data ++ [x]) v ↔ Delivers lib resolution order p (data ++ [y]) v := by
  apply C71_last_row
  have key : ∀ z : Fin (e + 1) → ℝ, (∀ m, ∃ r ∈ data, r m ≤ z m) → ∀ m, columnMin (data ++ [z]) m = columnMin data m := by
    intro z hz m
    obtain ⟨r, hr, hrz⟩ := hz m
    obtain ⟨c, cs, rfl⟩ := List.exists_cons_of_ne_nil (List.ne_nil_of_mem hr)
    unfold columnMin
    simp only [List.cons_append, List.map_cons, List.map_append, List.map_nil, Kde.colMin, List.foldl_append, List.foldl_cons,
      List.foldl_nil, Option.some.injEq]
    refine min_eq_left (le_trans ?_ hrz)
    rcases List.mem_cons.1 hr with rfl | hr
    · exact foldl_min_le_init _ _
    · exact foldl_min_le _ _ (List.mem_map.2 ⟨r, hr, rfl⟩)
  intro m
  rw [key x hx, key y hy]

end Whole
end S2G
