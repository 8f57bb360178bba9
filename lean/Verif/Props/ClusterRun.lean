import Verif.Props.ClusterScores

/-!
# C75: the scores of a run on several nodes
-/

namespace S2G
namespace Cluster

open Pca Rotation Points Whole Pipeline Edges SegState

variable {e w : Nat}

/-! ### Mirrored points -/

theorem find_numbered {l : List Point} (h : l.map Point.id = List.range l.length) {i : Nat} (hi : i < l.length) :
    l.find? (fun x => x.id = i) = some l[i] := by
  have hid : ∀ j (hj : j < l.length), l[j].id = j := fun j hj => by
    have h1 : (l.map Point.id)[j]? = some j := by rw [h, List.getElem?_range hj]
    rw [List.getElem?_map, List.getElem?_eq_getElem hj] at h1
    exact Option.some.inj h1
  rw [List.find?_eq_some_iff_getElem]
  refine ⟨by simp [hid i hi], i, hi, rfl, fun j hj => ?_⟩
  have := hid j (by omega)
  simp
  omega

theorem mirrorPt_map {rate : Nat} (hr : 0 < rate) {q m : List Point} (hq : Numbered rate e q) (hm : q.mapM (mirrorPoint rate) = some m) :
    (q.map toPt).map (mirrorPt m) = m.map toPt ∧ m.length = q.length ∧ Numbered rate e m := by
  obtain ⟨m', hm', hid, hc, hs⟩ := mirrored_some hr hq.coords
  cases Option.some.inj (hm.symm.trans hm')
  have hl : m.length = q.length := by
    have := congrArg List.length hid
    simpa using this
  have hn : m.map Point.id = List.range m.length := by rw [hid, hq.ids, hl]
  refine ⟨?_, hl, hn, hc, hs⟩
  apply List.ext_getElem
  · simp [hl]
  · intro i h1 h2
    simp only [List.getElem_map]
    have hi : i < q.length := by simpa using h1
    have hidq : q[i].id = i := by
      have h3 : (q.map Point.id)[i]? = some i := by rw [hq.ids, List.getElem?_range hi]
      rw [List.getElem?_map, List.getElem?_eq_getElem hi] at h3
      exact Option.some.inj h3
    unfold mirrorPt
    have h4 : (toPt q[i]).id = i := hidq
    rw [h4, find_numbered hn (by omega)]
    rfl

theorem effective_toPt {p : Parameters} (hr : 0 < p.rate) {q m : List Point} (hq : Numbered p.rate e q)
    (hm : q.mapM (mirrorPoint p.rate) = some m) :
    effective p (mirrorPt m) (q.map toPt) = (Whole.corrected p m q).map toPt := by
  unfold effective Whole.corrected
  split
  · exact (mirrorPt_map hr hq hm).1
  · rfl

theorem mapM_flatMap {α β : Type} {g : α → Option β} {f : Nat → List α} {h : Nat → List β} : ∀ {l : List Nat},
    (∀ i ∈ l, (f i).mapM g = some (h i)) → (l.flatMap f).mapM g = some (l.flatMap h) := by
  intro l
  induction l with
  | nil => intro _; rfl
  | cons i l ih =>
    intro hl
    rw [List.flatMap_cons, List.mapM_append, hl i (by simp), ih (fun j hj => hl j (by simp [hj]))]
    rfl

theorem mapM_slice {α β : Type} {g : α → Option β} {l : List α} {m : List β} (h : l.mapM g = some m) (a b : Nat) :
    ((l.drop a).take b).mapM g = some ((m.drop a).take b) := by
  induction l generalizing m a b with
  | nil =>
    rw [List.mapM_nil] at h
    cases h
    simp
  | cons x l ih =>
    rw [List.mapM_cons] at h
    simp only [Option.bind_eq_bind, Option.bind_eq_some_iff] at h
    obtain ⟨y, hy, ys, hys, h⟩ := h
    cases h
    cases a with
    | succ a => exact ih hys a b
    | zero =>
      cases b with
      | zero => simp
      | succ b =>
        have := ih hys 0 b
        simp only [List.drop_zero, List.take_succ_cons, List.mapM_cons] at this ⊢
        rw [hy, this]
        rfl

/-! ### The points after the segmentation -/

/-- The points of a run on one node, and parts for at least two nodes. -/
structure Base (p : Parameters) (e rows : Nat) (q m : List Point) : Prop where
  wf : p.WellFormed
  several : 2 ≤ p.nClusterNodes
  numbered : Numbered p.rate e q
  mirrored : q.mapM (mirrorPoint p.rate) = some m
  length : q.length = rows / p.nClusterNodes * (p.nClusterNodes - 1) + count p rows (p.nClusterNodes - 1)
  bound : q.length ≤ rows

/-- Ids and segments of the points of every node from the segmentation on. -/
noncomputable def parts (p : Parameters) (rows : Nat) (q m : List Point) (i : Nat) : List Pt :=
  slice p rows ((Whole.corrected p m q).map toPt) i

section
variable {p : Parameters} {rows : Nat} {q m : List Point}

theorem Base.rate (h : Base p e rows q m) : 0 < p.rate := by
  have := h.wf.1
  have := h.wf.2
  omega

theorem Base.corrected (h : Base p e rows q m) :
    (Whole.corrected p m q).length = q.length ∧ Numbered p.rate e (Whole.corrected p m q) := by
  unfold Whole.corrected
  split
  · exact (mirrorPt_map h.rate h.numbered h.mirrored).2
  · exact ⟨rfl, h.numbered⟩

theorem Base.series (h : Base p e rows q m) : S2G.series p.nClusterNodes (parts p rows q m) = (Whole.corrected p m q).map toPt := by
  have := h.several
  exact flatMap_slice (by omega) (by rw [List.length_map, h.corrected.1, h.length])

theorem Base.allSteps_eq (h : Base p e rows q m) : allSteps p (parts p rows q m) = Whole.track p m q := by
  show validSteps _ _ = validSteps _ _
  rw [h.series, effective_toPt h.rate h.numbered h.mirrored]

theorem Base.partLength (h : Base p e rows q m) {i : Nat} (hi : i < p.nClusterNodes) :
    (parts p rows q m i).length = count p rows i :=
  slice_length (by rw [List.length_map, h.corrected.1, h.length]) hi

theorem wanted_congr {a b : Nat → List Pt} (h : ∀ i < p.nClusterNodes, a i = b i) : CorrNet.Wanted p a ↔ CorrNet.Wanted p b := by
  unfold CorrNet.Wanted
  have h1 : (List.range p.nClusterNodes).map (fun j => (validSteps p.rate (a j)).length +
      ((validSteps p.rate (a j)).filter (fun t => owner p t.src.seg = j)).length) =
    (List.range p.nClusterNodes).map (fun j => (validSteps p.rate (b j)).length +
      ((validSteps p.rate (b j)).filter (fun t => owner p t.src.seg = j)).length) :=
    List.map_congr_left (fun j hj => by rw [h j (List.mem_range.1 hj)])
  have h2 : (List.range p.nClusterNodes).map (fun j => (SelfCorrection.invalidSteps p.rate (a j)).length) =
    (List.range p.nClusterNodes).map (fun j => (SelfCorrection.invalidSteps p.rate (b j)).length) :=
    List.map_congr_left (fun j hj => by rw [h j (List.mem_range.1 hj)])
  rw [h1, h2]

/-- Self correction decides as on one node (C29: it need not). -/
def SameDecision (p : Parameters) (rows : Nat) (q : List Point) : Prop :=
  p.selfCorrection = true → (CorrNet.Wanted p (slice p rows (q.map toPt)) ↔
    (validSteps p.rate (q.map toPt)).length < (SelfCorrection.invalidSteps p.rate (q.map toPt)).length)

theorem Base.correctedPart (h : Base p e rows q m) (hdec : SameDecision p rows q) (hsc : p.selfCorrection = true) {pts : Nat → List Point}
    (hpts : ∀ i < p.nClusterNodes, pts i = slice p rows q i) :
    (CorrNet.Wanted p (fun i => (pts i).map toPt) ↔ Whole.corrected p m q = m ∧ p.selfCorrection = true ∧
      (validSteps p.rate (q.map toPt)).length < (SelfCorrection.invalidSteps p.rate (q.map toPt)).length) ∧
    ∀ i < p.nClusterNodes, CorrNet.corrected p (fun i => (pts i).map toPt) (mirrorPt m) i = parts p rows q m i := by
  have h1 : CorrNet.Wanted p (fun i => (pts i).map toPt) ↔ CorrNet.Wanted p (slice p rows (q.map toPt)) :=
    wanted_congr (fun i hi => by rw [slice_map, hpts i hi])
  have h2 := h1.trans (hdec hsc)
  refine ⟨?_, ?_⟩
  · rw [h2]
    constructor
    · intro h3
      exact ⟨by unfold Whole.corrected; rw [if_pos ⟨hsc, h3⟩], hsc, h3⟩
    · exact fun h3 => h3.2.2
  · intro i hi
    unfold CorrNet.corrected parts Whole.corrected
    by_cases h3 : (validSteps p.rate (q.map toPt)).length < (SelfCorrection.invalidSteps p.rate (q.map toPt)).length
    · rw [if_pos (h2.2 h3), if_pos ⟨hsc, h3⟩]
      show ((pts i).map toPt).map _ = _
      rw [hpts i hi, ← slice_map, ← slice_map, (mirrorPt_map h.rate h.numbered h.mirrored).1]
    · rw [if_neg (fun hh => h3 (h2.1 hh)), if_neg (fun hh => h3 hh.2), slice_map, ← hpts i hi]

theorem Base.flatMap (h : Base p e rows q m) {pts : Nat → List Point} (hpts : ∀ i < p.nClusterNodes, pts i = slice p rows q i) :
    (List.range p.nClusterNodes).flatMap pts = q := by
  have := h.several
  rw [List.flatMap_congr (fun i hi => hpts i (List.mem_range.1 hi))]
  exact flatMap_slice (by omega) h.length

/-- After the segmentation the nodes hold the valid steps of the parts of the corrected points. -/
theorem Segmented.inside (h : Base p e rows q m) (hdec : SameDecision p rows q) {pts eff : Nat → List Point} {stores : Nat → List Trans}
    {qs : Nat → NodeQuestions} (hpts : ∀ i < p.nClusterNodes, pts i = slice p rows q i) (hs : Segmented p pts eff stores qs) :
    ∃ sg, SegNet.Reachable p (parts p rows q m) sg ∧ (∀ j < p.nClusterNodes, sg.net.done j = 1) ∧ stores = sg.store ∧
      qs = Edges.questionsOf sg ∧ (List.range p.nClusterNodes).flatMap eff = Whole.corrected p m q := by
  unfold Segmented at hs
  split at hs
  · next hsc =>
    obtain ⟨mirrored, s, h1, h2, h3, h4, rfl, rfl⟩ := hs
    have hm : (List.range p.nClusterNodes).flatMap mirrored = m := by
      have h5 := mapM_flatMap (l := List.range p.nClusterNodes) (fun i hi => h1 i (List.mem_range.1 hi))
      rw [h.flatMap hpts, h.mirrored] at h5
      exact (Option.some.inj h5).symm
    rw [hm] at h2
    obtain ⟨a, a1, a2, a3, a4, a5⟩ := CorrNet.C73_inside h.wf hsc h.several h2 h3
    obtain ⟨c1, c2⟩ := h.correctedPart hdec hsc hpts
    refine ⟨a, SegNet.reachable_congr c2 a1, a2, a3.symm, a4.symm, ?_⟩
    by_cases hw : CorrNet.Wanted p (fun i => (pts i).map toPt)
    · rw [(c1.1 hw).1, ← hm]
      apply List.flatMap_congr
      intro i hi
      rw [h4, if_pos ((a5 i (List.mem_range.1 hi)).2 hw)]
    · have : Whole.corrected p m q = q := by
        unfold Whole.corrected
        rw [if_neg]
        intro hh
        refine hw (c1.2 ⟨?_, hh⟩)
        unfold Whole.corrected
        rw [if_pos hh]
      rw [this]
      rw [← h.flatMap hpts]
      apply List.flatMap_congr
      intro i hi
      rw [h4, if_neg (fun hh => hw ((a5 i (List.mem_range.1 hi)).1 hh))]
  · next hsc =>
    obtain ⟨s, h1, h2, rfl, rfl, rfl⟩ := hs
    have hcor : Whole.corrected p m q = q := by
      unfold Whole.corrected
      rw [if_neg (fun hh => hsc hh.1)]
    refine ⟨s, SegNet.reachable_congr (fun i hi => ?_) h1, h2, rfl, rfl, ?_⟩
    · unfold parts
      rw [hcor, slice_map, hpts i hi]
    · rw [hcor]
      exact h.flatMap hpts

/-- A segmentation exists. -/
theorem Segmented.exists (h : Base p e rows q m) (hdec : SameDecision p rows q) {pts : Nat → List Point}
    (hpts : ∀ i < p.nClusterNodes, pts i = slice p rows q i)
    (hv : ∀ i < p.nClusterNodes, validSteps p.rate (parts p rows q m i) ≠ []) :
    ∃ eff stores qs, Segmented p pts eff stores qs := by
  unfold Segmented
  split
  · next hsc =>
    have hm : ∀ i < p.nClusterNodes, (pts i).mapM (mirrorPoint p.rate) = some (slice p rows m i) := fun i hi => by
      rw [hpts i hi]
      exact mapM_slice h.mirrored _ _
    have hm' : (List.range p.nClusterNodes).flatMap (slice p rows m) = m := by
      have := h.several
      exact flatMap_slice (by omega) (by rw [(mirrorPt_map h.rate h.numbered h.mirrored).2.1, h.length])
    obtain ⟨c1, c2⟩ := h.correctedPart hdec hsc hpts
    obtain ⟨s, h1, h2⟩ := CorrNet.C73_complete (pts := fun i => (pts i).map toPt) (mir := mirrorPt m) h.wf hsc h.several (fun i hi => by
      rw [c2 i hi]
      exact hv i hi)
    exact ⟨_, _, _, slice p rows m, s, hm, by rw [hm']; exact h1, h2, fun _ => rfl, rfl, rfl⟩
  · next hsc =>
    have hcor : Whole.corrected p m q = q := by
      unfold Whole.corrected
      rw [if_neg (fun hh => hsc hh.1)]
    obtain ⟨s, h1, h2⟩ := segmentation_complete (pts := fun i => (pts i).map toPt) h.wf (fun i hi => by
      have := hv i hi
      unfold parts at this
      rw [hcor, slice_map, ← hpts i hi] at this
      exact this)
    exact ⟨_, _, _, s, h1, h2, rfl, rfl, rfl⟩

/-! ### From the segmentation to the scores -/

/-- Conditions on the points after self correction, as in C62. -/
structure Good (p : Parameters) (rows : Nat) (pts : Nat → List Pt) : Prop where
  /-- every part has a valid step (C28) -/
  valid : ∀ i < p.nClusterNodes, validSteps p.rate (pts i) ≠ []
  /-- the borders are harmless (C43) -/
  borders : ∀ i, i + 1 < p.nClusterNodes → BorderOK p pts i
  /-- a valid step starts at the last point of every overlap (C51) -/
  overlaps : ∀ i, i + 1 < p.nClusterNodes → ∃ t ∈ allSteps p pts,
    t.src.id = rows / p.nClusterNodes * (i + 1) + (p.queryLength - 1)
  /-- a valid step starts at a point of the first node which is not the first point -/
  inner : ∃ t ∈ allSteps p pts, 0 < t.src.id ∧ t.src.id < rows / p.nClusterNodes
  query : 1 ≤ p.queryLength
  threads : 1 ≤ p.nThreads
  /-- there are positions for every thread (C49) -/
  positions : p.nThreads ≤ rows / p.nClusterNodes
  lastPart : p.nThreads + p.queryLength ≤ count p rows (p.nClusterNodes - 1)
  /-- of the edges which end at the same point the first one does not depend on the schedule (C62) -/
  first : ∀ k, p.queryLength ≤ k → FirstFixed p rows (pairs (walk p.rate (fun _ _ => 0) (allSteps p pts))) k
  /-- the run on one node does not crash at its first step (C40) -/
  start : ∀ t ∈ (allSteps p pts).head?, ¬ (t.src.seg + 2 = p.rate ∧ t.dst.seg < t.src.seg)

variable {resolution order : Nat} {sg : SegNet}

/-- The coordinates of a crossing; any row if it has none. -/
noncomputable def place' (p : Parameters) (e : Nat) (m q : List Point) (x : Inter) : List ℝ :=
  (place p e m q x).getD (List.replicate (e + 1) 0)

theorem place'_length (p : Parameters) (e : Nat) (m q : List Point) (x : Inter) : (place' p e m q x).length = e + 1 := by
  unfold place'
  cases h : place p e m q x with
  | none => simp
  | some l => exact interCoord_length h

theorem place_eq {x : Inter} (h : place p e m q x ≠ none) : (place p e m q x).getD [] = place' p e m q x := by
  unfold place'
  obtain ⟨l, hl⟩ := Option.ne_none_iff_exists'.1 h
  rw [hl]
  rfl

theorem Good.nodes_le {pts : Nat → List Pt} (g : Good p rows pts) : p.nClusterNodes ≤ rows := by
  have h1 := g.positions
  have h2 := g.threads
  by_contra hc
  rw [Nat.div_eq_of_lt (by omega)] at h1
  omega

theorem Base.fields (h : Base p e rows q m) (hN : p.nClusterNodes ≤ rows) :
    (∀ i < p.nClusterNodes, ∀ x ∈ parts p rows q m i, x.seg < p.rate) ∧
    (S2G.series p.nClusterNodes (parts p rows q m)).map Pt.id = List.range (S2G.series p.nClusterNodes (parts p rows q m)).length ∧
    (∀ i, i + 1 < p.nClusterNodes → (parts p rows q m i).length = rows / p.nClusterNodes) ∧
    (S2G.series p.nClusterNodes (parts p rows q m)).length ≤ rows ∧ p.nClusterNodes ≤ rows := by
  have hser := h.series
  obtain ⟨hl, hnum⟩ := h.corrected
  have hs := h.several
  refine ⟨?_, ?_, ?_, ?_, ?_⟩
  · intro i hi x hx
    have : x ∈ S2G.series p.nClusterNodes (parts p rows q m) := List.mem_flatMap.2 ⟨i, List.mem_range.2 hi, hx⟩
    rw [hser] at this
    obtain ⟨y, hy, rfl⟩ := List.mem_map.1 this
    exact hnum.segs y hy
  · rw [hser, toPt_ids, hnum.ids, List.length_map]
  · intro i hi
    rw [h.partLength (by omega), count, if_neg (by omega)]
  · rw [hser, List.length_map, hl]
    exact h.bound
  · exact hN

theorem Base.complete (h : Base p e rows q m) (g : Good p rows (parts p rows q m)) {X : Type} {clu : List X → Option (List Nat)}
    {coord : Inter → X} (hone : NodeEst.OneLabelEach clu)
    (hclu : ∀ s < p.rate, ∀ xs : List Inter, xs.Perm (crossings p.rate (track p m q) s) → 2 ≤ xs.length → clu (xs.map coord) ≠ none) :
    Complete clu coord p rows (parts p rows q m) := by
  have hs := h.several
  obtain ⟨f1, f2, f3, f4, f5⟩ := h.fields g.nodes_le
  refine ⟨⟨h.wf, hs, f1, f2, f3, f4, f5, g.valid, g.borders, ?_, hone, g.overlaps, g.inner, g.query⟩, g.threads, g.positions, ?_⟩
  · rw [h.allSteps_eq]
    exact hclu
  · rw [h.partLength (by omega)]
    exact g.lastPart

theorem Base.mem_store (h : Base p e rows q m) (g1 : SegNet.Reachable p (parts p rows q m) sg)
    (g2 : ∀ j < p.nClusterNodes, sg.net.done j = 1) (t : Trans) : t ∈ track p m q ↔ ∃ i < p.nClusterNodes, t ∈ sg.store i := by
  rw [← h.allSteps_eq, ← (SegNet.C27_all_stored h.wf g1 g2).mem_iff, List.mem_flatMap]
  simp only [List.mem_range]

/-- All crossings have coordinates: it does not matter which node computes them. -/
theorem Base.places (h : Base p e rows q m) (g1 : SegNet.Reachable p (parts p rows q m) sg)
    (g2 : ∀ j < p.nClusterNodes, sg.net.done j = 1) :
    (∀ j < p.nClusterNodes, ∀ x ∈ intersectionTasks p.rate (sg.store j),
      (interCoord e (Whole.corrected p m q) (sg.store j) p.rate x).isSome) ↔
    ∀ t ∈ track p m q, ∀ s ∈ t.intersectionSegments p.rate, place p e m q (t, s) ≠ none := by
  have hmem : ∀ (ts : List Trans) (x : Inter), x ∈ intersectionTasks p.rate ts ↔ x.1 ∈ ts ∧ x.2 ∈ x.1.intersectionSegments p.rate := by
    rintro ts ⟨t, s⟩
    unfold intersectionTasks
    simp only [List.mem_reverse, List.mem_flatMap, List.mem_map, Prod.mk.injEq]
    constructor
    · rintro ⟨t', h1, s', h2, rfl, rfl⟩
      exact ⟨h1, h2⟩
    · rintro ⟨h1, h2⟩
      exact ⟨t, h1, s, h2, rfl, rfl⟩
  constructor
  · intro h1 t ht s hs
    obtain ⟨j, hj, hjt⟩ := (h.mem_store g1 g2 t).1 ht
    have := h1 j hj (t, s) ((hmem _ _).2 ⟨hjt, hs⟩)
    rw [interCoord_store (ts' := track p m q) hjt ht] at this
    exact Option.isSome_iff_ne_none.1 this
  · intro h1 j hj x hx
    obtain ⟨h2, h3⟩ := (hmem _ _).1 hx
    have h4 := (h.mem_store g1 g2 x.1).2 ⟨j, hj, h2⟩
    rw [interCoord_store (ts' := track p m q) h2 h4]
    exact Option.isSome_iff_ne_none.2 (h1 x.1 h4 x.2 h3)

theorem Base.steps (h : Base p e rows q m) : Steps p.rate rows (track p m q) := by
  obtain ⟨hl, hnum⟩ := h.corrected
  have h1 : Whole.track p m q = validSteps p.rate ((Whole.corrected p m q).map toPt) := by
    rw [← h.allSteps_eq]
    show validSteps _ _ = _
    rw [h.series]
  obtain ⟨n1, n2⟩ := Pipeline.numbered (pts := (Whole.corrected p m q).map toPt) (by rw [toPt_ids, hnum.ids, List.length_map])
  rw [h1]
  refine steps_of_points ?_ n1 ?_
  · intro x hx
    obtain ⟨y, hy, rfl⟩ := List.mem_map.1 hx
    exact hnum.segs y hy
  · intro x hx
    have := n2 x hx
    rw [List.length_map, hl] at this
    have := h.bound
    omega

/-- The stages after the segmentation are those of C62, with the coordinates which one node computes. -/
theorem Base.scored_iff (h : Base p e rows q m) (hN : p.nClusterNodes ≤ rows) (g1 : SegNet.Reachable p (parts p rows q m) sg)
    (g2 : ∀ j < p.nClusterNodes, sg.net.done j = 1)
    (hpl : ∀ t ∈ track p m q, ∀ s ∈ t.intersectionSegments p.rate, place p e m q (t, s) ≠ none)
    {pts : Nat → List Point} (hpts : ∀ i < p.nClusterNodes, pts i = slice p rows q i)
    {clu : List (List ℝ) → Option (List Nat)} {it nodes qn es edges tr deg wt n cnt ov job par sub} :
    Scored clu (fun x => (crossing e p (Whole.corrected p m q) sg.store x).getD []) p rows (fun i => (pts i).length) sg.store
        (Edges.questionsOf sg) it nodes qn es edges tr deg wt n cnt ov job par sub ↔
      Distributed clu (place' p e m q) p rows (parts p rows q m) sg it nodes qn es edges tr deg wt n cnt ov job par sub := by
  have hlen : ∀ i < p.nClusterNodes, (pts i).length = (parts p rows q m i).length := fun i hi => by
    rw [h.partLength hi, hpts i hi, slice_length h.length hi]
  have hest : InterNet.Reachable p sg.store it → (∀ i < p.nClusterNodes, it.net.done i = 1) → ∀ j < p.nClusterNodes,
      NodeEst.estimateNodes clu (fun x => (crossing e p (Whole.corrected p m q) sg.store x).getD []) p j (it.store p j) =
        NodeEst.estimateNodes clu (place' p e m q) p j (it.store p j) := by
    intro h1 h2 j hj
    apply NodeEst.estimateNodes_congr
    intro x hx
    have h3 := (store_spec h.wf (by rw [h.allSteps_eq]; exact h.steps) g1 g2 h1 h2 hj).1.mem_iff.1 hx
    rw [List.mem_filter, List.mem_flatMap] at h3
    obtain ⟨⟨t, ht, h3⟩, _⟩ := h3
    obtain ⟨s, hs, rfl⟩ := List.mem_map.1 h3
    rw [h.allSteps_eq] at ht
    rw [C75_crossings (ts := track p m q) (h.mem_store g1 g2) ht]
    exact place_eq (hpl t ht s hs)
  constructor
  · intro hs
    obtain ⟨f1, f2, f3, f4, f5⟩ := h.fields hN
    exact ⟨⟨h.wf, h.several, f1, f2, f3, f4, f5, g1, g2, hs.inter, hs.interDone,
      fun j hj => (hest hs.inter hs.interDone j hj).symm.trans (hs.estimate j hj), hs.exchange, hs.exchanged, hs.connect, hs.sorted,
      hs.transposition, hs.transposed⟩, hs.degrees, hs.degreesPay, hs.degreesDone, hs.weights, hs.weightsPay, hs.weightsDone,
      fun i hi => by rw [← hlen i hi]; exact hs.resultLength i hi, hs.count, hs.overlap, hs.overlapped, hs.threads, hs.scores, hs.scoresDone⟩
  · intro hd
    exact ⟨hd.inter, hd.interDone, fun j hj => (hest hd.inter hd.interDone j hj).trans (hd.estimate j hj), hd.exchange, hd.exchanged,
      hd.connect, hd.sorted, hd.transposition, hd.transposed, hd.degrees, hd.degreesPay, hd.degreesDone, hd.weights, hd.weightsPay,
      hd.weightsDone, fun i hi => by rw [hlen i hi]; exact hd.resultLength i hi, hd.count, hd.overlap, hd.overlapped, hd.threads, hd.scores,
      hd.scoresDone⟩

theorem mem_crossings {rate : Nat} {ts : List Trans} {s : Nat} {x : Inter} (h : x ∈ crossings rate ts s) :
    x.1 ∈ ts ∧ x.2 ∈ x.1.intersectionSegments rate := by
  unfold crossings at h
  obtain ⟨t, ht, rfl⟩ := List.mem_map.1 h
  obtain ⟨h1, h2⟩ := List.mem_filter.1 ht
  exact ⟨h1, by simpa using h2⟩

theorem clustering_orderFree {p : Parameters} (ht : 1 ≤ p.nThreads) (resolution order e : Nat) :
    OrderFree (fun row : List ℝ => row.length = e + 1) (clustering resolution order p e) :=
  kde_orderFree ht

/-- What a node delivers is what one node delivers. -/
theorem Base.result (h : Base p e rows q m) (g : Good p rows (parts p rows q m))
    (hpl : ∀ t ∈ track p m q, ∀ s ∈ t.intersectionSegments p.rate, place p e m q (t, s) ≠ none)
    {it nodes qn es edges tr deg wt n cnt ov job par sub}
    (hd : Distributed (clustering resolution order p e) (place' p e m q) p rows (parts p rows q m) sg it nodes qn es edges tr deg wt n cnt
      ov job par sub) {i : Nat} (hi : i < p.nClusterNodes) :
    score resolution order { p with nClusterNodes := 1 } e rows q ≠ none ∧
      Result resolution order { p with nClusterNodes := 1 } e q (SubScores.finalize p.nClusterNodes (SubScores.subscores sub i)) := by
  have hone := clustering_oneLabel resolution order p e
  have hfree := clustering_orderFree g.threads resolution order e
  have hlab := hd.labelled hone
  rw [h.allSteps_eq] at hlab
  have hclu : ∀ s < p.rate, ∀ xs : List Inter, xs.Perm (crossings p.rate (track p m q) s) → 2 ≤ xs.length →
      clustering resolution order p e (xs.map (place' p e m q)) ≠ none := by
    intro s hs xs hx h2 h3
    obtain ⟨ys, hy, h4⟩ := hlab s hs (by rw [← hx.length_eq]; exact h2)
    have := (hfree (ys.map (place' p e m q)) (xs.map (place' p e m q)) (by
      intro x hx
      obtain ⟨y, _, rfl⟩ := List.mem_map.1 hx
      exact place'_length p e m q y) (by rw [List.length_map, hy.length_eq, ← hx.length_eq]; exact h2)
      ((hy.trans hx.symm).map _)).1.2 h3
    rw [h4] at this
    cases this
  have hC := h.complete (coord := place' p e m q) g hone hclu
  have hlast : q.length = (S2G.series p.nClusterNodes (parts p rows q m)).length := by
    rw [h.series, List.length_map, h.corrected.1]
  have hql : p.nThreads + p.queryLength ≤ q.length := by
    have := g.lastPart
    have := h.length
    omega
  have hval : SubScores.finalize p.nClusterNodes (SubScores.subscores sub i) = Scoring.normalize
      (vector (pairs (walk p.rate (labels p nodes) (track p m q))) p.queryLength (q.length - p.queryLength)) := by
    obtain ⟨-, k1, k2⟩ := hd.graph hone hC.borders
    rw [C62_distributed hone hd hC.borders (fun i hi => hC.overlapEdge _ hi) (hC.innerEdge _) g.query g.threads g.positions hC.lastPart hi,
      vector_congr k1 k2 (pairs_sorted (walk_sorted hd.points.sorted)) g.query
        (fun k hk => C62_first hone hd.toGraphed hC.borders (g.first k hk).relabel), ← hlast, h.allSteps_eq]
  have hwf : ({ p with nClusterNodes := 1 } : Parameters).WellFormed := by
    have h1 := h.wf
    unfold Parameters.WellFormed at h1 ⊢
    dsimp only
    omega
  obtain ⟨hnone, hsome⟩ := C72_scores (p := { p with nClusterNodes := 1 }) hwf rfl resolution order h.mirrored h.numbered h.bound g.query
    g.threads hql
  have hmap : ∀ s, (crossings p.rate (track p m q) s).reverse.map (fun x => (place p e m q x).getD []) =
      (crossings p.rate (track p m q) s).reverse.map (place' p e m q) := by
    intro s
    apply List.map_congr_left
    intro x hx
    obtain ⟨h1, h2⟩ := mem_crossings (List.mem_reverse.1 hx)
    exact place_eq (hpl x.1 h1 x.2 h2)
  have hscore : score resolution order { p with nClusterNodes := 1 } e rows q ≠ none := by
    intro h0
    rcases hnone.1 h0 with ⟨t, ht, s, hs, h1⟩ | ⟨s, hs, h2, h3⟩ | ⟨t, ht, h1⟩
    · exact hpl t ht s hs h1
    · refine hclu s hs _ (List.reverse_perm _) (by rw [List.length_reverse]; exact h2) ?_
      rw [← hmap s]
      exact h3
    · refine g.start t ?_ h1
      rw [h.allSteps_eq]
      exact ht
  refine ⟨hscore, ?_⟩
  obtain ⟨s0, hs0⟩ := Option.ne_none_iff_exists'.1 hscore
  obtain ⟨lab, hl, _⟩ := hsome s0 hs0
  refine ⟨m, lab, h.mirrored, hl, ?_⟩
  have hl' : Labelled (clustering resolution order p e) (place' p e m q) p.rate (track p m q) lab := by
    intro s hs h2
    rw [← hmap s]
    exact hl s hs h2
  rw [hval, vector_sameGroups (sameGroups_of_orderFree hfree (place'_length p e m q) h.steps.valid hl'.perm hlab)]
  rfl

/-- If one node does not crash then all crossings have coordinates and can be clustered, in any order. -/
theorem Base.conditions (h : Base p e rows q m) (g : Good p rows (parts p rows q m))
    (hs : score resolution order { p with nClusterNodes := 1 } e rows q ≠ none) :
    (∀ t ∈ track p m q, ∀ s ∈ t.intersectionSegments p.rate, place p e m q (t, s) ≠ none) ∧
    ∀ s < p.rate, ∀ xs : List Inter, xs.Perm (crossings p.rate (track p m q) s) → 2 ≤ xs.length →
      clustering resolution order p e (xs.map (place' p e m q)) ≠ none := by
  have hwf : ({ p with nClusterNodes := 1 } : Parameters).WellFormed := by
    have h1 := h.wf
    unfold Parameters.WellFormed at h1 ⊢
    dsimp only
    omega
  have hlq : p.nThreads + p.queryLength ≤ q.length := by
    have := g.lastPart
    have := h.length
    omega
  have hno := (C72_scores (p := { p with nClusterNodes := 1 }) hwf rfl resolution order h.mirrored h.numbered h.bound g.query
    g.threads hlq).1.not.1 hs
  simp only [not_or, not_exists, not_and] at hno
  obtain ⟨n1, n2, -⟩ := hno
  have hpl : ∀ t ∈ track p m q, ∀ s ∈ t.intersectionSegments p.rate, place p e m q (t, s) ≠ none := n1
  refine ⟨hpl, fun s hs xs hx h2 h3 => n2 s hs (by rw [hx.length_eq] at h2; exact h2) ?_⟩
  have hmap : (crossings p.rate (track p m q) s).reverse.map (fun x => (place p e m q x).getD []) =
      (crossings p.rate (track p m q) s).reverse.map (place' p e m q) := by
    apply List.map_congr_left
    intro x hx
    obtain ⟨h1, h2⟩ := mem_crossings (List.mem_reverse.1 hx)
    exact place_eq (hpl x.1 h1 x.2 h2)
  refine (congrArg (clustering resolution order p e) hmap).trans ?_
  exact (clustering_orderFree g.threads resolution order e _ _ (by
    intro x hx
    obtain ⟨y, _, rfl⟩ := List.mem_map.1 hx
    exact place'_length p e m q y) (by rw [List.length_map]; exact h2) ((hx.trans (List.reverse_perm _).symm).map _)).1.1 h3

/-! ### From the series to the scores -/

variable {lib : Lib w} {series : List (Fin (e + 1) → ℝ)}

theorem PointsOfAll.part (hr : 0 < p.rate) (hf : Fits p series.length)
    {ok : RotNet (List (Row (w + 1))) (Option (Fin (e + 1) → Matrix (Fin 3) (Fin 3) ℝ)) → Nat →
      StageMsg (List (Row (w + 1))) (Option (Fin (e + 1) → Matrix (Fin 3) (Fin 3) ℝ)) → Prop}
    {pts : Nat → List Point} (h : PointsOfAll lib p ok series pts) {i : Nat} (hi : i < p.nClusterNodes) :
    pts i = slice p series.length ((List.range p.nClusterNodes).flatMap pts) i := by
  obtain ⟨parts, n, first, ps, xs, s, h1, _, h3⟩ := h
  refine (slice_flatMap (fun i hi => ?_) hi).symm
  obtain ⟨R, c, _, _, h4⟩ := h3 i hi
  obtain ⟨l, h5, h6, _⟩ := C67_points R ((List.range (ps i).length).map (fun r m => reduced (c m).1 (c m).2 ((column (ps i) m).getD r 0)))
    (n := n) (k := p.nClusterNodes) (i := i) (rate := p.rate) (by omega) (by omega) hr
  cases Option.some.inj (h4.symm.trans h5)
  rw [h6, List.length_map, List.length_range]
  exact (space_eq hf h1).1 i hi

theorem base_of_points (hp : p.WellFormed) (hk : 2 ≤ p.nClusterNodes) (hf : Fits p series.length) (hq : PointsOf lib p series q)
    (hm : q.mapM (mirrorPoint p.rate) = some m) : Base p e series.length q m := by
  have hr : 0 < p.rate := by have := hp.1; have := hp.2; omega
  obtain ⟨h1, h2, h3⟩ := hq.numbered hr
  refine ⟨hp, hk, h3, hm, ?_, by omega⟩
  obtain ⟨_, h4, h5⟩ := hf.resolve_left (by omega)
  rw [h1, count, if_pos rfl]
  obtain ⟨k, hk'⟩ : ∃ k, p.nClusterNodes = k + 1 := ⟨p.nClusterNodes - 1, by omega⟩
  have h6 := Nat.div_add_mod series.length p.nClusterNodes
  rw [hk'] at h4 h6 ⊢
  rw [Nat.add_sub_cancel]
  rw [Nat.add_mul, Nat.one_mul, Nat.mul_comm k] at h6
  omega

/-- C75: a run on two or three nodes delivers at every node the vector which a run on one node delivers, and no other; and if the
run on one node delivers a vector there is such a run. Up to the points nobody is early (C74), the segmentation is in time (C73) and
the rotations are without the race of C18; in all other respects the schedule of every stage is arbitrary. The conditions on the
points are those of C62 (`Good`), each node has points and a chunk for every helper (C21), and self correction decides as on one node. -/
theorem C75_exact (hqr : ∀ A, gram (lib.qr A) = gram A) (hs : ∀ m, Settled lib (windows w p series m)) (hp : p.WellFormed)
    (hk : 2 ≤ p.nClusterNodes) (hk3 : p.nClusterNodes ≤ 3) (hf : Fits p series.length)
    (hc : ∀ i < p.nClusterNodes, 0 < count p series.length i ∧ Chunked p.nThreads (count p series.length i))
    (hq : PointsOf lib p series q) (hm : q.mapM (mirrorPoint p.rate) = some m) (hdec : SameDecision p series.length q)
    (g : Good p series.length (parts p series.length q m)) {i : Nat} (hi : i < p.nClusterNodes) (v : Option (List (Option ℚ))) :
    Delivers lib resolution order p series i v ↔ Whole.Delivers lib resolution order { p with nClusterNodes := 1 } series v := by
  have h := base_of_points hp hk hf hq hm
  have hr := h.rate
  have hwf : ({ p with nClusterNodes := 1 } : Parameters).WellFormed := by
    have h1 := h.wf
    unfold Parameters.WellFormed at h1 ⊢
    dsimp only
    omega
  have hql : p.nThreads + p.queryLength + p.patternLength ≤ series.length + 1 := by
    have h1 := g.lastPart
    have h2 := h.length
    have h3 := (hq.numbered hr).1
    have h4 := (hf.resolve_left (by omega)).2.1
    have h5 := (hq.numbered hr).2.1
    have h6 := Nat.div_le_self series.length p.nClusterNodes
    omega
  have hres := fun v => C72_result (lib := lib) (p := { p with nClusterNodes := 1 }) resolution order hwf rfl (series := series) g.query
    g.threads hql v
  -- every run delivers what one node delivers
  have key : ∀ v, Delivers lib resolution order p series i v →
      Whole.Delivers lib resolution order { p with nClusterNodes := 1 } series v := by
    rintro v ⟨pts, eff, stores, qs, h1, h2, h3, it, nodes, qn, es, edges, tr, deg, wt, n, cnt, ov, job, par, sub, h4, rfl⟩
    have hqe : (List.range p.nClusterNodes).flatMap pts = q :=
      ((hq.unique (t := p.nThreads) hqr hs (C74_points hqr hs hf hk3 h1))).symm
    have hpts : ∀ i < p.nClusterNodes, pts i = slice p series.length q i := fun i hi => by
      have := PointsOfAll.part hr hf h1 hi
      rwa [hqe] at this
    obtain ⟨sg, g1, g2, rfl, rfl, heff⟩ := h2.inside h hdec hpts
    rw [heff] at h3 h4
    have hpl := (h.places g1 g2).1 h3
    obtain ⟨r1, r2⟩ := h.result g hpl ((h.scored_iff g.nodes_le g1 g2 hpl hpts).1 h4) hi
    exact (hres _).2 ⟨q, hq, r1, r2⟩
  refine ⟨key v, fun hv => ?_⟩
  obtain ⟨q', e1, e2, e3⟩ := (hres v).1 hv
  cases hq.unique (t := p.nThreads) hqr hs e1
  obtain ⟨hpl, hclu⟩ := h.conditions g e2
  have hC := h.complete (coord := place' p e m q) g (clustering_oneLabel resolution order p e) hclu
  -- a run
  obtain ⟨pts, p1, hqe⟩ := (C74_exact hqr hs hf hk3 hc q).1 hq
  have hpts : ∀ i < p.nClusterNodes, pts i = slice p series.length q i := fun i hi => by
    have := PointsOfAll.part hr hf p1 hi
    rwa [hqe] at this
  obtain ⟨eff, stores, qs, p2⟩ := Segmented.exists h hdec hpts g.valid
  obtain ⟨sg, g1, g2, rfl, rfl, heff⟩ := p2.inside h hdec hpts
  obtain ⟨it, nodes, qn, es, edges, tr, hg⟩ := hC.graphed_of g1 g2
  obtain ⟨deg, wt, n, cnt, ov, job, par, sub, hd⟩ := hC.finish hg
  have hdel : Delivers lib resolution order p series i (SubScores.finalize p.nClusterNodes (SubScores.subscores sub i)) := by
    refine ⟨pts, eff, sg.store, Edges.questionsOf sg, p1, p2, ?_, it, nodes, qn, es, edges, tr, deg, wt, n, cnt, ov, job, par, sub, ?_, rfl⟩
    · rw [heff]
      exact (h.places g1 g2).2 hpl
    · rw [heff]
      exact (h.scored_iff g.nodes_le g1 g2 hpl hpts).2 hd
  have : SubScores.finalize p.nClusterNodes (SubScores.subscores sub i) = v := by
    obtain ⟨q'', d1, _, d3⟩ := (hres _).1 (key _ hdel)
    cases hq.unique (t := p.nThreads) hqr hs d1
    exact Result.unique (p := { p with nClusterNodes := 1 }) (t := p.nThreads) g.threads g.threads h.numbered hr e3 d3
  rw [← this]
  exact hdel

end

end Cluster
end S2G
