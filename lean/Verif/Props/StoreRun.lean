import Verif.Props.Store
import Verif.Props.ClusterRun

/-!
# C97: the store in a run, and examples
-/

namespace S2G
namespace Store

open Points Whole

variable {P : Type} {k : Kind P} {p : Parameters} {e : Nat}

theorem mirrored_at {c c' : List P} {as : List Nat} {xs ys : List P} (h1 : List.Forall₂ (At c) as xs) (h2 : List.Forall₂ (At c') as ys)
    (hm : xs.mapM k.mirror = some ys) : ∀ a ∈ as, c'[a]? = (c[a]?).bind k.mirror := by
  induction h1 generalizing ys with
  | nil => simp
  | @cons a x as xs hx _ ih =>
    simp only [List.mapM_cons, Option.bind_eq_bind, Option.pure_def, Option.bind_eq_some_iff, Option.some.injEq] at hm
    obtain ⟨y, hy, zs, hz, rfl⟩ := hm
    cases h2 with
    | cons hc h2 =>
      intro b hb
      rcases List.mem_cons.1 hb with rfl | hb
      · rw [show c'[b]? = some y from hc, show c[b]? = some x from hx]
        exact hy.symm
      · exact ih h2 hz b hb

/-- **C97.** Mirroring changes exactly the points of the store, each of them once, and a step between points of the store is a step
between the mirrored points then. -/
theorem C97_mirror (calls : List (Call P)) {s s' : DataStore P} (h : calls.foldlM (Call.run k) {} = some s)
    (h' : s.mirrorPoints k = some s') :
    (∀ a ∈ s.points, s'.cells[a]? = (s.cells[a]?).bind k.mirror) ∧ (∀ a, a ∉ s.points → s'.cells[a]? = s.cells[a]?) ∧
    s'.points = s.points ∧ s'.transitions = s.transitions ∧
    ∀ t, t.1 ∈ s.points → t.2 ∈ s.points → s'.materialize t = (s.materialize t).bind (fun m => do
      let x ← k.mirror m.1
      let y ← k.mirror m.2
      some (x, y)) := by
  have hr := calls_rel (k := k) calls
  rw [h] at hr
  cases hp : pointsOf k calls with
  | none => rw [hp] at hr; cases hr
  | some xs =>
    rw [hp] at hr
    cases hr with
    | some hr =>
      have hm := mirror_rel (k := k) hr.sound.nodup (s := s) hr.points
      unfold DataStore.mirrorPoints at h'
      cases hx : xs.mapM k.mirror with
      | none => rw [hx] at hm; simp only at hm; rw [hm] at h'; cases h'
      | some ys =>
        rw [hx] at hm
        obtain ⟨c, h1, h2, -, h4⟩ := hm
        rw [h1] at h'
        cases h'
        have key := mirrored_at hr.points h2 hx
        refine ⟨key, h4, rfl, rfl, fun t ht1 ht2 => ?_⟩
        unfold DataStore.materialize
        simp only
        rw [key _ ht1, key _ ht2]
        cases hx1 : s.cells[t.1]? with
        | none => rfl
        | some x =>
          cases hx2 : s.cells[t.2]? with
          | none => cases hm : k.mirror x <;> simp [hm]
          | some y => rfl

theorem zipIdx_addPoints (rate : Nat) (cs : List (List ℝ)) (offset : Nat) :
    (cs.zipIdx offset).mapM (fun c => newPoint c.2 c.1 rate) = addPoints offset rate cs := by
  induction cs generalizing offset with
  | nil => rfl
  | cons c cs ih =>
    simp only [List.zipIdx_cons, List.mapM_cons, addPoints, ih]
    rfl

theorem coords_of_mem {l : List Point} (h : l.map Point.id = List.range l.length) {x : Point} (hx : x ∈ l) :
    x.coordinates = coordsOf l x.id := by
  obtain ⟨i, hi, rfl⟩ := List.getElem_of_mem hx
  have hid : l[i].id = i := by
    have h1 : (l.map Point.id)[i]? = some i := by rw [h, List.getElem?_range hi]
    rw [List.getElem?_map, List.getElem?_eq_getElem hi] at h1
    exact Option.some.inj h1
  unfold coordsOf
  rw [hid, Cluster.find_numbered h hi]
  rfl

/-- **C97.** One node: after the segmentation on shared points the store holds the points and steps of the model by value
(`Whole.effectivePoints`, `Pipeline.segment`), and the steps have the coordinates of these points. -/
theorem C97_one_node (hp : p.WellFormed) (hn : p.nClusterNodes = 1) {cs : List (List ℝ)} {pts : List Point}
    (ha : addPoints 0 p.rate cs = some pts) (hq : Numbered p.rate e pts) :
    ∃ mirrored eff t st s steps, pts.mapM (mirrorPoint p.rate) = some mirrored ∧ effectivePoints p mirrored pts = some eff ∧
      Pipeline.segment p (mirrorPt mirrored) (pts.map toPt) = some t ∧
      DataStore.addPointsWithOffset (real p.rate) (fun i c => newPoint i c p.rate) 0 {} cs = some st ∧
      segment (real p.rate) p { store := st } = some s ∧ s.store.getPoints = some eff ∧ s.store.getTransitions = some steps ∧
      steps.map (real p.rate).trans = t.stored ∧
      ∀ m ∈ steps, m.1 ∈ eff ∧ m.2 ∈ eff ∧ m.1.coordinates = coordsOf eff m.1.id ∧ m.2.coordinates = coordsOf eff m.2.id := by
  have hrate : 0 < p.rate := by have := hp.1; have := hp.2; omega
  obtain ⟨mirrored, hm, -⟩ := mirrored_some hrate hq.coords
  obtain ⟨l, hl, -⟩ := SegState.buildSegments_built hp 0 {} (pts.map toPt)
  have h0 := add_rel (k := real p.rate) (fun i c => newPoint i c p.rate) 0 cs (s := {}) (l := []) ⟨by simp, by simp⟩ .nil rfl
  rw [show List.mapM (fun c : List ℝ × ℕ => newPoint c.2 c.1 p.rate) (cs.zipIdx 0) = some pts from (zipIdx_addPoints _ _ _).trans ha] at h0
  revert h0
  generalize DataStore.addPointsWithOffset (real p.rate) (fun i c => newPoint i c p.rate) 0 {} cs = o
  intro h0
  cases h0 with
  | @some st _ h0 =>
  obtain ⟨h1, h2, h3⟩ := h0
  have hr : Rel (real p.rate) [] { store := st } (pts, {}) :=
    ⟨h1, h2, by rw [h3]; exact .nil, rfl, rfl, rfl, .none, rfl, rfl, rfl, fun _ h => (by cases h), fun _ h => (by cases h),
      fun _ h => (by cases h), fun _ _ h => (by cases h)⟩
  have hb := op_rel (p := p) (own := 0) hr .build (by simp)
  simp only [Op.run, Op.value] at hb
  have hpt : (real p.rate).pt = toPt := rfl
  rw [hpt, hl] at hb
  have hfin : ∀ {s : Seg Point} {v : List Point × SegState}, Rel (real p.rate) [] s v → Numbered p.rate e v.1 →
      ∃ steps, s.store.getPoints = some v.1 ∧ s.store.getTransitions = some steps ∧ steps.map (real p.rate).trans = v.2.stored ∧
        ∀ m ∈ steps, m.1 ∈ v.1 ∧ m.2 ∈ v.1 ∧ m.1.coordinates = coordsOf v.1 m.1.id ∧ m.2.coordinates = coordsOf v.1 m.2.id := by
    intro s v h hv
    obtain ⟨steps, e1, e2, e3⟩ := getTransitions_eq h.stored
    refine ⟨steps, getPoints_eq h.points, e1, e2, fun m hm => ?_⟩
    obtain ⟨m1, m2⟩ := e3 m hm
    have m2 : m.2 ∈ v.1 := m2.resolve_right (by simp)
    exact ⟨m1, m2, coords_of_mem hv.ids m1, coords_of_mem hv.ids m2⟩
  cases hbs : buildSegments (real p.rate) p 0 { store := st } with
  | none => rw [hbs] at hb; cases hb
  | some s =>
  rw [hbs] at hb
  cases hb with
  | some hb =>
  have hcount : s.store.transitions.length = l.stored.length := hb.stored.length_eq
  have hinv : s.invalid = l.invalid := hb.invalid.symm
  have hcond : (p.selfCorrection && SelfCorrection.mirrors ⟨s.store.transitions.length, s.invalid⟩) =
      (p.selfCorrection && SelfCorrection.mirrors (SelfCorrection.localCount l)) := by
    rw [hcount, hinv]; rfl
  simp only [effectivePoints, Pipeline.segment, segment, hl, Option.bind_eq_bind, Option.bind_some]
  by_cases hc : (p.selfCorrection && SelfCorrection.mirrors (SelfCorrection.localCount l)) = true
  · simp only [if_pos hc]
    obtain ⟨e1, -, e3⟩ := Cluster.mirrorPt_map hrate hq hm
    obtain ⟨t, ht, -⟩ := SegState.buildSegments_built hp 0 { invalid := l.invalid } (mirrored.map toPt)
    have hcl : SegState.buildSegments p 0 (CorrNet.cleared l) (mirrored.map toPt) = some t := ht
    have h5 := op_rel (p := p) (own := 0) hb .correct (by simp)
    simp only [Op.run, Op.value] at h5
    rw [show pts.mapM (real p.rate).mirror = some mirrored from hm] at h5
    simp only [Option.bind_eq_bind, Option.bind_some, hpt, hcl, Option.map_some] at h5
    cases hs : correct (real p.rate) p 0 s with
    | none => rw [hs] at h5; cases h5
    | some s' =>
      rw [hs] at h5
      cases h5 with
      | some h5 =>
        obtain ⟨steps, f1, f2, f3, f4⟩ := hfin h5 e3
        exact ⟨mirrored, mirrored, t, st, s', steps, hm, rfl, by rw [e1]; exact ht, rfl,
          by simp only [hbs, Option.bind_some, hcond, if_pos hc, hs], f1, f2, f3, f4⟩
  · simp only [if_neg hc]
    obtain ⟨steps, f1, f2, f3, f4⟩ := hfin hb hq
    exact ⟨mirrored, pts, l, st, s, steps, hm, rfl, rfl, rfl, by simp only [hbs, Option.bind_some, hcond, if_neg hc], f1, f2, f3, f4⟩

/-! ## Examples -/

/-- Three points with two coordinates meet the hypotheses of `C97_one_node`. -/
example : ∃ pts, addPoints 0 12 [[1, 0], [0, 1], [-1, 0]] = some pts ∧ Numbered 12 0 pts := by
  let f : List ℝ → Nat := fun c => (SegmentId.pointSegment (c[0]?.getD 0) (c[1]?.getD 0) 12).getD 0
  have hnew : ∀ x y : ℝ, ∀ id, newPoint id [x, y] 12 = some ⟨id, [x, y], f [x, y]⟩ := by
    intro x y id
    obtain ⟨s, hs⟩ := segment_some x y (rate := 12) (by omega)
    simp [newPoint, f, hs]
  have h : addPoints 0 12 [[1, 0], [0, 1], [-1, 0]] = some [⟨0, [1, 0], f [1, 0]⟩, ⟨1, [0, 1], f [0, 1]⟩, ⟨2, [-1, 0], f [-1, 0]⟩] := by
    simp only [addPoints, hnew]
    rfl
  have hf : ∀ x y : ℝ, f [x, y] < 12 := by
    intro x y
    obtain ⟨s, hs⟩ := segment_some x y (rate := 12) (by omega)
    have := pointSegment_lt hs
    simpa [f, hs] using this
  refine ⟨_, h, rfl, by simp, fun x hx => ?_⟩
  simp only [List.mem_cons, List.not_mem_nil, or_false] at hx
  rcases hx with rfl | rfl | rfl <;> exact hf _ _

/-- Points with id and segment; mirroring a circle of 12 segments. -/
def exKind : Kind (Nat × Nat) := ⟨Prod.fst, Prod.snd, fun x => some (x.1, (17 - x.2) % 12)⟩

/-- Against the direction, so that the points are mirrored: every point once, and the steps are those of the mirrored points. -/
example : (DataStore.addPointsWithOffset exKind (fun i c => some (i, c)) 0 {} [5, 3, 1, 11]).bind
      (fun st => (segment exKind ⟨4, 1, 2, 12, 1, 1, true⟩ { store := st }).map (fun s => (s.store.getPoints, s.store.getTransitions))) =
    some (some [(0, 0), (1, 2), (2, 4), (3, 6)], some [((0, 0), (1, 2)), ((1, 2), (2, 4)), ((2, 4), (3, 6))]) := by decide

/-- First of three nodes: the step to the first point of the next node ends in a point which is not in the store. -/
example : ∃ s, (DataStore.addPointsWithOffset exKind (fun i c => some (i, c)) 0 {} [0, 2, 3]).bind
      (fun st => [Op.build, .first (3, 5) ((3, 5), (4, 6)), .receive [((7, 1), (8, 2))]].foldlM (Op.run exKind ⟨4, 1, 2, 12, 1, 3, true⟩ 0)
        { store := st }) = some s ∧
    s.store.getPoints = some [(0, 0), (1, 2), (2, 3), (7, 1), (8, 2)] ∧
    s.store.getTransitions = some [((0, 0), (1, 2)), ((1, 2), (2, 3)), ((2, 3), (3, 5)), ((7, 1), (8, 2))] := by
  refine ⟨_, rfl, by decide, by decide⟩

/-- Two points with the same id, mirrored twice and once; nodes before and after the graph was wiped. -/
example : ∃ s, [Call.addPoint (4, 1), .mirrorPoints, .addPoint (4, 2), .mirrorPoints, .addIntersection (⟨⟨4, 1⟩, ⟨5, 2⟩⟩, 2), .addNode ⟨2, 0, 4⟩,
      .wipeGraph, .addMaterializedEdge ⟨⟨2, 1, 4⟩, ⟨3, 0, 4⟩⟩].foldlM (Call.run exKind) {} = some s ∧
    s.getPoints = some [(4, 1), (4, 3)] ∧ s.byPoint 4 = some [⟨2, 1, 4⟩, ⟨3, 0, 4⟩] ∧ s.byPoint 2 = none ∧
    s.bySegment 2 = some [(⟨⟨4, 1⟩, ⟨5, 2⟩⟩, 2)] ∧ s.edges = [⟨⟨2, 1, 4⟩, ⟨3, 0, 4⟩⟩] := by
  refine ⟨_, rfl, by decide, by decide, by decide, by decide, rfl⟩

end Store
end S2G
