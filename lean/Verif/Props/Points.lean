import Verif.Model.Points
import Verif.Props.Rotation
import Verif.Props.SegmentId
import Verif.Model.Geometry

/-!
# C67: coordinates, ids and segments of the points
-/

namespace S2G
namespace Points

open Rotation

variable {d : Nat}

/-- Specification: the rotated curve of dimension `m` seen along the reference direction, a point of the plane. -/
noncomputable def planar (R : Fin d → Matrix (Fin 3) (Fin 3) ℝ) (row : Fin d → Vec) (m : Fin d) : ℝ × ℝ :=
  ((R m).mulVec (row m) 0, (R m).mulVec (row m) 1)

theorem rotateRow_eq (R : Fin d → Matrix (Fin 3) (Fin 3) ℝ) (row : Fin d → Vec) (m : Fin d) :
    rotateRow (R m) (row m) = planar R row m := by
  unfold rotateRow planar
  rw [Matrix.vecMul_transpose]

theorem coordinates_eq (R : Fin d → Matrix (Fin 3) (Fin 3) ℝ) (row : Fin d → Vec) :
    coordinates R row = (List.finRange d).map (fun m => (planar R row m).1) ++ (List.finRange d).map (fun m => (planar R row m).2) := by
  unfold coordinates
  simp only [rotateRow_eq, List.flatMap_cons, List.flatMap_nil, List.append_nil]

theorem coordinates_length (R : Fin d → Matrix (Fin 3) (Fin 3) ℝ) (row : Fin d → Vec) : (coordinates R row).length = 2 * d := by
  rw [coordinates_eq]
  simp
  omega

theorem coordinates_fst (R : Fin d → Matrix (Fin 3) (Fin 3) ℝ) (row : Fin d → Vec) (m : Fin d) :
    (coordinates R row)[m.val]? = some (planar R row m).1 := by
  rw [coordinates_eq, List.getElem?_append_left (by simp)]
  simp

theorem coordinates_snd (R : Fin d → Matrix (Fin 3) (Fin 3) ℝ) (row : Fin d → Vec) (m : Fin d) :
    (coordinates R row)[d + m.val]? = some (planar R row m).2 := by
  rw [coordinates_eq, List.getElem?_append_right (by simp)]
  simp

/-- The two numbers whose angle decides about the segment. -/
theorem coordinates_second (R : Fin d → Matrix (Fin 3) (Fin 3) ℝ) (row : Fin d → Vec) (hd : 0 < d) :
    (coordinates R row)[1]? = some (if h : 1 < d then (planar R row ⟨1, h⟩).1 else (planar R row ⟨0, hd⟩).2) := by
  split
  · next h => exact coordinates_fst R row ⟨1, h⟩
  · next h =>
    have : d = 1 := by omega
    subst this
    exact coordinates_snd R row ⟨0, hd⟩

theorem segment_some (x y : ℝ) {rate : Nat} (hr : 0 < rate) : ∃ s, SegmentId.pointSegment x y rate = some s := by
  unfold SegmentId.pointSegment SegmentId.getSegmentId checkedMod
  simp [Nat.pos_iff_ne_zero.1 hr]

theorem addPoints_spec {nSegments : Nat} : ∀ (cs : List (List ℝ)) (offset : Nat) (f : List ℝ → Nat),
    (∀ c ∈ cs, ∀ id, newPoint id c nSegments = some ⟨id, c, f c⟩) →
    addPoints offset nSegments cs = some ((List.range cs.length).zipWith (fun r c => ⟨offset + r, c, f c⟩) cs) := by
  intro cs
  induction cs with
  | nil => intros; rfl
  | cons c cs ih =>
    intro offset f h
    unfold addPoints
    rw [h c (by simp), ih (offset + 1) f (fun c' hc' => h c' (by simp [hc']))]
    simp only [Option.bind_eq_bind, Option.bind_some, List.length_cons, List.range_succ_eq_map, List.zipWith_cons_cons, add_zero,
      Option.some.injEq, List.cons.injEq, true_and]
    rw [List.zipWith_map_left]
    congr 1
    funext r c
    congr 1
    omega

/-- C67: with at least one dimension and one segment every reduced row becomes one point, in order. The point of row `r` of node
`i` has the id `i * (n / k) + r`; its coordinates are the first coordinates of all dimensions, followed by the second coordinates
of all dimensions; its segment is that of the angle of its first two coordinates. -/
theorem C67_points (R : Fin d → Matrix (Fin 3) (Fin 3) ℝ) (reduced : List (Fin d → Vec)) {n k i rate : Nat} (hd : 0 < d) (hk : 0 < k)
    (hr : 0 < rate) :
    ∃ pts, applyRotation R reduced n k i rate = some pts ∧ pts.length = reduced.length ∧
      ∀ r p, pts[r]? = some p → ∃ row, reduced[r]? = some row ∧ p.id = i * (n / k) + r ∧ p.coordinates.length = 2 * d ∧
        (∀ m : Fin d, p.coordinates[m.val]? = some (planar R row m).1 ∧ p.coordinates[d + m.val]? = some (planar R row m).2) ∧
        ∃ x y, p.coordinates[0]? = some x ∧ p.coordinates[1]? = some y ∧ SegmentId.pointSegment x y rate = some p.segment := by
  let f : List ℝ → Nat := fun c => (SegmentId.pointSegment (c[0]?.getD 0) (c[1]?.getD 0) rate).getD 0
  have hnew : ∀ c : List ℝ, 2 ≤ c.length → ∀ id, newPoint id c rate = some ⟨id, c, f c⟩ := by
    intro c hc id
    unfold newPoint
    have h0 : c[0]? = some (c[0]?.getD 0) := by rw [List.getElem?_eq_getElem (by omega)]; rfl
    have h1 : c[1]? = some (c[1]?.getD 0) := by rw [List.getElem?_eq_getElem (by omega)]; rfl
    rw [h0, h1]
    simp only [Option.bind_eq_bind, Option.bind_some]
    obtain ⟨s, hs⟩ := segment_some (c[0]?.getD 0) (c[1]?.getD 0) hr
    rw [hs]
    simp only [Option.bind_some, Option.some.injEq, Point.mk.injEq, true_and]
    show s = (SegmentId.pointSegment (c[0]?.getD 0) (c[1]?.getD 0) rate).getD 0
    rw [hs]
    rfl
  have hadd := addPoints_spec (nSegments := rate) (reduced.map (coordinates R)) (n / k * i) f (by
    intro c hc
    obtain ⟨row, _, rfl⟩ := List.mem_map.1 hc
    exact hnew _ (by rw [coordinates_length]; omega))
  have happ : applyRotation R reduced n k i rate = addPoints (n / k * i) rate (reduced.map (coordinates R)) := by
    unfold applyRotation
    rw [if_neg (by omega)]
    simp only [checkedDiv, Nat.pos_iff_ne_zero.1 hk, if_false, Option.bind_eq_bind, Option.bind_some]
  rw [hadd] at happ
  refine ⟨_, happ, ?_, ?_⟩
  · simp
  · intro r p hp
    rw [List.getElem?_zipWith] at hp
    simp only [List.getElem?_map, List.length_map] at hp
    by_cases hlt : r < reduced.length
    · rw [List.getElem?_eq_getElem (by simpa using hlt), List.getElem?_eq_getElem hlt] at hp
      simp only [Option.map_some, List.getElem_range, Option.some.injEq] at hp
      subst hp
      refine ⟨reduced[r], List.getElem?_eq_getElem hlt, ?_, coordinates_length _ _, fun m => ⟨coordinates_fst _ _ m, coordinates_snd _ _ m⟩, ?_⟩
      · rw [Nat.mul_comm]
      · refine ⟨_, _, coordinates_fst R reduced[r] ⟨0, hd⟩, coordinates_second R reduced[r] hd, ?_⟩
        obtain ⟨s, hs⟩ := segment_some (planar R reduced[r] ⟨0, hd⟩).1
          (if h : 1 < d then (planar R reduced[r] ⟨1, h⟩).1 else (planar R reduced[r] ⟨0, hd⟩).2) hr
        have e0 := coordinates_fst R reduced[r] ⟨0, hd⟩
        have e1 := coordinates_second R reduced[r] hd
        simp only at e0
        show _ = some (f _)
        simp only [f, e0, e1, Option.getD_some, hs]
    · rw [List.getElem?_eq_none (by simpa using hlt)] at hp
      simp at hp

/-- C67: the stage delivers points exactly if the series has a dimension, the cluster a node and, unless there are no rows, the
circle a segment. In particular a series without columns is rejected by a panic even if it has no rows. -/
theorem C67_delivers_iff (R : Fin d → Matrix (Fin 3) (Fin 3) ℝ) (reduced : List (Fin d → Vec)) (n k i rate : Nat) :
    (∃ pts, applyRotation R reduced n k i rate = some pts) ↔ 0 < d ∧ 0 < k ∧ (0 < rate ∨ reduced = []) := by
  constructor
  · rintro ⟨pts, h⟩
    unfold applyRotation at h
    by_cases hd : d = 0
    · rw [if_pos hd] at h
      cases h
    rw [if_neg hd] at h
    by_cases hk : k = 0
    · simp [checkedDiv, hk] at h
    refine ⟨by omega, by omega, ?_⟩
    by_cases hr : rate = 0
    · right
      simp only [checkedDiv, hk, if_false, Option.bind_eq_bind, Option.bind_some] at h
      cases reduced with
      | nil => rfl
      | cons row rows =>
        exfalso
        have hn : newPoint (n / k * i) (coordinates R row) rate = none := by
          unfold newPoint SegmentId.pointSegment SegmentId.getSegmentId checkedMod
          simp only [hr, if_true]
          cases (coordinates R row)[0]? <;> cases (coordinates R row)[1]? <;> rfl
        rw [List.map_cons] at h
        unfold addPoints at h
        rw [hn] at h
        simp at h
    · left
      omega
  · rintro ⟨hd, hk, hr | rfl⟩
    · obtain ⟨pts, h, _⟩ := C67_points R reduced (n := n) (i := i) hd hk hr
      exact ⟨pts, h⟩
    · refine ⟨[], ?_⟩
      unfold applyRotation
      rw [if_neg (by omega)]
      simp only [checkedDiv, Nat.pos_iff_ne_zero.1 hk, if_false, Option.bind_eq_bind, Option.bind_some]
      rfl

/-- C67, one dimension: the segment of a point is that of the rotated curve. -/
theorem C67_segment_one {R : Fin 1 → Matrix (Fin 3) (Fin 3) ℝ} {reduced : List (Fin 1 → Vec)} {n k i rate : Nat} (hk : 0 < k)
    (hr : 0 < rate) {pts : List Point} (h : applyRotation R reduced n k i rate = some pts) {r : Nat} {p : Point} {row : Fin 1 → Vec}
    (hp : pts[r]? = some p) (hrow : reduced[r]? = some row) :
    SegmentId.pointSegment (planar R row 0).1 (planar R row 0).2 rate = some p.segment := by
  obtain ⟨pts', h1, _, h2⟩ := C67_points R reduced (n := n) (i := i) (by omega : 0 < 1) hk hr
  rw [h] at h1
  cases h1
  obtain ⟨row', h3, _, _, h4, x, y, h5, h6, h7⟩ := h2 r p hp
  rw [hrow] at h3
  cases h3
  obtain ⟨h8, h9⟩ := h4 0
  simp only [Fin.val_zero, add_zero] at h8 h9
  rw [h5] at h8
  rw [h6] at h9
  cases h8
  cases h9
  exact h7

/-- C67, at least two dimensions: the segment of a point is decided by the first coordinates of the first two dimensions; the
second coordinates have no influence. -/
theorem C67_segment_many (hd : 2 ≤ d) {R : Fin d → Matrix (Fin 3) (Fin 3) ℝ} {reduced : List (Fin d → Vec)} {n k i rate : Nat}
    (hk : 0 < k) (hr : 0 < rate) {pts : List Point} (h : applyRotation R reduced n k i rate = some pts) {r : Nat} {p : Point}
    {row : Fin d → Vec} (hp : pts[r]? = some p) (hrow : reduced[r]? = some row) :
    SegmentId.pointSegment (planar R row ⟨0, by omega⟩).1 (planar R row ⟨1, by omega⟩).1 rate = some p.segment := by
  obtain ⟨pts', h1, _, h2⟩ := C67_points R reduced (n := n) (i := i) (by omega : 0 < d) hk hr
  rw [h] at h1
  cases h1
  obtain ⟨row', h3, _, _, h4, x, y, h5, h6, h7⟩ := h2 r p hp
  rw [hrow] at h3
  cases h3
  have h8 := (h4 ⟨0, by omega⟩).1
  have h9 := (h4 ⟨1, by omega⟩).1
  simp only at h8 h9
  rw [h5] at h8
  rw [h6] at h9
  cases h8
  cases h9
  exact h7

/-- Two dimensions, node 1 of 2 of a series of 8 rows, 2 segments: the rows of the two points differ only in the second coordinates
and in the third dimension, and lie in the same segment. -/
example : ∃ p q : Point, applyRotation (d := 3) (fun _ => 1)
      [fun m => if m = 0 then ![0, -1, 0] else ![1, 0, 0], fun m => if m = 0 then ![0, 5, 0] else if m = 1 then ![1, 7, 0] else ![-3, 2, 0]]
      8 2 1 2 = some [p, q] ∧ p.id = 4 ∧ q.id = 5 ∧ p.segment = q.segment := by
  obtain ⟨pts, h1, h2, h3⟩ := C67_points (d := 3) (fun _ => 1)
    [fun m => if m = 0 then ![0, -1, 0] else ![1, 0, 0], fun m => if m = 0 then ![0, 5, 0] else if m = 1 then ![1, 7, 0] else ![-3, 2, 0]]
    (n := 8) (k := 2) (i := 1) (rate := 2) (by omega) (by omega) (by omega)
  match pts, h2 with
  | [p, q], _ =>
    refine ⟨p, q, h1, ?_, ?_, ?_⟩
    · obtain ⟨_, _, h, _⟩ := h3 0 p rfl
      exact h
    · obtain ⟨_, _, h, _⟩ := h3 1 q rfl
      exact h
    · have e1 := C67_segment_many (by omega) (by omega) (by omega) h1 (r := 0) (p := p) rfl rfl
      have e2 := C67_segment_many (by omega) (by omega) (by omega) h1 (r := 1) (p := q) rfl rfl
      simp [planar] at e1 e2
      rw [e1] at e2
      exact Option.some.inj e2

/-- With two segments, the points on the second axis. -/
theorem half_segments : SegmentId.pointSegment 0 1 2 = some 0 ∧ SegmentId.pointSegment 0 (-1) 2 = some 1 := by
  have hpi := Real.pi_pos
  constructor
  · refine (SegmentId.C25_polar (by norm_num) (by omega) 0).2 ⟨by omega, 1, Real.pi / 2, by norm_num, by simp, by simp, ?_, ?_⟩
    · simp; positivity
    · norm_num; linarith
  · refine (SegmentId.C25_polar (by norm_num) (by omega) 1).2
      ⟨by omega, 1, Real.pi + Real.pi / 2, by norm_num, ?_, ?_, ?_, ?_⟩
    · rw [add_comm, Real.cos_add_pi]; simp
    · rw [add_comm, Real.sin_add_pi]; simp
    · norm_num; linarith
    · norm_num; linarith

/-- C67: the segment of a point is that of the rotated curve of the first dimension exactly if there is only one dimension. -/
theorem C67_segment_exact (hd : 0 < d) :
    (∀ (R : Fin d → Matrix (Fin 3) (Fin 3) ℝ) (reduced : List (Fin d → Vec)) (n k i rate : Nat), 0 < k → 0 < rate →
      ∀ pts, applyRotation R reduced n k i rate = some pts → ∀ (r : Nat) (p : Point) (row : Fin d → Vec), pts[r]? = some p →
        reduced[r]? = some row →
        SegmentId.pointSegment (planar R row ⟨0, hd⟩).1 (planar R row ⟨0, hd⟩).2 rate = some p.segment) ↔ d = 1 := by
  constructor
  · intro h
    by_contra hd1
    have hd2 : 2 ≤ d := by omega
    let R : Fin d → Matrix (Fin 3) (Fin 3) ℝ := fun _ => 1
    let row : Fin d → Vec := fun m => if m.val = 0 then ![0, -1, 0] else ![1, 0, 0]
    obtain ⟨pts, h1, h2, _⟩ := C67_points R [row] (n := 1) (k := 1) (i := 0) (rate := 2) hd (by omega) (by omega)
    obtain ⟨p, hp⟩ : ∃ p, pts[0]? = some p := ⟨_, List.getElem?_eq_getElem (by rw [h2]; simp)⟩
    have h3 := C67_segment_many hd2 (by omega) (by omega) h1 (r := 0) hp rfl
    have h4 := h R [row] 1 1 0 2 (by omega) (by omega) pts h1 0 p row hp rfl
    have e0 : planar R row ⟨0, hd⟩ = (0, -1) := by simp [planar, R, row]
    have e1 : planar R row ⟨1, by omega⟩ = (1, 0) := by simp [planar, R, row]
    rw [e0, e1] at h3
    rw [e0] at h4
    rw [half_segments.1] at h3
    rw [half_segments.2] at h4
    rw [← h3] at h4
    simp at h4
  · rintro rfl R reduced n k i rate hk hr pts h r p row hp hrow
    exact C67_segment_one hk hr h hp hrow

/-- C67: the distances from the origin which the node estimation uses are those of the rotated curves of the dimensions. -/
theorem C67_distances (R : Fin d → Matrix (Fin 3) (Fin 3) ℝ) (row : Fin d → Vec) (x : Fin (d + d) → ℝ)
    (hx : ∀ j : Fin (d + d), (coordinates R row)[j.val]? = some (x j)) (m : Fin d) :
    Geometry.distances x m = Real.sqrt ((planar R row m).1 ^ 2 + (planar R row m).2 ^ 2) := by
  unfold Geometry.distances
  have h1 := hx (Fin.castAdd d m)
  have h2 := hx (Fin.natAdd d m)
  rw [Fin.val_castAdd, coordinates_fst] at h1
  rw [Fin.val_natAdd, coordinates_snd] at h2
  rw [← Option.some.inj h1, ← Option.some.inj h2]

end Points
end S2G
