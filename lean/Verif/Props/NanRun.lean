import Verif.Model.NanRun
import Verif.Props.Periodic

/-!
# C77: runs whose rotation is not defined
-/

namespace S2G
namespace Whole

open Pca Rotation Points Pipeline Edges SegState

variable {e w : Nat} {X : Type}

/-! ### Points -/

/-- Specification: the dimensions which decide about the segments. -/
def Decides {e : Nat} (m : Fin (e + 1)) : Prop := m.val ≤ 1

theorem coordinatesN_get {R : Fin (e + 1) → Option (Matrix (Fin 3) (Fin 3) ℝ)} {row : Fin (e + 1) → Vec} :
    (coordinatesN R row)[0]? = some ((R 0).map (fun M => (rotateRow M (row 0)).1)) ∧
    (coordinatesN R row)[1]? = some (if h : 1 ≤ e then (R ⟨1, by omega⟩).map (fun M => (rotateRow M (row ⟨1, by omega⟩)).1)
      else (R 0).map (fun M => (rotateRow M (row 0)).2)) := by
  unfold coordinatesN
  match e with
  | 0 => simp [List.finRange_succ]
  | e + 1 => simp [List.finRange_succ]

/-- If a matrix which decides is NaN, all points are in segment 0, also the mirrored ones. -/
theorem segmentN_nan {R : Fin (e + 1) → Option (Matrix (Fin 3) (Fin 3) ℝ)} {m : Fin (e + 1)} (hm : Decides m) (hR : R m = none) {rate : Nat}
    (hr : 0 < rate) (row : Fin (e + 1) → Vec) :
    segmentN rate (coordinatesN R row) = some 0 ∧ segmentN rate (mirrorN (coordinatesN R row)) = some 0 := by
  obtain ⟨h0, h1⟩ := coordinatesN_get (R := R) (row := row)
  have hz : checkedMod 0 rate = some 0 := by simp [checkedMod, hr.ne']
  have hcase : R 0 = none ∨ ∃ h : 1 ≤ e, R ⟨1, by omega⟩ = none := by
    obtain ⟨v, hv⟩ := m
    have hv1 : v ≤ 1 := hm
    rcases Nat.le_one_iff_eq_zero_or_eq_one.1 hv1 with rfl | rfl
    · exact .inl hR
    · exact .inr ⟨by omega, hR⟩
  cases hc : coordinatesN R row with
  | nil => rw [hc] at h0; cases h0
  | cons a l =>
    cases l with
    | nil => rw [hc] at h1; cases h1
    | cons b l =>
      rw [hc] at h0 h1
      have h0 := Option.some.inj h0
      have h1 := Option.some.inj h1
      have hab : a = none ∨ b = none := by
        rcases hcase with h | ⟨he, h⟩
        · left; rw [h0, h]; rfl
        · right; rw [h1, dif_pos he, h]; rfl
      unfold segmentN mirrorN
      rcases hab with rfl | rfl
      · exact ⟨hz, hz⟩
      · cases a <;> exact ⟨hz, hz⟩

theorem pointsN_all {rate : Nat} {cs : List (List (Option ℝ))} {s : Nat} (h : ∀ c ∈ cs, segmentN rate c = some s) :
    pointsN rate cs = some ((List.range cs.length).map (fun i => ⟨i, s⟩)) := by
  have : cs.mapM (segmentN rate) = some (List.replicate cs.length s) := by
    induction cs with
    | nil => rfl
    | cons c cs ih =>
      rw [List.mapM_cons, h c (by simp), ih (fun c hc => h c (by simp [hc]))]
      rfl
  unfold pointsN
  rw [this]
  simp only [Option.bind_eq_bind, Option.bind_some, List.length_replicate]
  congr 1
  apply List.ext_getElem
  · simp
  · intro i h1 h2
    simp

theorem CoordsN.length {lib : Lib w} {p : Parameters} {series : List (Fin (e + 1) → ℝ)} {R : Fin (e + 1) → Option (Matrix (Fin 3) (Fin 3) ℝ)}
    {cs : List (List (Option ℝ))} (h : CoordsN lib p series R cs) :
    cs.length = series.length - (p.patternLength - 1) ∧ 1 ≤ p.patternLength ∧ ∀ c ∈ cs, ∃ row, c = coordinatesN R row := by
  obtain ⟨lo, hi, ps, ref, comps, means, first, hmm, hw, href, hps, hpca, hfirst, hR, rfl⟩ := h
  obtain ⟨hN, rfl⟩ := build_some hw hps
  obtain ⟨hle, hw'⟩ := checkedSub_some hw
  refine ⟨by simp, by omega, fun c hc => ?_⟩
  obtain ⟨i, _, rfl⟩ := List.mem_map.1 hc
  exact ⟨_, rfl⟩

/-! ### Runs without steps -/

theorem vector_nil (q len : Nat) : vector [] q len = List.replicate len 0 := by
  unfold vector Scoring.carrySpec
  rw [List.length_map, List.length_range]
  apply List.ext_getElem
  · simp
  · intro i h1 h2
    rw [List.getElem_map, List.getElem_replicate]
    have : ∀ k, (((List.range len).map (rawOf [] q)).take k).reduceOption = [] := by
      intro k
      rw [List.reduceOption, List.filterMap_eq_nil_iff]
      intro a ha
      obtain ⟨j, _, rfl⟩ := List.mem_map.1 (List.mem_of_mem_take ha)
      rfl
    rw [this]
    rfl

theorem normalize_zeros {n : Nat} (hn : 0 < n) : Scoring.normalize (List.replicate n 0) = some (List.replicate n none) := by
  have := ((Scoring.C52_degenerate (List.replicate n 0)).2 (by simp; omega)).1 (by simp +contextual)
  rw [this]
  simp

theorem steps_const {f : Nat → Pt} {s : Nat} (hf : ∀ i, (f i).seg = s) (l : List Nat) : ∀ t ∈ steps (l.map f), t.crossesSegments = false := by
  intro t ht
  obtain ⟨h1, h2⟩ := SelfCorrection.mem_steps ht
  obtain ⟨i, _, hi⟩ := List.mem_map.1 h1
  obtain ⟨j, _, hj⟩ := List.mem_map.1 h2
  simp [Trans.crossesSegments, ← hi, ← hj, hf]

/-- A run on one node all of whose points lie in one segment delivers NaN at every position. -/
theorem C77_no_steps {clu : List X → Option (List Nat)} (hc : NodeEst.OneLabelEach clu) (coord : Inter → X) {mirror : Pt → Pt} {p : Parameters}
    (hp : p.WellFormed) (hn : p.nClusterNodes = 1) {len n s : Nat} (hs : s < p.rate)
    (hm : ∀ a, (mirror a).id = a.id ∧ (a.seg < p.rate → (mirror a).seg < p.rate)) (hlen : n ≤ len) (hq : 1 ≤ p.queryLength)
    (ht : 1 ≤ p.nThreads) (hsl : p.nThreads + p.queryLength ≤ n) :
    ∃ s0, localRun clu coord mirror p len ((List.range n).map (fun i => ⟨i, s⟩)) = some s0 ∧
      (∀ u, ParScore.Reachable s0 u → ∀ v ∈ delivered u, v = some (List.replicate (n - p.queryLength) none)) ∧
      ∃ u, ParScore.Reachable s0 u ∧ delivered u = [some (List.replicate (n - p.queryLength) none)] := by
  have hcross : ∀ t ∈ steps ((List.range n).map (fun i => (⟨i, s⟩ : Pt))), t.crossesSegments = false := steps_const (f := fun i => ⟨i, s⟩) (fun _ => rfl) _
  have hv : validSteps p.rate ((List.range n).map (fun i => (⟨i, s⟩ : Pt))) = [] := by
    unfold validSteps
    rw [List.filter_eq_nil_iff]
    intro t ht
    simp [Trans.isValid, hcross t ht]
  have hi : SelfCorrection.invalidSteps p.rate ((List.range n).map (fun i => (⟨i, s⟩ : Pt))) = [] := by
    unfold SelfCorrection.invalidSteps
    rw [List.filter_eq_nil_iff]
    intro t ht
    simp [hcross t ht]
  have heff : effective p mirror ((List.range n).map (fun i => (⟨i, s⟩ : Pt))) = (List.range n).map (fun i => ⟨i, s⟩) := by
    unfold effective
    rw [hv, hi, if_neg (by simp)]
  have htr : validSteps p.rate (effective p mirror ((List.range n).map (fun i => (⟨i, s⟩ : Pt)))) = [] := by rw [heff, hv]
  have hlenp : ((List.range n).map (fun i => (⟨i, s⟩ : Pt))).length = n := by simp
  obtain ⟨lab, _, s0, h1, h2⟩ := C64_run hc coord hp hn hm (len := len) (pts := (List.range n).map (fun i => (⟨i, s⟩ : Pt)))
    (by rw [List.map_map, hlenp]; simp [Function.comp_def]) (by simp +contextual [hs]) (by omega) hq ht (by omega)
    (by rw [htr]; simp [crossings]) (by rw [htr]; simp)
  rw [htr] at h2
  have hvec : Scoring.normalize (vector (pairs (walk p.rate lab [])) p.queryLength
      (((List.range n).map (fun i => (⟨i, s⟩ : Pt))).length - p.queryLength)) = some (List.replicate (n - p.queryLength) none) := by
    rw [hlenp]
    show Scoring.normalize (vector [] _ _) = _
    rw [vector_nil, normalize_zeros (by omega)]
  rw [hvec] at h2
  refine ⟨s0, h1, fun u hu v hv => ?_, exists_delivered (k := p.nThreads) (fun u hu => ⟨(h2 u hu).2.1, (h2 u hu).2.2⟩)⟩
  rcases (h2 u hu).1 with h | h <;> rw [h] at hv
  · cases hv
  · exact List.mem_singleton.1 hv

/-! ### Runs with NaN -/

theorem findN_spec {ms : List Pt} {s rate : Nat} (hs : s < rate) (h : ∀ x ∈ ms, x.seg = s) (a : Pt) :
    ((ms.find? (fun x => x.id = a.id)).getD a).id = a.id ∧ (a.seg < rate → ((ms.find? (fun x => x.id = a.id)).getD a).seg < rate) := by
  cases hf : ms.find? (fun x => x.id = a.id) with
  | none => exact ⟨rfl, id⟩
  | some x =>
    refine ⟨?_, fun _ => ?_⟩
    · simpa using List.find?_some hf
    · show x.seg < rate
      rw [h x (List.mem_of_find?_eq_some hf)]
      exact hs

/-- C77: if the rotation matrix of a dimension which decides about segments is NaN, then a run delivers exactly one vector, and it is NaN at every
position, whatever the other columns are. -/
theorem C77_nan {lib : Lib w} {clu : List X → Option (List Nat)} (hc : NodeEst.OneLabelEach clu) (coord : Inter → X) {p : Parameters}
    (hp : p.WellFormed) (hn : p.nClusterNodes = 1) (hq : 1 ≤ p.queryLength) (ht : 1 ≤ p.nThreads) {series : List (Fin (e + 1) → ℝ)}
    (hsl : p.nThreads + p.queryLength + p.patternLength ≤ series.length + 1) {R : Fin (e + 1) → Option (Matrix (Fin 3) (Fin 3) ℝ)}
    {m : Fin (e + 1)} (hm : Decides m) (hR : R m = none) (v : Option (List (Option ℚ))) :
    DeliversN lib clu coord p series R v ↔ (∃ cs, CoordsN lib p series R cs) ∧
      v = some (List.replicate (series.length - (p.patternLength - 1) - p.queryLength) none) := by
  have hr : 0 < p.rate := by have := hp.1; have := hp.2; omega
  have key : ∀ cs, CoordsN lib p series R cs → pointsN p.rate cs = some ((List.range (series.length - (p.patternLength - 1))).map (fun i => ⟨i, 0⟩)) ∧
      pointsN p.rate (cs.map mirrorN) = some ((List.range (series.length - (p.patternLength - 1))).map (fun i => ⟨i, 0⟩)) ∧ 1 ≤ p.patternLength := by
    intro cs hcs
    obtain ⟨hl, hpl, hrow⟩ := hcs.length
    rw [← hl]
    refine ⟨pointsN_all (fun c hc => ?_), ?_, hpl⟩
    · obtain ⟨row, rfl⟩ := hrow c hc
      exact (segmentN_nan hm hR hr row).1
    · have := pointsN_all (rate := p.rate) (cs := cs.map mirrorN) (s := 0) (fun c hc => by
        obtain ⟨c', hc', rfl⟩ := List.mem_map.1 hc
        obtain ⟨row, rfl⟩ := hrow c' hc'
        exact (segmentN_nan hm hR hr row).2)
      rw [this, List.length_map]
  constructor
  · rintro ⟨cs, pts, ms, s0, s, hcs, h1, h2, h3, h4, h5⟩
    obtain ⟨k1, k2, hpl⟩ := key cs hcs
    cases Option.some.inj (h1.symm.trans k1)
    cases Option.some.inj (h2.symm.trans k2)
    obtain ⟨s0', g1, g2, _⟩ := C77_no_steps hc coord (mirror := fun a => (((List.range (series.length - (p.patternLength - 1))).map
      (fun i => (⟨i, 0⟩ : Pt))).find? (fun x => x.id = a.id)).getD a) hp hn (len := series.length)
      (n := series.length - (p.patternLength - 1)) (s := 0) hr (findN_spec hr (by simp)) (by omega) hq ht (by omega)
    cases Option.some.inj (h3.symm.trans g1)
    exact ⟨⟨cs, hcs⟩, g2 s h4 v h5⟩
  · rintro ⟨⟨cs, hcs⟩, rfl⟩
    obtain ⟨k1, k2, hpl⟩ := key cs hcs
    obtain ⟨s0, g1, _, u, g3, g4⟩ := C77_no_steps hc coord (mirror := fun a => (((List.range (series.length - (p.patternLength - 1))).map
      (fun i => (⟨i, 0⟩ : Pt))).find? (fun x => x.id = a.id)).getD a) hp hn (len := series.length)
      (n := series.length - (p.patternLength - 1)) (s := 0) hr (findN_spec hr (by simp)) (by omega) hq ht (by omega)
    exact ⟨cs, _, _, s0, u, hcs, k1, k2, g1, g3, by rw [g4]; simp⟩

/-! ### When the rotation is not defined -/

/-- The first row of the reference data set, reduced. -/
theorem reference_reduced {p : Parameters} (hw : checkedSub p.patternLength p.latent = some (w + 1)) {lo hi : Fin (e + 1) → ℝ}
    {ref : List (List (Fin (e + 1) → ℝ))} (href : PhaseSpace.referenceDataset p lo hi = some ref) {first : List (Fin (e + 1) → ℝ)}
    (hfirst : ref.head? = some first) (m : Fin (e + 1)) : (fun j : Fin (w + 1) => first.getD j 0 m) = fun _ => (p.latent : ℝ) * lo m := by
  obtain ⟨ref', h1, h2⟩ := reference_some hw lo hi
  cases Option.some.inj (href.symm.trans h1)
  cases Option.some.inj (hfirst.symm.trans h2)
  funext j
  rw [getD_replicate_fin]

theorem pcaOf_means {lib : Lib w} (hqr : ∀ A, gram (lib.qr A) = gram A) {t : Nat} {data comps : List (Row (w + 1))} {means : Row (w + 1)}
    (h : PcaOf lib t data comps means) : data ≠ [] ∧ means = mean data := by
  obtain ⟨hne, x, vs, h1, h2, h3, h4⟩ := h
  exact ⟨hne, by rw [h4, (finalize_one hqr hne (h1.summarises hqr hne)).means]⟩

theorem mean_const {d : Nat} {data : List (Row d)} (hne : data ≠ []) {x : Row d} (h : ∀ y ∈ data, y = x) : mean data = x := by
  obtain ⟨n, rfl⟩ : ∃ n, data = List.replicate n x := ⟨data.length, List.eq_replicate_of_mem h⟩
  have hn : (n : ℝ) ≠ 0 := by
    intro h0
    have : n = 0 := by exact_mod_cast h0
    subst this
    exact hne rfl
  funext a
  simp only [mean, List.map_replicate, List.sum_replicate, List.length_replicate, nsmul_eq_mul]
  field_simp

theorem reduced_self (comps : List (Row (w + 1))) (x : Row (w + 1)) : reduced comps x x = 0 := by
  funext i
  unfold reduced reduceRow
  rw [List.getD_eq_getElem?_getD, List.getElem?_map]
  cases comps[i.val]? with
  | none => rfl
  | some v => simp

/-- C77 (constant columns): the rotation matrix of a column all of whose values are equal is NaN. -/
theorem C77_constant {lib : Lib w} (hqr : ∀ A, gram (lib.qr A) = gram A) {p : Parameters} {series : List (Fin (e + 1) → ℝ)}
    {R : Fin (e + 1) → Option (Matrix (Fin 3) (Fin 3) ℝ)} {cs : List (List (Option ℝ))} (h : CoordsN lib p series R cs) {m : Fin (e + 1)}
    {c : ℝ} (hc : ∀ x ∈ series, x m = c) : R m = none := by
  obtain ⟨lo, hi, ps, ref, comps, means, first, hmm, hw, href, hps, hpca, hfirst, hR, rfl⟩ := h
  obtain ⟨hN, rfl⟩ := build_some hw hps
  obtain ⟨hle, hw'⟩ := checkedSub_some hw
  obtain ⟨hne, hmean⟩ := pcaOf_means hqr (hpca m)
  have hlo : lo m = c := by
    have h1 := (hmm m).1
    unfold columnMin at h1
    obtain ⟨hmem, _⟩ := (Cluster.colMin_iff _ _).1 h1
    obtain ⟨x, hx, hxm⟩ := List.mem_map.1 hmem
    rw [← hxm]
    exact hc x hx
  have hwin : ∀ y ∈ column (w := w) ((List.range (series.length - (p.patternLength - 1))).map (PhaseSpace.specPoint p series)) m,
      y = fun _ => (p.latent : ℝ) * c := by
    intro y hy
    unfold column at hy
    rw [List.map_map] at hy
    obtain ⟨i, hi', rfl⟩ := List.mem_map.1 hy
    rw [List.mem_range] at hi'
    funext j
    have hj := j.2
    show ((PhaseSpace.specPoint p series i).getD j 0) m = _
    unfold PhaseSpace.specPoint
    rw [List.getD_eq_getElem _ _ (by simp; omega), List.getElem_map, List.getElem_range, Finset.sum_apply]
    rw [Finset.sum_congr rfl (g := fun _ => c)]
    · simp
    · intro t ht
      rw [Finset.mem_range] at ht
      unfold PhaseSpace.series
      rw [List.getD_eq_getElem _ _ (by omega)]
      exact hc _ (List.getElem_mem _)
  rw [hR m, reference_reduced hw href hfirst m, hmean, mean_const hne hwin, hlo, reduced_self, C24_nan_iff]
  exact ⟨rfl, rfl⟩

/-- C77 (latent 0, which the command line accepts): the rotation matrices are NaN. -/
theorem C77_latent_zero {lib : Lib w} (hqr : ∀ A, gram (lib.qr A) = gram A) {p : Parameters} (hL : p.latent = 0) {series : List (Fin (e + 1) → ℝ)}
    {R : Fin (e + 1) → Option (Matrix (Fin 3) (Fin 3) ℝ)} {cs : List (List (Option ℝ))} (h : CoordsN lib p series R cs) (m : Fin (e + 1)) :
    R m = none := by
  obtain ⟨lo, hi, ps, ref, comps, means, first, hmm, hw, href, hps, hpca, hfirst, hR, rfl⟩ := h
  obtain ⟨hN, rfl⟩ := build_some hw hps
  obtain ⟨hle, hw'⟩ := checkedSub_some hw
  obtain ⟨hne, hmean⟩ := pcaOf_means hqr (hpca m)
  have hwin : ∀ y ∈ column (w := w) ((List.range (series.length - (p.patternLength - 1))).map (PhaseSpace.specPoint p series)) m,
      y = fun _ => 0 := by
    intro y hy
    unfold column at hy
    rw [List.map_map] at hy
    obtain ⟨i, hi', rfl⟩ := List.mem_map.1 hy
    funext j
    have hj := j.2
    show ((PhaseSpace.specPoint p series i).getD j 0) m = _
    unfold PhaseSpace.specPoint
    rw [List.getD_eq_getElem _ _ (by simp; omega), List.getElem_map, Finset.sum_eq_zero]
    · rfl
    · intro t ht
      rw [hL] at ht
      simp at ht
  rw [hR m, reference_reduced hw href hfirst m, hmean, mean_const hne hwin, hL]
  simp only [Nat.cast_zero, zero_mul]
  rw [reduced_self, C24_nan_iff]
  exact ⟨rfl, rfl⟩

theorem coordinatesN_some {d : Nat} {R : Fin d → Option (Matrix (Fin 3) (Fin 3) ℝ)} {M : Fin d → Matrix (Fin 3) (Fin 3) ℝ}
    (h : ∀ m, R m = some (M m)) (row : Fin d → Vec) : coordinatesN R row = (coordinates M row).map some := by
  unfold coordinatesN coordinates
  simp only [List.flatMap_cons, List.flatMap_nil, List.append_nil, List.map_append, List.map_map]
  congr 1 <;> exact List.map_congr_left (fun m _ => by rw [h m]; rfl)

theorem segmentN_some (i rate : Nat) (c : List ℝ) : segmentN rate (c.map some) = (newPoint i c rate).map Point.segment := by
  unfold segmentN newPoint
  rw [List.getElem?_map, List.getElem?_map]
  cases c[0]? with
  | none => rfl
  | some x =>
    cases c[1]? with
    | none => rfl
    | some y =>
      simp only [Option.map_some, Option.bind_eq_bind, Option.bind_some]
      cases SegmentId.pointSegment x y rate <;> rfl

theorem newPoint_id {i r : Nat} {c : List ℝ} {x : Point} (h : newPoint i c r = some x) : x.id = i := by
  simp only [newPoint, Option.bind_eq_bind, Option.bind_eq_some_iff] at h
  obtain ⟨a, ha, b, hb, s, hs, h⟩ := h
  cases h
  rfl

theorem addPoints_segments (rate : Nat) : ∀ (cs : List (List ℝ)) (o : Nat),
    ((cs.map (List.map some)).mapM (segmentN rate)).map (fun segs => List.zipWith Pt.mk (List.range' o segs.length) segs) =
      (addPoints o rate cs).map (List.map toPt) := by
  intro cs
  induction cs with
  | nil => intro o; rfl
  | cons c cs ih =>
    intro o
    rw [List.map_cons, List.mapM_cons, segmentN_some o, addPoints]
    cases hn : newPoint o c rate with
    | none => rfl
    | some x =>
      have := ih (o + 1)
      simp only [Option.map_some, Option.bind_eq_bind, Option.bind_some, Option.pure_def]
      cases ha : addPoints (o + 1) rate cs with
      | none =>
        rw [ha, Option.map_none, Option.map_eq_none_iff] at this
        rw [this]
        rfl
      | some q =>
        rw [ha, Option.map_some] at this
        obtain ⟨segs, h1, h2⟩ := Option.map_eq_some_iff.1 this
        rw [h1]
        simp only [Option.bind_some, Option.map_some, List.length_cons, List.range'_succ, List.zipWith_cons_cons, List.map_cons]
        rw [h2]
        congr 2
        rw [← newPoint_id hn]
        rfl

theorem pointsN_some (rate : Nat) (cs : List (List ℝ)) : pointsN rate (cs.map (List.map some)) = (addPoints 0 rate cs).map (List.map toPt) := by
  rw [← addPoints_segments]
  unfold pointsN
  cases (cs.map (List.map some)).mapM (segmentN rate) with
  | none => rfl
  | some segs => simp [List.range_eq_range']

/-- C77 (agreement): if no matrix is NaN, the points are those of C72. -/
theorem C77_agrees {lib : Lib w} {p : Parameters} {series : List (Fin (e + 1) → ℝ)} (pts : List Pt) :
    (∃ q, PointsOf lib p series q ∧ q.map toPt = pts) ↔
      ∃ R cs, CoordsN lib p series R cs ∧ (∀ m, R m ≠ none) ∧ pointsN p.rate cs = some pts := by
  have happly : ∀ (M : Fin (e + 1) → Matrix (Fin 3) (Fin 3) ℝ) rows, applyRotation M rows series.length 1 0 p.rate =
      addPoints 0 p.rate (rows.map (coordinates M)) := by
    intro M rows
    unfold applyRotation
    rw [if_neg (by omega)]
    simp [checkedDiv]
  constructor
  · rintro ⟨q, ⟨lo, hi, ps, ref, comps, means, first, M, hmm, hw, href, hps, hpca, hfirst, hM, hpts⟩, rfl⟩
    refine ⟨fun m => some (M m), _, ⟨lo, hi, ps, ref, comps, means, first, hmm, hw, href, hps, hpca, hfirst, fun m => (hM m).symm, rfl⟩,
      fun m => by simp, ?_⟩
    rw [happly] at hpts
    have := pointsN_some p.rate (((List.range ps.length).map (fun i m => reduced (comps m) (means m) ((column ps m).getD i 0))).map (coordinates M))
    rw [hpts, List.map_map, List.map_map] at this
    rw [← Option.map_some, ← this]
    congr 1
    exact List.map_congr_left (fun i _ => coordinatesN_some (fun _ => rfl) _)
  · rintro ⟨R, cs, ⟨lo, hi, ps, ref, comps, means, first, hmm, hw, href, hps, hpca, hfirst, hR, rfl⟩, hne, hpts⟩
    choose M hM using fun m => Option.ne_none_iff_exists'.1 (hne m)
    have h1 : (List.range ps.length).map (fun i => coordinatesN R (fun m => reduced (comps m) (means m) ((column ps m).getD i 0))) =
        (((List.range ps.length).map (fun i m => reduced (comps m) (means m) ((column ps m).getD i 0))).map (coordinates M)).map (List.map some) := by
      rw [List.map_map, List.map_map]
      exact List.map_congr_left (fun i _ => coordinatesN_some hM _)
    rw [h1, pointsN_some, ← happly] at hpts
    obtain ⟨q, hq, rfl⟩ := Option.map_eq_some_iff.1 hpts
    exact ⟨q, ⟨lo, hi, ps, ref, comps, means, first, M, hmm, hw, href, hps, hpca, hfirst, fun m => by rw [← hR m, hM m], hq⟩, rfl⟩

/-! ### Whole runs -/

/-- Specification: every dimension has principal components. -/
def HasPca (lib : Lib w) (p : Parameters) (series : List (Fin (e + 1) → ℝ)) : Prop :=
  ∀ m, ∃ comps means, PcaOf lib p.nThreads (windows w p series m) comps means

/-- The training reaches the rotation, whatever happens there. -/
theorem C77_reaches {lib : Lib w} {p : Parameters} (hw : checkedSub p.patternLength p.latent = some (w + 1)) {series : List (Fin (e + 1) → ℝ)} :
    (∃ R cs, CoordsN lib p series R cs) ↔ HasPca lib p series := by
  constructor
  · rintro ⟨R, cs, lo, hi, ps, ref, comps, means, first, hmm, hw, href, hps, hpca, hfirst, hR, rfl⟩ m
    obtain ⟨hN, rfl⟩ := build_some hw hps
    exact ⟨_, _, hpca m⟩
  · intro h
    obtain ⟨hle, hw'⟩ := checkedSub_some hw
    choose comps means hpca using h
    have hlen : p.patternLength - 1 < series.length := by
      have h0 := (hpca 0).1
      unfold windows column at h0
      by_contra hlt
      rw [show series.length - (p.patternLength - 1) = 0 by omega] at h0
      exact h0 rfl
    have hne : series ≠ [] := fun h => by rw [h] at hlen; simp at hlen
    have hmin : ∀ m, ∃ b, columnMin series m = some b := fun m => by
      obtain ⟨x, xs, rfl⟩ := List.exists_cons_of_ne_nil hne
      exact ⟨_, rfl⟩
    choose lo hlo using hmin
    choose hi hhi using columnMax_some hne
    obtain ⟨ref, h1, h2⟩ := reference_some hw lo hi
    have hb := PhaseSpace.C14_windowed_sums p series (by omega) (by omega)
    exact ⟨_, _, lo, hi, _, ref, comps, means, _, fun m => ⟨hlo m, hhi m⟩, hw, h1, hb, hpca, h2, fun _ => rfl, rfl⟩

theorem reduced_normalize (v : List (Row (w + 1))) (means x : Row (w + 1)) (i : Fin 3) :
    reduced (Pca.normalize v) means x i = 0 ↔ ∀ c, v[i.val]? = some c → ∑ a, (x a - means a) * c a = 0 := by
  unfold reduced reduceRow Pca.normalize
  rw [List.getD_eq_getElem?_getD, List.getElem?_map, List.getElem?_map]
  cases v[i.val]? with
  | none => simp
  | some c =>
    simp only [Option.map_some, Option.getD_some, Option.some.injEq, forall_eq', ← List.ofFn_eq_map, List.sum_ofFn]
    rcases (normalizeRow_sign c).1 with h | h <;> rw [h]
    simp [Finset.sum_neg_distrib]

/-- C77 (exact condition): the matrix of a dimension is NaN exactly if the smallest window (the window whose values are all the minimum of the
column) minus the mean window is orthogonal to the first two principal components. -/
theorem C77_matrix {lib : Lib w} (hqr : ∀ A, gram (lib.qr A) = gram A) {p : Parameters} {series : List (Fin (e + 1) → ℝ)}
    (hs : ∀ m, Settled lib (windows w p series m)) {R : Fin (e + 1) → Option (Matrix (Fin 3) (Fin 3) ℝ)} {cs : List (List (Option ℝ))}
    (h : CoordsN lib p series R cs) (m : Fin (e + 1)) : ∃ lo v, (lo ∈ series.map (· m) ∧ ∀ x ∈ series, lo ≤ x m) ∧
      lib.svd ((windows w p series m).map (fun x => x - mean (windows w p series m))) = some v ∧
      (R m = none ↔ ∀ i < 2, ∀ c, v[i]? = some c →
        ∑ a, ((p.latent : ℝ) * lo - mean (windows w p series m) a) * c a = 0) := by
  obtain ⟨lo, hi, ps, ref, comps, means, first, hmm, hw, href, hps, hpca, hfirst, hR, rfl⟩ := h
  obtain ⟨hN, rfl⟩ := build_some hw hps
  obtain ⟨_, _, hme, hsvd⟩ := (pcaOf_iff hqr (hs m)).1 (hpca m)
  obtain ⟨v, hv, hcomps⟩ := Option.map_eq_some_iff.1 hsvd
  obtain ⟨h1, h2⟩ := (Cluster.colMin_iff _ _).1 (hmm m).1
  refine ⟨lo m, v, ⟨h1, fun x hx => h2 _ (List.mem_map_of_mem hx)⟩, hv, ?_⟩
  rw [hR m, reference_reduced hw href hfirst m, C24_nan_iff, hme, ← hcomps]
  have h0 := fun i : Fin 3 => reduced_normalize v (mean (windows w p series m)) (fun _ => (p.latent : ℝ) * lo m) i
  constructor
  · rintro ⟨g0, g1⟩ i hi'
    have : i = 0 ∨ i = 1 := by omega
    rcases this with rfl | rfl
    · exact (h0 0).1 g0
    · exact (h0 1).1 g1
  · intro g
    exact ⟨(h0 0).2 (g 0 (by omega)), (h0 1).2 (g 1 (by omega))⟩

/-- C77 (whole runs): if a column which decides is constant, a run which reaches the rotation delivers exactly one vector, NaN everywhere. -/
theorem C77_constant_run {lib : Lib w} (hqr : ∀ A, gram (lib.qr A) = gram A) {clu : List X → Option (List Nat)} (hc : NodeEst.OneLabelEach clu)
    (coord : Inter → X) {p : Parameters} (hp : p.WellFormed) (hw : checkedSub p.patternLength p.latent = some (w + 1))
    (hn : p.nClusterNodes = 1) (hq : 1 ≤ p.queryLength) (ht : 1 ≤ p.nThreads) {series : List (Fin (e + 1) → ℝ)}
    (hsl : p.nThreads + p.queryLength + p.patternLength ≤ series.length + 1)
    (h : p.latent = 0 ∨ ∃ (m : Fin (e + 1)) (c : ℝ), Decides m ∧ ∀ x ∈ series, x m = c) (v : Option (List (Option ℚ))) :
    (∃ R, DeliversN lib clu coord p series R v) ↔
      HasPca lib p series ∧ v = some (List.replicate (series.length - (p.patternLength - 1) - p.queryLength) none) := by
  have key : ∀ R cs, CoordsN lib p series R cs → ∃ m, Decides m ∧ R m = none := by
    intro R cs hcs
    rcases h with hL | ⟨m, c, hm, hcc⟩
    · exact ⟨0, Nat.zero_le _, C77_latent_zero hqr hL hcs 0⟩
    · exact ⟨m, hm, C77_constant hqr hcs hcc⟩
  rw [← C77_reaches hw]
  constructor
  · rintro ⟨R, hR⟩
    obtain ⟨cs, pts, ms, s0, s, hcs, hrest⟩ := hR
    obtain ⟨m, hm, hmR⟩ := key R cs hcs
    have := (C77_nan hc coord hp hn hq ht hsl hm hmR v).1 ⟨cs, pts, ms, s0, s, hcs, hrest⟩
    exact ⟨⟨R, this.1⟩, this.2⟩
  · rintro ⟨⟨R, cs, hcs⟩, rfl⟩
    obtain ⟨m, hm, hmR⟩ := key R cs hcs
    exact ⟨R, (C77_nan hc coord hp hn hq ht hsl hm hmR _).2 ⟨⟨cs, hcs⟩, rfl⟩⟩

end Whole
end S2G
