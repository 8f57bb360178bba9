import Verif.Model.Missing
import Verif.Props.NanRun

/-!
# C91: one missing value makes all scores NaN
-/

namespace S2G
namespace Missing

open Whole Pipeline Edges SegState

variable {d e w : Nat} {X : Type}

/-! ### NaN is absorbing -/

theorem sum_nan : ∀ {l : List Fl}, ⊤ ∈ l → l.sum = ⊤
  | x :: l, h => by
    rw [List.sum_cons]
    rcases List.mem_cons.1 h with h | h
    · rw [← h, WithTop.top_add]
    · rw [sum_nan h, WithTop.add_top]

theorem mul_nan (x : Fl) : mul ⊤ x = ⊤ ∧ mul x ⊤ = ⊤ := by
  cases x <;> exact ⟨rfl, rfl⟩

theorem sub_nan (x : Fl) : sub x ⊤ = ⊤ := by
  cases x <;> rfl

theorem colMeans_nan {data : List (Row d)} {x : Row d} (hx : x ∈ data) {a : Fin d} (h : x a = ⊤) : colMeans data a = ⊤ := by
  unfold colMeans
  rw [sum_nan (List.mem_map.2 ⟨x, hx, h⟩)]
  rfl

theorem globalMeans_nan {ms : List (Row d × ℝ)} {x : Row d × ℝ} (hx : x ∈ ms) {a : Fin d} (h : x.1 a = ⊤) : globalMeans ms a = ⊤ := by
  unfold globalMeans
  rw [sum_nan (List.mem_map.2 ⟨x, hx, by rw [h]; exact (mul_nan _).2⟩)]
  rfl

theorem reduced_nan {means : Row d} {a : Fin d} (h : means a = ⊤) (comps : Fin 3 → Row d) (x : Row d) (i : Fin 3) : reduced comps means x i = ⊤ :=
  sum_nan (List.mem_map.2 ⟨a, List.mem_finRange a, by rw [h, sub_nan]; exact (mul_nan _).1⟩)

theorem rotate_nan {x : Fin 3 → Fl} (h : ∀ i, x i = ⊤) (R : Fin 3 → Fin 3 → Fl) (c : Fin 3) : rotate R x c = ⊤ :=
  sum_nan (List.mem_map.2 ⟨0, List.mem_finRange _, by rw [h]; exact (mul_nan _).1⟩)

/-! ### The mean window -/

/-- If an entry of a window is NaN, the entry of the mean window is, however the rows were divided among threads. -/
theorem summarised_nan {lib : Lib w} {t : Nat} {data : List (Row (w + 1))} {y : Row (w + 1)} (hy : y ∈ data) {a : Fin (w + 1)} (h : y a = ⊤)
    {x : Summary (w + 1)} (hx : Summarised lib t data x) : x.means a = ⊤ := by
  unfold Summarised at hx
  split at hx
  · rw [hx]
    exact colMeans_nan hy h
  · obtain ⟨chunks, s, f, hc, hl, hr, hf, rfl⟩ := hx
    obtain ⟨c', h1, h2, _⟩ := C21_chunks (t := t) (by omega) (List.ne_nil_of_mem hy)
    rw [hc] at h1
    cases h1
    rw [← h2] at hy
    obtain ⟨c, hc1, hc2⟩ := List.mem_flatten.1 hy
    obtain ⟨i, hi, rfl⟩ := List.getElem_of_mem hc1
    have hp := ((HNet.C23_threads (g := fun _ => (0 : Nat)) (by omega) (fun _ _ => rfl) hr).2 f hf).2
    refine globalMeans_nan (x := ((localStep lib.qr (chunks.getD i [])).means, (localStep lib.qr (chunks.getD i [])).n))
      (List.mem_map.2 ⟨i, hp.mem_iff.2 (List.mem_range.2 (by omega)), rfl⟩) ?_
    rw [List.getD_eq_getElem _ _ hi]
    exact colMeans_nan hc2 h

theorem pca_nan {lib : Lib w} {t : Nat} {data : List (Row (w + 1))} {y : Row (w + 1)} (hy : y ∈ data) {a : Fin (w + 1)} (h : y a = ⊤)
    {comps : Fin 3 → Row (w + 1)} {means : Row (w + 1)} (hp : PcaOf lib t data comps means) : means a = ⊤ := by
  obtain ⟨_, x, vs, h1, _, _, rfl⟩ := hp
  exact globalMeans_nan (List.mem_singleton.2 rfl) (summarised_nan hy h h1)

/-! ### The windows -/

theorem build_some {p : Parameters} (hw : checkedSub p.patternLength p.latent = some (w + 1)) {series : List (Fin (e + 1) → Fl)}
    {ps : List (List (Fin (e + 1) → Fl))} (h : PhaseSpace.build p series = some ps) :
    p.patternLength - 1 ≤ series.length ∧
      ps = (List.range (series.length - (p.patternLength - 1))).map (PhaseSpace.specPoint p series) := by
  obtain ⟨hle, hw'⟩ := checkedSub_some hw
  by_cases hN : p.patternLength - 1 ≤ series.length
  · refine ⟨hN, ?_⟩
    rw [PhaseSpace.C14_windowed_sums p series (by omega) hN] at h
    exact (Option.some.inj h).symm
  · rw [PhaseSpace.C14_crash p series (.inl (by omega))] at h
    cases h

/-- Every row but the last is in some window. -/
theorem window_nan {p : Parameters} (hw : checkedSub p.patternLength p.latent = some (w + 1)) (hL : 1 ≤ p.latent) {series : List (Fin (e + 1) → Fl)}
    (hN : p.patternLength ≤ series.length) {r : Nat} (hr : r + 1 < series.length) {x : Fin (e + 1) → Fl} (hx : series[r]? = some x)
    {m : Fin (e + 1)} (h : x m = ⊤) :
    ∃ y ∈ column (w := w) ((List.range (series.length - (p.patternLength - 1))).map (PhaseSpace.specPoint p series)) m, ∃ a, y a = ⊤ := by
  obtain ⟨hle, hw'⟩ := checkedSub_some hw
  obtain ⟨i, j, t, hi, hj, ht, hr'⟩ : ∃ i j t, i < series.length - (p.patternLength - 1) ∧ j < w + 1 ∧ t < p.latent ∧ r = i + j + t := by
    by_cases h1 : r < series.length - (p.patternLength - 1)
    · exact ⟨r, 0, 0, h1, by omega, by omega, by omega⟩
    · by_cases h2 : r - (series.length - p.patternLength) < w + 1
      · exact ⟨series.length - p.patternLength, r - (series.length - p.patternLength), 0, by omega, h2, by omega, by omega⟩
      · exact ⟨series.length - p.patternLength, w, r - (series.length - p.patternLength) - w, by omega, by omega, by omega, by omega⟩
  refine ⟨_, List.mem_map.2 ⟨_, List.mem_map.2 ⟨i, List.mem_range.2 hi, rfl⟩, rfl⟩, ⟨j, hj⟩, ?_⟩
  show ((PhaseSpace.specPoint p series i).getD j 0) m = ⊤
  unfold PhaseSpace.specPoint
  rw [List.getD_eq_getElem _ _ (by simp; omega), List.getElem_map, List.getElem_range, Finset.sum_apply]
  refine WithTop.sum_eq_top.2 ⟨t, Finset.mem_range.2 ht, ?_⟩
  unfold PhaseSpace.series
  rw [List.getD_eq_getElem?_getD, ← hr', hx]
  exact h

/-! ### Points and scores -/

theorem coordinates_get {R : Fin (e + 1) → Fin 3 → Fin 3 → Fl} {row : Fin (e + 1) → Fin 3 → Fl} :
    (coordinates R row)[0]? = some (rotate (R 0) (row 0) 0) ∧
    (coordinates R row)[1]? = some (if h : 1 ≤ e then rotate (R ⟨1, by omega⟩) (row ⟨1, by omega⟩) 0 else rotate (R 0) (row 0) 1) := by
  unfold coordinates
  match e with
  | 0 =>
    simp [List.finRange_succ]
    exact ⟨rfl, rfl⟩
  | e + 1 =>
    simp [List.finRange_succ]
    exact ⟨rfl, rfl⟩

theorem segment_nan {R : Fin (e + 1) → Fin 3 → Fin 3 → Fl} {row : Fin (e + 1) → Fin 3 → Fl} {m : Fin (e + 1)} (hm : Decides m)
    (h : ∀ i, row m i = ⊤) {rate : Nat} (hr : 0 < rate) :
    segmentN rate (coordinates R row) = some 0 ∧ segmentN rate (mirrorN (coordinates R row)) = some 0 := by
  obtain ⟨h0, h1⟩ := coordinates_get (R := R) (row := row)
  have hz : checkedMod 0 rate = some 0 := by simp [checkedMod, hr.ne']
  have hcase : (∀ i, row 0 i = ⊤) ∨ ∃ h : 1 ≤ e, ∀ i, row ⟨1, by omega⟩ i = ⊤ := by
    obtain ⟨v, hv⟩ := m
    have hv1 : v ≤ 1 := hm
    rcases Nat.le_one_iff_eq_zero_or_eq_one.1 hv1 with rfl | rfl
    · exact .inl h
    · exact .inr ⟨by omega, h⟩
  cases hc : coordinates R row with
  | nil => rw [hc] at h0; cases h0
  | cons a l =>
    cases l with
    | nil => rw [hc] at h1; cases h1
    | cons b l =>
      rw [hc] at h0 h1
      have h0 := Option.some.inj h0
      have h1 := Option.some.inj h1
      have hab : a = none ∨ b = none := by
        rcases hcase with h | ⟨he, h⟩
        · left; rw [h0]; exact rotate_nan h _ _
        · right; rw [h1, dif_pos he]; exact rotate_nan h _ _
      unfold segmentN mirrorN
      rcases hab with rfl | rfl
      · exact ⟨hz, hz⟩
      · cases a <;> exact ⟨hz, hz⟩

/-- C91: one missing value in one of the first two columns of a row which is not the last one. The run delivers exactly one vector, and it
is NaN at every position, whatever the linear algebra library makes of the numbers, unless the library fails; then nothing is delivered. -/
theorem C91_missing {lib : Lib w} {clu : List X → Option (List Nat)} (hc : NodeEst.OneLabelEach clu) (coord : Inter → X) {p : Parameters}
    (hp : p.WellFormed) (hn : p.nClusterNodes = 1) (hq : 1 ≤ p.queryLength) (ht : 1 ≤ p.nThreads) (hL : 1 ≤ p.latent)
    {series : List (Fin (e + 1) → Fl)} (hsl : p.nThreads + p.queryLength + p.patternLength ≤ series.length + 1)
    {r : Nat} (hr : r + 1 < series.length) {x : Fin (e + 1) → Fl} (hx : series[r]? = some x) {m : Fin (e + 1)} (hm : Decides m) (hxm : x m = ⊤)
    (R : Fin (e + 1) → Fin 3 → Fin 3 → Fl) (v : Option (List (Option ℚ))) :
    Delivers lib clu coord p series R v ↔ (∃ cs, Coords lib p series R cs) ∧
      v = some (List.replicate (series.length - (p.patternLength - 1) - p.queryLength) none) := by
  have hr0 : 0 < p.rate := by have := hp.1; have := hp.2; omega
  have key : ∀ cs, Coords lib p series R cs → pointsN p.rate cs = some ((List.range (series.length - (p.patternLength - 1))).map (fun i => ⟨i, 0⟩)) ∧
      pointsN p.rate (cs.map mirrorN) = some ((List.range (series.length - (p.patternLength - 1))).map (fun i => ⟨i, 0⟩)) ∧ 1 ≤ p.patternLength := by
    rintro cs ⟨ps, comps, means, hw, hps, hpca, rfl⟩
    obtain ⟨hN, rfl⟩ := build_some hw hps
    obtain ⟨hle, hw'⟩ := checkedSub_some hw
    obtain ⟨y, hy, a, hya⟩ := window_nan hw hL (by omega) hr hx hxm
    have hmean := pca_nan hy hya (hpca m)
    have hseg := fun (row : Fin (e + 1) → Row (w + 1)) => segment_nan (R := R) (row := fun m => reduced (comps m) (means m) (row m)) hm
      (fun i => reduced_nan hmean _ _ i) hr0
    have hl : ((List.range ((List.range (series.length - (p.patternLength - 1))).map (PhaseSpace.specPoint p series)).length).map
        (fun i => coordinates R (fun m => reduced (comps m) (means m)
          ((column ((List.range (series.length - (p.patternLength - 1))).map (PhaseSpace.specPoint p series)) m).getD i 0)))).length =
        series.length - (p.patternLength - 1) := by simp
    refine ⟨?_, ?_, by omega⟩
    · rw [pointsN_all (s := 0), hl]
      intro c hc
      obtain ⟨i, _, rfl⟩ := List.mem_map.1 hc
      exact (hseg _).1
    · rw [pointsN_all (s := 0), List.length_map, hl]
      intro c hc
      obtain ⟨c', hc', rfl⟩ := List.mem_map.1 hc
      obtain ⟨i, _, rfl⟩ := List.mem_map.1 hc'
      exact (hseg _).2
  have hrun := fun (hpl : 1 ≤ p.patternLength) => C77_no_steps hc coord (mirror := fun a => (((List.range (series.length - (p.patternLength - 1))).map
      (fun i => (⟨i, 0⟩ : Pt))).find? (fun x => x.id = a.id)).getD a) hp hn (len := series.length)
      (n := series.length - (p.patternLength - 1)) (s := 0) hr0 (findN_spec hr0 (by simp)) (by omega) hq ht (by omega)
  constructor
  · rintro ⟨cs, pts, ms, s0, s, hcs, h1, h2, h3, h4, h5⟩
    obtain ⟨k1, k2, hpl⟩ := key cs hcs
    cases Option.some.inj (h1.symm.trans k1)
    cases Option.some.inj (h2.symm.trans k2)
    obtain ⟨s0', g1, g2, _⟩ := hrun hpl
    cases Option.some.inj (h3.symm.trans g1)
    exact ⟨⟨cs, hcs⟩, g2 s h4 v h5⟩
  · rintro ⟨⟨cs, hcs⟩, rfl⟩
    obtain ⟨k1, k2, hpl⟩ := key cs hcs
    obtain ⟨s0, g1, _, u, g3, g4⟩ := hrun hpl
    exact ⟨cs, _, _, s0, u, hcs, k1, k2, g1, g3, by rw [g4]; simp⟩

/-! ### Where nothing is missing, and where it does not matter -/

/-- C91 (last row): a missing value in the last row is not noticed, whatever the other columns of that row are. -/
theorem C91_last_row {lib : Lib w} {p : Parameters} (hl : p.latent < p.patternLength)
    {rows : List (Fin (e + 1) → Fl)} (hN : p.patternLength - 1 ≤ rows.length + 1) (x y : Fin (e + 1) → Fl)
    (R : Fin (e + 1) → Fin 3 → Fin 3 → Fl) (cs : List (List (Option ℝ))) : Coords lib p (rows ++ [x]) R cs ↔ Coords lib p (rows ++ [y]) R cs := by
  unfold Coords
  rw [PhaseSpace.C58_last_row_ignored p rows x y hl hN]

theorem segment_congr {R R' : Fin (e + 1) → Fin 3 → Fin 3 → Fl} {row row' : Fin (e + 1) → Fin 3 → Fl} (hR : ∀ m, Decides m → R m = R' m)
    (h : ∀ m, Decides m → row m = row' m) (rate : Nat) : segmentN rate (coordinates R row) = segmentN rate (coordinates R' row') := by
  obtain ⟨h0, h1⟩ := coordinates_get (R := R) (row := row)
  obtain ⟨h0', h1'⟩ := coordinates_get (R := R') (row := row')
  have k0 : (coordinates R row)[0]? = (coordinates R' row')[0]? := by
    refine (h0.trans ?_).trans h0'.symm
    rw [hR 0 (Nat.zero_le _), h 0 (Nat.zero_le _)]
  have k1 : (coordinates R row)[1]? = (coordinates R' row')[1]? := by
    refine (h1.trans ?_).trans h1'.symm
    by_cases he : 1 ≤ e
    · rw [dif_pos he, dif_pos he, hR ⟨1, by omega⟩ (Nat.le_refl 1), h ⟨1, by omega⟩ (Nat.le_refl 1)]
    · rw [dif_neg he, dif_neg he, hR 0 (Nat.zero_le _), h 0 (Nat.zero_le _)]
  unfold segmentN
  rw [k0, k1]

theorem pcaOf_one {lib : Lib w} {t : Nat} (ht : t ≤ 1) {data : List (Row (w + 1))} {comps comps' : Fin 3 → Row (w + 1)} {means means' : Row (w + 1)}
    (h : PcaOf lib t data comps means) (h' : PcaOf lib t data comps' means') : comps = comps' ∧ means = means' := by
  obtain ⟨_, x, vs, h1, h2, h3, h4⟩ := h
  obtain ⟨_, x', vs', h1', h2', h3', h4'⟩ := h'
  unfold Summarised at h1 h1'
  rw [if_pos ht] at h1 h1'
  subst h1
  subst h1'
  rw [h2] at h2'
  cases h2'
  exact ⟨h3.trans h3'.symm, h4.trans h4'.symm⟩

/-- C91 (later columns): with one thread, values which are missing in the third column or later do not change the segments of the points. -/
theorem C91_later_columns {lib : Lib w} {p : Parameters} (ht : p.nThreads ≤ 1) {series series' : List (Fin (e + 1) → Fl)}
    (hlen : series.length = series'.length) (hcol : ∀ i, ∀ m : Fin (e + 1), Decides m → series.getD i 0 m = series'.getD i 0 m)
    {R R' : Fin (e + 1) → Fin 3 → Fin 3 → Fl} (hR : ∀ m, Decides m → R m = R' m) {cs cs' : List (List (Option ℝ))}
    (h : Coords lib p series R cs) (h' : Coords lib p series' R' cs') : cs.map (segmentN p.rate) = cs'.map (segmentN p.rate) := by
  obtain ⟨ps, comps, means, hw, hps, hpca, rfl⟩ := h
  obtain ⟨ps', comps', means', _, hps', hpca', rfl⟩ := h'
  obtain ⟨hN, rfl⟩ := build_some hw hps
  obtain ⟨hN', rfl⟩ := build_some hw hps'
  have hc : ∀ m, Decides m → column (w := w) ((List.range (series.length - (p.patternLength - 1))).map (PhaseSpace.specPoint p series)) m =
      column ((List.range (series'.length - (p.patternLength - 1))).map (PhaseSpace.specPoint p series')) m := by
    intro m hm
    unfold column
    rw [List.map_map, List.map_map, ← hlen]
    apply List.map_congr_left
    intro i _
    funext j
    obtain ⟨hle, hw'⟩ := checkedSub_some hw
    have hj := j.2
    show ((PhaseSpace.specPoint p series i).getD j 0) m = ((PhaseSpace.specPoint p series' i).getD j 0) m
    unfold PhaseSpace.specPoint
    rw [List.getD_eq_getElem _ _ (by simp; omega), List.getD_eq_getElem _ _ (by simp; omega), List.getElem_map, List.getElem_map,
      Finset.sum_apply, Finset.sum_apply]
    exact Finset.sum_congr rfl fun t _ => hcol _ m hm
  rw [List.map_map, List.map_map, List.length_map, List.length_map, List.length_range, List.length_range, ← hlen]
  apply List.map_congr_left
  intro i _
  refine segment_congr hR (fun m hm => ?_) p.rate
  obtain ⟨e1, e2⟩ := pcaOf_one ht (hpca m) (by rw [hc m hm]; exact hpca' m)
  rw [e1, e2, hc m hm, hlen]

theorem sum_real (l : List ℝ) : (l.map (fun x : ℝ => (x : Fl))).sum = (l.sum : ℝ) := by
  induction l with
  | nil => rfl
  | cons x l ih =>
    rw [List.map_cons, List.sum_cons, ih, List.sum_cons]
    rfl

/-- Without missing values the model is that of `Model/Pca.lean`, `Model/Rotation.lean`. -/
theorem colMeans_real (data : List (Pca.Row d)) : colMeans (data.map (fun x a => (x a : Fl))) = fun a => ((Pca.colMeans data a : ℝ) : Fl) := by
  funext a
  unfold colMeans Pca.colMeans
  rw [List.map_map, show ((fun x : Row d => x a) ∘ fun (x : Pca.Row d) a => (x a : Fl)) = (fun x : ℝ => (x : Fl)) ∘ fun x : Pca.Row d => x a from rfl,
    ← List.map_map, sum_real, List.length_map]
  rfl

theorem globalMeans_real (ms : List (Pca.Row d × ℝ)) :
    globalMeans (ms.map (fun x => (fun a => (x.1 a : Fl), x.2))) = fun a => ((Pca.globalMeans ms a : ℝ) : Fl) := by
  funext a
  unfold globalMeans Pca.globalMeans
  rw [List.map_map, List.map_map, show ((fun x : Row d × ℝ => mul (x.2 : ℝ) (x.1 a)) ∘ fun x : Pca.Row d × ℝ => (fun a => (x.1 a : Fl), x.2)) =
    (fun x : ℝ => (x : Fl)) ∘ fun x : Pca.Row d × ℝ => x.2 * x.1 a from rfl, ← List.map_map, sum_real]
  rfl

theorem reduced_real (comps : Fin 3 → Pca.Row d) (means x : Pca.Row d) (i : Fin 3) :
    reduced (fun i a => (comps i a : Fl)) (fun a => (means a : Fl)) (fun a => (x a : Fl)) i =
      ((((List.finRange d).map (fun a => (x a - means a) * comps i a)).sum : ℝ) : Fl) := by
  unfold reduced
  rw [← sum_real, List.map_map]
  rfl

theorem rotate_real (R : Fin 3 → Fin 3 → ℝ) (x : Fin 3 → ℝ) :
    rotate (fun i j => (R i j : Fl)) (fun i => (x i : Fl)) 0 = ((Rotation.rotateRow (Matrix.of R) x).1 : ℝ) ∧
    rotate (fun i j => (R i j : Fl)) (fun i => (x i : Fl)) 1 = ((Rotation.rotateRow (Matrix.of R) x).2 : ℝ) := by
  have h : ∀ c, rotate (fun i j => (R i j : Fl)) (fun i => (x i : Fl)) c = (((List.finRange 3).map (fun k => x k * R c k)).sum : ℝ) := by
    intro c
    unfold rotate
    rw [← sum_real, List.map_map]
    rfl
  have h' : ∀ c, ((List.finRange 3).map (fun k => x k * R c k)).sum = Matrix.vecMul x (Matrix.of R).transpose c := by
    intro c
    simp [Matrix.vecMul, dotProduct, Fin.sum_univ_three, List.finRange_succ]
    ring
  exact ⟨by rw [h, h']; rfl, by rw [h, h']; rfl⟩

/-! ### An instance -/

def exLib : Lib 2 := ⟨id, fun _ => some (fun _ _ => 0)⟩

/-- Nine rows, the fifth is missing. -/
def exSeries : List (Fin 1 → Fl) := [fun _ => 2, fun _ => 1, fun _ => (-1 : ℝ), fun _ => (-2 : ℝ), fun _ => ⊤, fun _ => 1, fun _ => 2, fun _ => 1,
  fun _ => (-1 : ℝ)]

theorem exCoords (series : List (Fin (e + 1) → Fl)) (h : 4 ≤ series.length) (R : Fin (e + 1) → Fin 3 → Fin 3 → Fl) :
    ∃ cs, Coords exLib ⟨4, 1, 1, 4, 1, 1, false⟩ series R cs := by
  have hb := PhaseSpace.C14_windowed_sums (⟨4, 1, 1, 4, 1, 1, false⟩ : Parameters) series (by decide) (by simp; omega)
  exact ⟨_, _, _, _, rfl, hb, fun m => ⟨by simp [column]; omega, _, _, by unfold Summarised; rw [if_pos (by decide)], rfl, rfl, rfl⟩, rfl⟩

example : ∃ v, Delivers exLib Pipeline.exClu (fun x => x.1.src.id) ⟨4, 1, 1, 4, 1, 1, false⟩ exSeries (fun _ _ _ => ⊤) v ∧
    v = some [none, none, none, none, none] :=
  ⟨_, (C91_missing (e := 0) exClu_labels _ ⟨by decide, by decide⟩ rfl (by decide) (by decide) (by decide) (by simp [exSeries]) (r := 4)
    (by simp [exSeries]) (x := fun _ => ⊤) rfl (m := 0) (Nat.zero_le _) rfl _ _).2 ⟨exCoords _ (by simp [exSeries]) _, rfl⟩, rfl⟩

/-- Three columns, the third is missing in every row or zero in every row. -/
example : ∃ cs cs', Coords exLib ⟨4, 1, 1, 4, 1, 1, false⟩ (List.replicate 9 (![1, 2, ⊤] : Fin 3 → Fl)) (fun _ _ _ => 1) cs ∧
    Coords exLib ⟨4, 1, 1, 4, 1, 1, false⟩ (List.replicate 9 (![1, 2, 0] : Fin 3 → Fl)) (fun _ _ _ => 1) cs' ∧
    cs.map (segmentN 4) = cs'.map (segmentN 4) := by
  obtain ⟨cs, h⟩ := exCoords (e := 2) (List.replicate 9 (![1, 2, ⊤] : Fin 3 → Fl)) (by simp) (fun _ _ _ => 1)
  obtain ⟨cs', h'⟩ := exCoords (e := 2) (List.replicate 9 (![1, 2, 0] : Fin 3 → Fl)) (by simp) (fun _ _ _ => 1)
  refine ⟨cs, cs', h, h', ?_⟩
  refine C91_later_columns (p := ⟨4, 1, 1, 4, 1, 1, false⟩) (Nat.le_refl 1) ?_ (fun i m hm => ?_) (fun m _ => Eq.refl _) h h'
  · rw [List.length_replicate, List.length_replicate]
  simp only [List.getD_eq_getElem?_getD, List.getElem?_replicate]
  split
  · unfold Decides at hm
    fin_cases m
    · rfl
    · rfl
    · simp at hm
  · rfl

end Missing
end S2G
