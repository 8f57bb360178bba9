import Verif.Model.Whole
import Verif.Props.PhaseSpace
import Verif.Props.PcaNet
import Verif.Props.PcaTree
import Verif.Props.Points
import Verif.Props.Projection
import Verif.Props.Pipeline

/-!
# C69, C70, C71: the whole run on one node
-/

namespace S2G
namespace Whole

open Pca Rotation Points

variable {e w : Nat}

/-! ### Adding a constant -/

/-- A summary with shifted means. -/
def shiftS {d : Nat} (C : Row d) (x : Summary d) : Summary d := { x with means := x.means + C }

theorem colMeans_shift {d : Nat} {data : List (Row d)} (hne : data ≠ []) (C : Row d) :
    colMeans (data.map (· + C)) = colMeans data + C := by
  have hn : (data.length : ℝ) ≠ 0 := by
    rw [Nat.cast_ne_zero]
    exact fun h => hne (List.length_eq_zero_iff.1 h)
  funext a
  unfold colMeans
  rw [List.map_map, List.length_map, Pi.add_apply]
  have : ((fun x : Row d => x a) ∘ fun y => y + C) = fun y => y a + C a := rfl
  rw [this, List.sum_map_add]
  simp only [List.map_const', List.sum_replicate, nsmul_eq_mul]
  field_simp

theorem localStep_shift {d : Nat} (qr : List (Row d) → List (Row d)) {data : List (Row d)} (hne : data ≠ []) (C : Row d) :
    localStep qr (data.map (· + C)) = shiftS C (localStep qr data) := by
  unfold localStep shiftS
  rw [colMeans_shift hne, List.map_map, List.length_map]
  congr 2
  apply List.map_congr_left
  intro x _
  simp

theorem globalMeans_shift {d : Nat} {ms : List (Row d × ℝ)} (hn : (ms.map Prod.snd).sum ≠ 0) (C : Row d) :
    globalMeans (ms.map (fun x => (x.1 + C, x.2))) = globalMeans ms + C := by
  funext a
  unfold globalMeans
  rw [List.map_map, List.map_map, Pi.add_apply]
  have h1 : ((fun x : Row d × ℝ => x.2 * x.1 a) ∘ fun x : Row d × ℝ => (x.1 + C, x.2)) = fun x => x.2 * x.1 a + x.2 * C a := by
    funext x
    simp [mul_add]
  have h2 : (Prod.snd ∘ fun x : Row d × ℝ => (x.1 + C, x.2)) = Prod.snd := rfl
  rw [h1, h2, List.sum_map_add, List.sum_map_mul_right]
  have h3 : (ms.map (fun x => x.2)).sum = (ms.map Prod.snd).sum := rfl
  rw [h3]
  field_simp

theorem finalize_shift {d : Nat} (qr : List (Row d) → List (Row d)) {ms : List (Row d × ℝ)} (hn : (ms.map Prod.snd).sum ≠ 0)
    (C : Row d) (r : List (Row d)) :
    finalize qr (ms.map (fun x => (x.1 + C, x.2))) r = shiftS C (finalize qr ms r) := by
  have h2 : (Prod.snd ∘ fun x : Row d × ℝ => (x.1 + C, x.2)) = Prod.snd := rfl
  unfold finalize shiftS
  rw [globalMeans_shift hn, List.map_map, List.map_map, h2]
  congr 3
  apply List.map_congr_left
  intro x _
  funext a
  simp

theorem pcaChunks_map {α β : Type} (f : α → β) (rows : List α) (t : Nat) :
    pcaChunks (rows.map f) t = (pcaChunks rows t).map (List.map (List.map f)) := by
  unfold pcaChunks
  simp only [List.map_eq_nil_iff, List.length_map]
  split
  · rfl
  · simp only [Option.map_some, List.map_take, List.map_map]
    congr 3
    funext j
    simp

theorem getD_map_nil {α β : Type} (f : α → β) (l : List (List α)) (i : Nat) : (l.map (List.map f)).getD i [] = (l.getD i []).map f := by
  rw [List.getD_eq_getElem?_getD, List.getD_eq_getElem?_getD, List.getElem?_map]
  cases l[i]? <;> simp

/-- The sum of the numbers of rows of the helpers. -/
theorem sum_n {lib : Lib w} {t : Nat} {data : List (Row (w + 1))} (hne : data ≠ []) {chunks : List (List (Row (w + 1)))} (ht : 0 < t)
    (hc : pcaChunks data t = some chunks) (hl : chunks.length = t) {ids : List Nat} (hp : ids.Perm (List.range t)) :
    ((ids.map (fun i => ((localStep lib.qr (chunks.getD i [])).means, (localStep lib.qr (chunks.getD i [])).n))).map Prod.snd).sum =
      data.length := by
  obtain ⟨c', h1, h2, h3, _⟩ := C21_chunks ht hne
  rw [hc] at h1
  cases h1
  rw [((hp.map _).map _).sum_eq, List.map_map, ← h2]
  have : (List.range t).map (fun i => ((chunks.getD i []).length : ℝ)) = chunks.map (fun c => (c.length : ℝ)) := by
    apply List.ext_getElem
    · simp [hl]
    · intro i h1 h2
      simp only [List.length_map] at h2
      simp [List.getD_eq_getElem?_getD, h2]
  show ((List.range t).map (fun i => ((chunks.getD i []).length : ℝ))).sum = _
  rw [this, List.length_flatten, Nat.cast_list_sum, List.map_map]
  rfl

theorem Summarised.n {lib : Lib w} {t : Nat} {data : List (Row (w + 1))} (hne : data ≠ []) {x : Summary (w + 1)}
    (h : Summarised lib t data x) : x.n = data.length := by
  unfold Summarised at h
  split at h
  · rw [h]
    rfl
  · next ht =>
    obtain ⟨chunks, s, f, hc, hl, hr, hf, rfl⟩ := h
    have h2 := ((HNet.C23_threads (g := fun _ => (0 : Nat)) (by omega) (by simp) hr).2 f hf).2
    exact sum_n hne (by omega) hc hl h2

theorem Summarised.shift {lib : Lib w} {t : Nat} {data : List (Row (w + 1))} (hne : data ≠ []) (C : Row (w + 1))
    {x : Summary (w + 1)} (h : Summarised lib t data x) : Summarised lib t (data.map (· + C)) (shiftS C x) := by
  have hlen : (data.length : ℝ) ≠ 0 := by
    rw [Nat.cast_ne_zero]
    exact fun h => hne (List.length_eq_zero_iff.1 h)
  unfold Summarised at h ⊢
  split at h
  · next ht => rw [if_pos ht, h, localStep_shift _ hne]
  · next ht =>
    rw [if_neg ht]
    obtain ⟨chunks, s, f, hc, hl, hr, hf, rfl⟩ := h
    have h2 := ((HNet.C23_threads (g := fun _ => (0 : Nat)) (by omega) (by simp) hr).2 f hf).2
    obtain ⟨c', h1, _, h3, _⟩ := C21_chunks (t := t) (by omega) hne
    rw [hc] at h1
    cases h1
    have hch : ∀ i, i < t → chunks.getD i [] ≠ [] := fun i hi => by
      rw [List.getD_eq_getElem _ _ (by omega)]
      exact h3 _ (List.getElem_mem _)
    have hr' : (fun i => (localStep lib.qr ((chunks.map (List.map (· + C))).getD i [])).r) =
        fun i => (localStep lib.qr (chunks.getD i [])).r := by
      funext i
      rw [getD_map_nil]
      by_cases hi : i < t
      · rw [localStep_shift _ (hch i hi)]
        rfl
      · rw [List.getD_eq_default _ _ (by omega)]
        rfl
    refine ⟨chunks.map (List.map (· + C)), s, f, ?_, by rw [List.length_map, hl], hr' ▸ hr, hf, ?_⟩
    · rw [pcaChunks_map, hc]
      rfl
    · rw [← finalize_shift _ (by rw [sum_n hne (by omega) hc hl h2]; exact hlen), List.map_map]
      congr 1
      apply List.map_congr_left
      intro i hi
      have hi := List.mem_range.1 (h2.mem_iff.1 hi)
      rw [getD_map_nil, localStep_shift _ (hch i hi)]
      rfl

theorem PcaOf.shift {lib : Lib w} {t : Nat} {data : List (Row (w + 1))} (C : Row (w + 1)) {comps : List (Row (w + 1))}
    {means : Row (w + 1)} (h : PcaOf lib t data comps means) : PcaOf lib t (data.map (· + C)) comps (means + C) := by
  obtain ⟨hne, x, vs, hs, hv, hc, hm⟩ := h
  have hlen : (data.length : ℝ) ≠ 0 := by
    rw [Nat.cast_ne_zero]
    exact fun h => hne (List.length_eq_zero_iff.1 h)
  have hf := finalize_shift lib.qr (ms := [(x.means, x.n)]) (by simpa [hs.n hne] using hlen) C x.r
  refine ⟨by simpa using hne, shiftS C x, vs, hs.shift hne C, ?_, hc, ?_⟩
  · have := congrArg Summary.r hf
    exact (congrArg lib.svd this).trans hv
  · have := congrArg Summary.means hf
    rw [hm]
    exact this.symm

theorem reduced_shift (comps : List (Row (w + 1))) (means x C : Row (w + 1)) :
    reduced comps (means + C) (x + C) = reduced comps means x := by
  unfold reduced reduceRow
  simp

theorem foldl_min_add (c : ℝ) (l : List ℝ) (x : ℝ) : (l.map (· + c)).foldl min (x + c) = l.foldl min x + c := by
  induction l generalizing x with
  | nil => rfl
  | cons y l ih => rw [List.map_cons, List.foldl_cons, List.foldl_cons, min_add_add_right, ih]

theorem foldl_max_add (c : ℝ) (l : List ℝ) (x : ℝ) : (l.map (· + c)).foldl max (x + c) = l.foldl max x + c := by
  induction l generalizing x with
  | nil => rfl
  | cons y l ih => rw [List.map_cons, List.foldl_cons, List.foldl_cons, max_add_add_right, ih]

theorem columnMin_shift (series : List (Fin (e + 1) → ℝ)) (c : Fin (e + 1) → ℝ) (m : Fin (e + 1)) :
    columnMin (series.map (· + c)) m = (columnMin series m).map (· + c m) := by
  unfold columnMin
  cases series with
  | nil => rfl
  | cons x xs =>
    simp only [List.map_cons, Kde.colMin, Option.map_some, List.map_map]
    rw [← foldl_min_add, List.map_map]
    rfl

theorem columnMax_shift (series : List (Fin (e + 1) → ℝ)) (c : Fin (e + 1) → ℝ) (m : Fin (e + 1)) :
    columnMax (series.map (· + c)) m = (columnMax series m).map (· + c m) := by
  unfold columnMax
  cases series with
  | nil => rfl
  | cons x xs =>
    simp only [List.map_cons, Kde.colMax, Option.map_some, List.map_map]
    rw [← foldl_max_add, List.map_map]
    rfl

theorem checkedSub_some {a b c : Nat} (h : checkedSub a b = some c) : b ≤ a ∧ c = a - b := by
  unfold checkedSub at h
  split at h
  · next hle => exact ⟨hle, (Option.some.inj h).symm⟩
  · cases h

/-- The embedding when it succeeds. -/
theorem build_some {p : Parameters} (hw : checkedSub p.patternLength p.latent = some (w + 1)) {series : List (Fin (e + 1) → ℝ)}
    {ps : List (List (Fin (e + 1) → ℝ))} (h : PhaseSpace.build p series = some ps) :
    p.patternLength - 1 ≤ series.length ∧
      ps = (List.range (series.length - (p.patternLength - 1))).map (PhaseSpace.specPoint p series) := by
  obtain ⟨hle, hw'⟩ := checkedSub_some hw
  by_cases hN : p.patternLength - 1 ≤ series.length
  · refine ⟨hN, ?_⟩
    rw [PhaseSpace.C14_windowed_sums p series (by omega) hN] at h
    exact (Option.some.inj h).symm
  · rw [PhaseSpace.C14_crash p series (.inl (by omega))] at h
    cases h

/-- The first reference row consists of the sums of `latent` minima. -/
theorem reference_some {p : Parameters} (hw : checkedSub p.patternLength p.latent = some (w + 1)) (lo hi : Fin (e + 1) → ℝ) :
    ∃ ref, PhaseSpace.referenceDataset p lo hi = some ref ∧
      ref.head? = some (List.replicate (w + 1) (fun m => (p.latent : ℝ) * lo m)) := by
  obtain ⟨hle, hw'⟩ := checkedSub_some hw
  obtain ⟨ref, h1, h2, h3⟩ := PhaseSpace.C16_reference_rows p lo hi (by omega)
  refine ⟨ref, h1, ?_⟩
  have h4 := h3 0 (by omega)
  rw [PhaseSpace.C14_windowed_sums p _ (by omega) (by simp)] at h4
  have h5 : p.patternLength - (p.patternLength - 1) = 1 := by omega
  simp only [List.length_replicate, h5, List.range_one, List.map_cons, List.map_nil, Option.some.injEq, List.cons.injEq,
    and_true] at h4
  rw [List.head?_eq_getElem?, List.getElem?_eq_getElem (by omega), ← h4]
  congr 1
  unfold PhaseSpace.specPoint
  rw [hw']
  apply List.ext_getElem
  · simp
  · intro j hj _
    simp only [List.length_map, List.length_range] at hj
    rw [List.getElem_map, List.getElem_replicate, List.getElem_range]
    funext m
    have : ∀ t ∈ Finset.range p.latent, PhaseSpace.series (List.replicate p.patternLength
        (fun c => lo c + ((0 : Nat) : ℝ) * (hi c - lo c) / 99)) (0 + j + t) = lo := by
      intro t ht
      have ht := Finset.mem_range.1 ht
      unfold PhaseSpace.series
      rw [List.getD_eq_getElem _ _ (by simp; omega), List.getElem_replicate]
      funext c
      simp
    rw [Finset.sum_congr rfl this]
    simp

theorem getD_replicate_fin (f : Fin (e + 1) → ℝ) (j : Fin (w + 1)) : (List.replicate (w + 1) f).getD j 0 = f := by
  rw [List.getD_eq_getElem _ _ (by simpa using Nat.lt_succ_iff.1 j.2), List.getElem_replicate]

/-- All entries of a shifted row. -/
theorem column_shift {p : Parameters} (hw : checkedSub p.patternLength p.latent = some (w + 1)) {series : List (Fin (e + 1) → ℝ)}
    (hN : p.patternLength - 1 ≤ series.length) (c : Fin (e + 1) → ℝ) (m : Fin (e + 1)) :
    (column ((List.range (series.length - (p.patternLength - 1))).map (PhaseSpace.specPoint p (series.map (· + c)))) m :
        List (Row (w + 1))) =
      (column ((List.range (series.length - (p.patternLength - 1))).map (PhaseSpace.specPoint p series)) m).map
        (· + fun _ => (p.latent : ℝ) * c m) := by
  obtain ⟨hle, hw'⟩ := checkedSub_some hw
  unfold column
  rw [List.map_map, List.map_map, List.map_map]
  apply List.map_congr_left
  intro i hi
  have hi := List.mem_range.1 hi
  funext j
  have hj := j.2
  simp only [Function.comp, Pi.add_apply]
  unfold PhaseSpace.specPoint
  rw [List.getD_eq_getElem _ _ (by simp; omega), List.getD_eq_getElem _ _ (by simp; omega), List.getElem_map, List.getElem_map,
    List.getElem_range, Finset.sum_apply, Finset.sum_apply]
  have : ∀ t ∈ Finset.range p.latent, PhaseSpace.series (series.map (· + c)) (i + j + t) m =
      PhaseSpace.series series (i + j + t) m + c m := by
    intro t ht
    have ht := Finset.mem_range.1 ht
    unfold PhaseSpace.series
    rw [List.getD_eq_getElem _ _ (by simp; omega), List.getD_eq_getElem _ _ (by omega), List.getElem_map]
    rfl
  rw [Finset.sum_congr rfl this, Finset.sum_add_distrib]
  simp

theorem PointsOf.shift {lib : Lib w} {p : Parameters} {series : List (Fin (e + 1) → ℝ)} {pts : List Point}
    (h : PointsOf lib p series pts) (c : Fin (e + 1) → ℝ) : PointsOf lib p (series.map (· + c)) pts := by
  obtain ⟨lo, hi, ps, ref, comps, means, first, R, hmm, hw, href, hps, hpca, hfirst, hR, hpts⟩ := h
  obtain ⟨hN, rfl⟩ := build_some hw hps
  obtain ⟨hle, hw'⟩ := checkedSub_some hw
  obtain ⟨ref', hr1, hr2⟩ := reference_some hw (lo + c) (hi + c)
  obtain ⟨ref0, hr3, hr4⟩ := reference_some hw lo hi
  rw [href] at hr3
  cases Option.some.inj hr3
  rw [hfirst] at hr4
  cases Option.some.inj hr4
  have hcol := fun m => column_shift (w := w) hw hN c m
  refine ⟨lo + c, hi + c, _, ref', comps, fun m => means m + fun _ => (p.latent : ℝ) * c m, _, R, fun m => ⟨?_, ?_⟩, hw, hr1,
    PhaseSpace.C14_windowed_sums p _ (by omega) (by simpa using hN), fun m => ?_, hr2, fun m => ?_, ?_⟩
  · rw [columnMin_shift, (hmm m).1]
    rfl
  · rw [columnMax_shift, (hmm m).2]
    rfl
  · rw [List.length_map, hcol]
    exact (hpca m).shift _
  · rw [← hR m]
    congr 1
    conv_rhs => rw [← reduced_shift _ _ _ (fun _ => (p.latent : ℝ) * c m)]
    congr 1
    funext j
    rw [Pi.add_apply]
    simp only [getD_replicate_fin, Pi.add_apply, mul_add]
  · rw [← hpts]
    simp only [List.length_map, List.length_range]
    congr 1
    apply List.map_congr_left
    intro i hi
    have hi := List.mem_range.1 hi
    funext m
    rw [hcol, List.getD_eq_getElem _ _ (by simp [column]; omega), List.getElem_map, reduced_shift,
      List.getD_eq_getElem _ _ (by simp [column]; omega)]

/-- C69: adding a constant to each column of the series changes nothing: every vector of scores which some schedule can deliver
before, some schedule can deliver afterwards, and vice versa. -/
theorem C69_shift (lib : Lib w) (resolution order : Nat) (p : Parameters) (series : List (Fin (e + 1) → ℝ)) (c : Fin (e + 1) → ℝ)
    (v : Option (List (Option ℚ))) :
    Delivers lib resolution order p (series.map (· + c)) v ↔ Delivers lib resolution order p series v := by
  constructor
  · rintro ⟨pts, s0, s, h1, h2, h3⟩
    have h4 := h1.shift (-c)
    have h5 : (series.map (· + c)).map (· + -c) = series := by
      rw [List.map_map]
      conv_rhs => rw [← List.map_id series]
      apply List.map_congr_left
      intro x _
      simp
    rw [h5] at h4
    exact ⟨pts, s0, s, h4, by simpa using h2, h3⟩
  · rintro ⟨pts, s0, s, h1, h2, h3⟩
    exact ⟨pts, s0, s, h1.shift c, by simpa using h2, h3⟩

/-! ### The PCA is a function of the data -/

/-- The factor which the library gets determines the components: for the Gram matrix of the centred rows (up to a positive factor)
every triangular factor has the same first three components after `normalize`. For exact singular vectors this holds if the first
singular values are different and no component begins with zero. -/
def Settled (lib : Lib w) (data : List (Row (w + 1))) : Prop :=
  ∀ (A B : List (Row (w + 1))) (a : ℝ), 0 < a → gram A = gram (data.map (fun x => x - mean data)) →
    gram B = a ^ 2 • gram (data.map (fun x => x - mean data)) → (lib.svd B).map normalize = (lib.svd A).map normalize

/-- With one thread, or if there are enough rows for a chunk per thread. -/
def Chunked (threads rows : Nat) : Prop := threads ≤ 1 ∨ (threads - 1) * divCeil rows threads < rows

theorem Summarised.summarises {lib : Lib w} (hqr : ∀ A, gram (lib.qr A) = gram A) {t : Nat} {data : List (Row (w + 1))}
    (hne : data ≠ []) {x : Summary (w + 1)} (h : Summarised lib t data x) : Summarises data x := by
  unfold Summarised at h
  split at h
  · rw [h]
    exact summarises_local hqr data
  · next ht =>
    obtain ⟨chunks, s, f, hc, hl, hr, hf, rfl⟩ := h
    obtain ⟨c', h1, h2, h3, _⟩ := C21_chunks (t := t) (by omega) hne
    rw [hc] at h1
    cases h1
    have hch : ∀ i, i < t → chunks.getD i [] ≠ [] := fun i hi => by
      rw [List.getD_eq_getElem _ _ (by omega)]
      exact h3 _ (List.getElem_mem _)
    have := HNet.C23_threads_summary hqr (by omega) hch (sums := fun i => localStep lib.qr (chunks.getD i []))
      (fun i _ => summarises_local hqr _) hr f hf
    have hfl : (List.range t).flatMap (fun i => chunks.getD i []) = data := by
      rw [← h2, List.flatMap_def]
      congr 1
      apply List.ext_getElem
      · simp [hl]
      · intro i h1 h2
        simp [List.getD_eq_getElem?_getD, h2]
    rw [hfl] at this
    exact this

theorem Summarised.chunked {lib : Lib w} {t : Nat} {data : List (Row (w + 1))} (hne : data ≠ []) {x : Summary (w + 1)}
    (h : Summarised lib t data x) : Chunked t data.length := by
  unfold Summarised at h
  split at h
  · next ht => exact .inl ht
  · next ht =>
    obtain ⟨chunks, s, f, hc, hl, _⟩ := h
    obtain ⟨c', h1, _, _, _, h5⟩ := C21_chunks (t := t) (by omega) hne
    rw [hc] at h1
    cases h1
    exact .inr (h5.1 hl)

/-- The helpers come to an end. -/
theorem exists_fin {M : Type} {k : Nat} (hk : 0 < k) (init : Nat → M) (comb : M → M → M) :
    ∃ s, HNet.Reachable k init comb s ∧ ∃ f, f ∈ s.fin := by
  have key : ∀ n (s : HNet M), HNet.measure k s ≤ n → HNet.Reachable k init comb s →
      ∃ s', HNet.Reachable k init comb s' ∧ ∀ i < k, s'.queue i = [] := by
    intro n
    induction n with
    | zero =>
      intro s hm hr
      refine ⟨s, hr, fun i hi => ?_⟩
      cases hq : s.queue i with
      | nil => rfl
      | cons x rest =>
        obtain ⟨t, _, _, h⟩ := HNet.C23_threads_terminates hk hr hi hq
        omega
    | succ n ih =>
      intro s hm hr
      by_cases hall : ∀ i < k, s.queue i = []
      · exact ⟨s, hr, hall⟩
      · push Not at hall
        obtain ⟨i, hi, hq⟩ := hall
        obtain ⟨x, rest, hq⟩ := List.exists_cons_of_ne_nil hq
        obtain ⟨t, _, hrt, h⟩ := HNet.C23_threads_terminates hk hr hi hq
        exact ih t (by omega) hrt
  obtain ⟨s, hr, hq⟩ := key _ _ le_rfl (HNet.Reachable.init (k := k) (init := init) (comb := comb))
  have hl := HNet.C23_threads_finalised hk hr hq
  exact ⟨s, hr, s.fin[0]'(by omega), List.getElem_mem _⟩

theorem exists_summarised (lib : Lib w) {t : Nat} {data : List (Row (w + 1))} (hne : data ≠ []) (hc : Chunked t data.length) :
    ∃ x, Summarised lib t data x := by
  unfold Summarised
  by_cases ht : t ≤ 1
  · exact ⟨_, by rw [if_pos ht]⟩
  · have hc := hc.resolve_left ht
    obtain ⟨chunks, h1, _, _, _, h5⟩ := C21_chunks (t := t) (by omega) hne
    obtain ⟨s, hr, f, hf⟩ := exists_fin (by omega : 0 < t) (fun i => (localStep lib.qr (chunks.getD i [])).r) (combine lib.qr)
    exact ⟨_, by rw [if_neg ht]; exact ⟨chunks, s, f, h1, h5.2 hc, hr, hf, rfl⟩⟩

theorem finalize_one {lib : Lib w} (hqr : ∀ A, gram (lib.qr A) = gram A) {data : List (Row (w + 1))} (hne : data ≠ [])
    {x : Summary (w + 1)} (h : Summarises data x) : Summarises data (finalize lib.qr [(x.means, x.n)] x.r) := by
  have := C22_merge hqr (parts := [data]) (Ss := [x]) (.cons h .nil) (by simpa using hne) (ms := [(x.means, x.n)])
    (List.Perm.refl _) (r := x.r) (by simp)
  simpa using this

/-- What the PCA computes. -/
theorem pcaOf_iff {lib : Lib w} (hqr : ∀ A, gram (lib.qr A) = gram A) {t : Nat} {data : List (Row (w + 1))} (hs : Settled lib data)
    {comps : List (Row (w + 1))} {means : Row (w + 1)} :
    PcaOf lib t data comps means ↔ data ≠ [] ∧ Chunked t data.length ∧ means = mean data ∧
      (lib.svd (data.map (fun x => x - mean data))).map normalize = some comps := by
  constructor
  · rintro ⟨hne, x, vs, h1, h2, h3, h4⟩
    have h5 := finalize_one hqr hne (h1.summarises hqr hne)
    refine ⟨hne, h1.chunked hne, by rw [h4, h5.means], ?_⟩
    rw [hs _ (data.map (fun x => x - mean data)) 1 one_pos h5.r (by simp), h2, h3]
    rfl
  · rintro ⟨hne, hc, rfl, h⟩
    obtain ⟨x, hx⟩ := exists_summarised lib hne hc
    have h5 := finalize_one hqr hne (hx.summarises hqr hne)
    rw [hs _ (data.map (fun x => x - mean data)) 1 one_pos h5.r (by simp)] at h
    obtain ⟨vs, h6, h7⟩ := Option.map_eq_some_iff.1 h
    exact ⟨hne, x, vs, hx, h6, h7.symm, h5.means.symm⟩

/-! ### Scaling -/

/-- A point with scaled coordinates. -/
def scalePt (a : ℝ) (x : Point) : Point := { x with coordinates := x.coordinates.map (a * ·) }

theorem mean_scale {d : Nat} (a : ℝ) (D : List (Row d)) : mean (D.map (a • ·)) = a • mean D := by
  funext b
  unfold mean
  rw [List.map_map, List.length_map, Pi.smul_apply, smul_eq_mul]
  have : ((fun x : Row d => x b) ∘ fun y => a • y) = fun y => a * y b := rfl
  rw [this, List.sum_map_mul_left, mul_div_assoc]

theorem centred_scale {d : Nat} (a : ℝ) (D : List (Row d)) :
    (D.map (a • ·)).map (fun x => x - mean (D.map (a • ·))) = (D.map (fun x => x - mean D)).map (a • ·) := by
  rw [mean_scale, List.map_map, List.map_map]
  apply List.map_congr_left
  intro x _
  simp [smul_sub]

theorem gram_scale {d : Nat} (a : ℝ) (D : List (Row d)) : gram (D.map (a • ·)) = a ^ 2 • gram D := by
  funext i j
  rw [Matrix.smul_apply, smul_eq_mul]
  unfold gram
  rw [List.map_map, ← List.sum_map_mul_left]
  congr 1
  apply List.map_congr_left
  intro x _
  simp only [Function.comp, Pi.smul_apply, smul_eq_mul]
  ring

theorem Settled.scale {lib : Lib w} {data : List (Row (w + 1))} (h : Settled lib data) {a : ℝ} (ha : 0 < a) :
    Settled lib (data.map (a • ·)) := by
  intro A B b hb h1 h2
  rw [centred_scale, gram_scale] at h1 h2
  rw [h _ A a ha rfl h1, h _ B (b * a) (mul_pos hb ha) rfl (by rw [h2, smul_smul, mul_pow])]

theorem PcaOf.scale {lib : Lib w} (hqr : ∀ A, gram (lib.qr A) = gram A) {t : Nat} {data : List (Row (w + 1))} (hs : Settled lib data)
    {a : ℝ} (ha : 0 < a) {comps : List (Row (w + 1))} {means : Row (w + 1)} (h : PcaOf lib t data comps means) :
    PcaOf lib t (data.map (a • ·)) comps (a • means) := by
  rw [pcaOf_iff hqr hs] at h
  rw [pcaOf_iff hqr (hs.scale ha), List.length_map]
  refine ⟨by simpa using h.1, h.2.1, by rw [mean_scale, h.2.2.1], ?_⟩
  rw [← h.2.2.2, centred_scale]
  exact hs _ _ a ha rfl (gram_scale _ _)

theorem reduced_scale (comps : List (Row (w + 1))) (means x : Row (w + 1)) (a : ℝ) :
    reduced comps (a • means) (a • x) = a • reduced comps means x := by
  funext i
  unfold reduced reduceRow
  rw [Pi.smul_apply, smul_eq_mul, List.getD_eq_getElem?_getD, List.getD_eq_getElem?_getD, List.getElem?_map, List.getElem?_map]
  cases comps[i.val]? with
  | none => simp
  | some v =>
    simp only [Option.map_some, Option.getD_some, Pi.smul_apply, smul_eq_mul]
    rw [← List.sum_map_mul_left]
    congr 1
    apply List.map_congr_left
    intro b _
    ring

theorem norm_scale (u : Vec) {a : ℝ} (ha : 0 < a) : Rotation.norm (a • u) = a * Rotation.norm u := by
  unfold Rotation.norm
  simp only [Pi.smul_apply, smul_eq_mul]
  rw [show (a * u 0) ^ 2 + (a * u 1) ^ 2 + (a * u 2) ^ 2 = a ^ 2 * (u 0 ^ 2 + u 1 ^ 2 + u 2 ^ 2) by ring,
    Real.sqrt_mul (sq_nonneg a), Real.sqrt_sq ha.le]

theorem rotationMatrix_scale (u : Vec) {a : ℝ} (ha : 0 < a) : rotationMatrix (a • u) = rotationMatrix u := by
  unfold rotationMatrix
  rw [norm_scale u ha]
  have h0 : a * Rotation.norm u = 0 ↔ Rotation.norm u = 0 := by simp [ha.ne']
  have h1 : ∀ i, (a • u) i / (a * Rotation.norm u) = u i / Rotation.norm u := by
    intro i
    rw [Pi.smul_apply, smul_eq_mul, mul_div_mul_left _ _ ha.ne']
  simp only [h0, h1]

theorem rotateRow_scale (R : Matrix (Fin 3) (Fin 3) ℝ) (x : Vec) (a : ℝ) :
    rotateRow R (a • x) = (a * (rotateRow R x).1, a * (rotateRow R x).2) := by
  unfold rotateRow
  rw [Matrix.smul_vecMul]
  rfl

theorem coordinates_scale {d : Nat} (R : Fin d → Matrix (Fin 3) (Fin 3) ℝ) (row : Fin d → Vec) (a : ℝ) :
    Points.coordinates R (fun m => a • row m) = (Points.coordinates R row).map (a * ·) := by
  unfold Points.coordinates
  simp only [rotateRow_scale, List.flatMap_cons, List.flatMap_nil, List.map_append, List.map_map, List.append_nil]
  rfl

theorem pointSegment_scale (x y : ℝ) {a : ℝ} (ha : 0 < a) (n : Nat) :
    SegmentId.pointSegment (a * x) (a * y) n = SegmentId.pointSegment x y n := by
  unfold SegmentId.pointSegment SegmentId.theta
  have : (⟨a * x, a * y⟩ : ℂ) = (a : ℂ) * ⟨x, y⟩ := by
    apply Complex.ext <;> simp
  rw [this, Complex.arg_real_mul _ ha]

theorem newPoint_scale (id : Nat) (cs : List ℝ) (n : Nat) {a : ℝ} (ha : 0 < a) :
    newPoint id (cs.map (a * ·)) n = (newPoint id cs n).map (scalePt a) := by
  unfold newPoint
  rw [List.getElem?_map, List.getElem?_map]
  cases cs[0]? with
  | none => rfl
  | some x =>
    cases cs[1]? with
    | none => rfl
    | some y =>
      simp only [Option.map_some, Option.bind_eq_bind, Option.bind_some, pointSegment_scale x y ha n]
      cases SegmentId.pointSegment x y n <;> rfl

theorem addPoints_scale (n : Nat) {a : ℝ} (ha : 0 < a) : ∀ (cs : List (List ℝ)) (offset : Nat),
    addPoints offset n (cs.map (List.map (a * ·))) = (addPoints offset n cs).map (List.map (scalePt a))
  | [], _ => rfl
  | c :: cs, offset => by
    rw [List.map_cons, addPoints, addPoints, newPoint_scale _ _ _ ha, addPoints_scale n ha cs (offset + 1)]
    cases newPoint offset c n with
    | none => rfl
    | some x => cases addPoints (offset + 1) n cs <;> rfl

theorem applyRotation_scale {d : Nat} (R : Fin d → Matrix (Fin 3) (Fin 3) ℝ) (rows : List (Fin d → Vec)) (n k i rate : Nat) {a : ℝ}
    (ha : 0 < a) :
    applyRotation R (rows.map (fun row m => a • row m)) n k i rate = (applyRotation R rows n k i rate).map (List.map (scalePt a)) := by
  unfold applyRotation
  split
  · rfl
  · have : (rows.map (fun row m => a • row m)).map (Points.coordinates R) =
        (rows.map (Points.coordinates R)).map (List.map (a * ·)) := by
      rw [List.map_map, List.map_map]
      apply List.map_congr_left
      intro row _
      exact coordinates_scale R row a
    rw [this]
    cases checkedDiv n k with
    | none => rfl
    | some q => exact addPoints_scale rate ha _ _

theorem foldl_min_mul {a : ℝ} (ha : 0 < a) (l : List ℝ) (x : ℝ) : (l.map (a * ·)).foldl min (a * x) = a * l.foldl min x := by
  induction l generalizing x with
  | nil => rfl
  | cons y l ih => rw [List.map_cons, List.foldl_cons, List.foldl_cons, ← mul_min_of_nonneg _ _ ha.le, ih]

theorem foldl_max_mul {a : ℝ} (ha : 0 < a) (l : List ℝ) (x : ℝ) : (l.map (a * ·)).foldl max (a * x) = a * l.foldl max x := by
  induction l generalizing x with
  | nil => rfl
  | cons y l ih => rw [List.map_cons, List.foldl_cons, List.foldl_cons, ← mul_max_of_nonneg _ _ ha.le, ih]

theorem colMin_scale {a : ℝ} (ha : 0 < a) (l : List ℝ) : Kde.colMin (l.map (a * ·)) = (Kde.colMin l).map (a * ·) := by
  cases l with
  | nil => rfl
  | cons x xs => exact congrArg some (foldl_min_mul ha xs x)

theorem colMax_scale {a : ℝ} (ha : 0 < a) (l : List ℝ) : Kde.colMax (l.map (a * ·)) = (Kde.colMax l).map (a * ·) := by
  cases l with
  | nil => rfl
  | cons x xs => exact congrArg some (foldl_max_mul ha xs x)

theorem column_entry (series : List (Fin (e + 1) → ℝ)) (a : ℝ) (m : Fin (e + 1)) :
    (series.map (a • ·)).map (· m) = (series.map (· m)).map (a * ·) := by
  rw [List.map_map, List.map_map]
  rfl

theorem column_scale {p : Parameters} (hw : checkedSub p.patternLength p.latent = some (w + 1)) {series : List (Fin (e + 1) → ℝ)}
    (hN : p.patternLength - 1 ≤ series.length) (a : ℝ) (m : Fin (e + 1)) :
    (column ((List.range (series.length - (p.patternLength - 1))).map (PhaseSpace.specPoint p (series.map (a • ·)))) m :
        List (Row (w + 1))) =
      (column ((List.range (series.length - (p.patternLength - 1))).map (PhaseSpace.specPoint p series)) m).map (a • ·) := by
  obtain ⟨hle, hw'⟩ := checkedSub_some hw
  unfold column
  rw [List.map_map, List.map_map, List.map_map]
  apply List.map_congr_left
  intro i hi
  have hi := List.mem_range.1 hi
  funext j
  have hj := j.2
  simp only [Function.comp, Pi.smul_apply, smul_eq_mul]
  unfold PhaseSpace.specPoint
  rw [List.getD_eq_getElem _ _ (by simp; omega), List.getD_eq_getElem _ _ (by simp; omega), List.getElem_map, List.getElem_map,
    List.getElem_range, Finset.sum_apply, Finset.sum_apply, Finset.mul_sum]
  apply Finset.sum_congr rfl
  intro t ht
  have ht := Finset.mem_range.1 ht
  unfold PhaseSpace.series
  rw [List.getD_eq_getElem _ _ (by simp; omega), List.getD_eq_getElem _ _ (by omega), List.getElem_map]
  rfl

/-- The rows of dimension `m` on which the PCA works: the windowed sums of C14. -/
noncomputable def windows (w : Nat) (p : Parameters) (series : List (Fin (e + 1) → ℝ)) (m : Fin (e + 1)) : List (Row (w + 1)) :=
  column ((List.range (series.length - (p.patternLength - 1))).map (PhaseSpace.specPoint p series)) m

theorem PointsOf.scale {lib : Lib w} (hqr : ∀ A, gram (lib.qr A) = gram A) {p : Parameters} {series : List (Fin (e + 1) → ℝ)}
    (hs : ∀ m, Settled lib (windows w p series m)) {a : ℝ} (ha : 0 < a) {pts : List Point} (h : PointsOf lib p series pts) :
    PointsOf lib p (series.map (a • ·)) (pts.map (scalePt a)) := by
  obtain ⟨lo, hi, ps, ref, comps, means, first, R, hmm, hw, href, hps, hpca, hfirst, hR, hpts⟩ := h
  obtain ⟨hN, rfl⟩ := build_some hw hps
  obtain ⟨hle, hw'⟩ := checkedSub_some hw
  obtain ⟨ref', hr1, hr2⟩ := reference_some hw (a • lo) (a • hi)
  obtain ⟨ref0, hr3, hr4⟩ := reference_some hw lo hi
  rw [href] at hr3
  cases Option.some.inj hr3
  rw [hfirst] at hr4
  cases Option.some.inj hr4
  have hcol := fun m => column_scale (w := w) hw hN a m
  refine ⟨a • lo, a • hi, _, ref', comps, fun m => a • means m, _, R, fun m => ⟨?_, ?_⟩, hw, hr1,
    PhaseSpace.C14_windowed_sums p _ (by omega) (by simpa using hN), fun m => ?_, hr2, fun m => ?_, ?_⟩
  · have := (hmm m).1
    unfold columnMin at this ⊢
    rw [column_entry, colMin_scale ha, this]
    rfl
  · have := (hmm m).2
    unfold columnMax at this ⊢
    rw [column_entry, colMax_scale ha, this]
    rfl
  · rw [List.length_map, hcol]
    exact (hpca m).scale hqr (hs m) ha
  · rw [← hR m]
    conv_rhs => rw [← rotationMatrix_scale _ ha, ← reduced_scale]
    congr 2
    funext j
    rw [Pi.smul_apply]
    simp only [getD_replicate_fin, Pi.smul_apply, smul_eq_mul]
    ring
  · have := congrArg (Option.map (List.map (scalePt a))) hpts
    rw [← applyRotation_scale _ _ _ _ _ _ ha, Option.map_some] at this
    rw [← this]
    simp only [List.length_map, List.length_range, List.map_map]
    congr 1
    apply List.map_congr_left
    intro i hi
    have hi := List.mem_range.1 hi
    funext m
    simp only [Function.comp]
    rw [hcol, List.getD_eq_getElem _ _ (by simp [column]; omega), List.getElem_map, reduced_scale,
      List.getD_eq_getElem _ _ (by simp [column]; omega)]

end Whole
end S2G
