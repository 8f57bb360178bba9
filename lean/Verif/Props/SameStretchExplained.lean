import Verif.Props.SameStretch
import Verif.Props.ExplainedColumns
import Verif.Props.ExplainedExample

/-!
# C110: equal stretches of the series get equal explanations
-/

namespace S2G
namespace Pipeline
open Scoring Edges

/-- The same part of a walk, at two times, has the same window. -/
theorem window_same {E A C L : List Node} {b : Node} {q a o : Nat} (h : E = A ++ (b :: L).map (shift a) ++ C)
    (hA : ∀ v ∈ A, v.fromId < a) (hb : b.fromId ≤ o) (hL : ∃ v ∈ L, o + (q - 1) < v.fromId) (hC : ∀ v ∈ C, a + o + (q - 1) < v.fromId) :
    windowSpec (pairs E) 0 q (a + o) = (windowSpec (pairs (b :: L)) 0 q o).map (Edge.rename (shift a)) := by
  rw [← window_shift, ← pairs_map, h, List.map_cons]
  refine window_local (fun v hv => by have := hA v hv; omega) (by show a + b.fromId ≤ _; omega) ?_ hC
  obtain ⟨v, hv, h1⟩ := hL
  exact ⟨shift a v, List.mem_map_of_mem hv, by show _ < a + v.fromId; omega⟩

end Pipeline

namespace Contribution

/-- A row whose sum is not zero is kept by the first loop. -/
theorem fillRows_get {n : Nat} : ∀ {rows : List (Fin n → ℚ)} {last : Option (Fin n → ℚ)} {out : List (Fin n → ℚ)} {j : Nat} {r : Fin n → ℚ},
    fillRows last rows = some out → rows[j]? = some r → rowSum r ≠ 0 → out[j]? = some r
  | [], _, _, _, _, _, hj, _ => by simp at hj
  | r0 :: rows, last, out, j, r, h, hj, hr => by
    rw [fillRows] at h
    split at h
    · next h0 =>
      obtain ⟨l, _, h⟩ := Option.bind_eq_some_iff.1 h
      obtain ⟨rest, h1, h⟩ := Option.bind_eq_some_iff.1 h
      cases h
      cases j with
      | zero =>
        cases hj
        exact absurd h0 hr
      | succ j =>
        rw [List.getElem?_cons_succ] at hj ⊢
        exact fillRows_get h1 hj hr
    · obtain ⟨rest, h1, h⟩ := Option.bind_eq_some_iff.1 h
      cases h
      cases j with
      | zero => exact hj
      | succ j =>
        rw [List.getElem?_cons_succ] at hj ⊢
        exact fillRows_get h1 hj hr

/-- A row whose sum is not zero is written as it is. -/
theorem written_get {n : Nat} : ∀ {rows : List (Fin n → ℚ)} {last : Option (Fin n → ℚ)} {j : Nat} {r : Fin n → ℚ},
    rows[j]? = some r → rowSum r ≠ 0 → (written last rows)[j]? = some r
  | [], _, _, _, hj, _ => by simp at hj
  | r0 :: rows, last, j, r, hj, hr => by
    rw [written]
    cases j with
    | zero =>
      cases hj
      simp [hr]
    | succ j => exact written_get (by simpa using hj) hr

/-- The second step subtracts the medians of the columns. -/
theorem shift_medians {n : Nat} {rows out : List (Fin n → ℚ)} (h : shift rows = some out) :
    ∃ ms : Fin n → ℚ, (∀ d, median (rows.map (· d)) = some (ms d)) ∧ out = rows.map (· - ms) := by
  unfold shift at h
  rw [mapM_columns] at h
  split at h
  · next hall =>
    refine ⟨fun d => (median (rows.map (· d))).get (hall d), fun d => (Option.some_get _).symm, ?_⟩
    simp only [Option.bind_eq_bind, Option.bind_some, Option.some.injEq] at h
    rw [← h]
    apply List.map_congr_left
    intro r _
    funext d
    rw [getD_columns]
    rfl
  · cases h

theorem median_five : median [1/4, 1/4, 3/4, 3/4, 1/4] = some (1/4) := by
  have h1 : bucket (1/4) = 20 := by unfold bucket; norm_num
  have h2 : bucket (3/4) = 60 := by unfold bucket; norm_num
  simp only [median, List.mergeSort, List.MergeSort.Internal.splitInTwo]
  simp [List.mergeSort, h1, h2, List.MergeSort.Internal.splitInTwo, -one_div]

/-- C110 (what fails): answers whose sum is zero are replaced by the row before, so the same answer, here at the positions 1 and 3, may be written
as two different rows. The answer at the positions 0 and 4 is not zero, but it is after the median 1/4 is subtracted, and is written as two different
rows, too. -/
theorem C110_counterexample : (finish (nd := 1) [fun _ => 1/4, fun _ => 0, fun _ => 3/4, fun _ => 0, fun _ => 1/4]).map (List.map (· 0)) =
    some [0, 0, 1/2, 1/2, 1/2] := by
  have h1 : fillRows (nd := 1) none [fun _ => 1/4, fun _ => 0, fun _ => 3/4, fun _ => 0, fun _ => 1/4] =
      some [fun _ => 1/4, fun _ => 1/4, fun _ => 3/4, fun _ => 3/4, fun _ => 1/4] := by
    simp [fillRows, rowSum]
  have h2 : shift (nd := 1) [fun _ => 1/4, fun _ => 1/4, fun _ => 3/4, fun _ => 3/4, fun _ => 1/4] =
      some [fun _ => 0, fun _ => 0, fun _ => 1/2, fun _ => 1/2, fun _ => 0] := by
    unfold shift
    have : (List.finRange 1).mapM (fun d => median ([fun _ => 1/4, fun _ => 1/4, fun _ => 3/4, fun _ => 3/4, fun _ => 1/4].map
        (fun r : Fin 1 → ℚ => r d))) = some [1/4] := by
      simp only [List.map_cons, List.map_nil, median_five]
      rfl
    rw [this]
    simp
    norm_num
  rw [finish, h1, Option.bind_some, h2]
  simp [written, rowSum]

end Contribution

namespace Whole
open Pca Rotation Points Pipeline Edges SegState
variable {e w : Nat}

/-- The windows of two equal stretches of a walk are the same, up to the time. -/
theorem stretch_windows {K : List Point} (hid : K.map Point.id = List.range K.length) {rate : Nat} (hseg : ∀ x ∈ K, x.segment < rate)
    (lab : Nat → Nat → Nat) {a b n o q : Nat} (ha : a + n + 1 ≤ K.length) (hb : b + n + 1 ≤ K.length)
    (hsame : ∀ k < n, nodesAt rate lab K a k = nodesAt rate lab K b k)
    (h1 : ∃ t ∈ validSteps rate (K.map toPt), a ≤ t.src.id ∧ t.src.id ≤ a + o)
    (h2 : ∃ t ∈ validSteps rate (K.map toPt), a + o + q ≤ t.src.id ∧ t.src.id < a + n) (hq : 1 ≤ q) :
    ∃ W : List Edge, Scoring.windowSpec (pairs (walk rate lab (validSteps rate (K.map toPt)))) 0 q (a + o) =
        W.map (Edge.rename (Pipeline.shift a)) ∧
      Scoring.windowSpec (pairs (walk rate lab (validSteps rate (K.map toPt)))) 0 q (b + o) = W.map (Edge.rename (Pipeline.shift b)) := by
  obtain ⟨A, C, hW, hA, hC⟩ := walk_stretch hid rate lab ha
  obtain ⟨A', C', hW', hA', hC'⟩ := walk_stretch hid rate lab hb
  have hL : (List.range n).flatMap (nodesAt rate lab K b) = (List.range n).flatMap (nodesAt rate lab K a) :=
    List.flatMap_congr (fun k hk => (hsame k (List.mem_range.1 hk)).symm)
  rw [hL] at hW'
  have hst : ∀ t ∈ validSteps rate (K.map toPt), a ≤ t.src.id → t.src.id < a + n →
      ∃ v ∈ (List.range n).flatMap (nodesAt rate lab K a), a + v.fromId = t.src.id := by
    intro t ht h3 h4
    have ht' := (List.mem_filter.1 ht).1
    rw [steps_numbered hid] at ht'
    obtain ⟨x, _, rfl⟩ := List.mem_map.1 ht'
    have hx : (stepAt K x).src.id = x := rfl
    rw [hx] at h3 h4 ⊢
    obtain ⟨v, hv⟩ := List.exists_mem_of_ne_nil _ (nodesAt_ne hseg lab (a := a) (k := x - a) (by rw [show a + (x - a) = x by omega]; exact ht))
    refine ⟨v, List.mem_flatMap.2 ⟨x - a, List.mem_range.2 (by omega), hv⟩, ?_⟩
    rw [fromId_nodesAt hv]
    omega
  obtain ⟨t, ht, g1, g2⟩ := h1
  obtain ⟨t', ht', g3, g4⟩ := h2
  obtain ⟨v, hv, ev⟩ := hst t ht g1 (by omega)
  obtain ⟨u, hu, eu⟩ := hst t' ht' (by omega) g4
  have hs := stretch_sorted rate lab K a n
  generalize (List.range n).flatMap (nodesAt rate lab K a) = L at hW hW' hv hu hs
  cases L with
  | nil => cases hv
  | cons b0 L =>
    have hb0 : b0.fromId ≤ o := by
      rcases List.mem_cons.1 hv with rfl | hv
      · omega
      · have := (List.pairwise_cons.1 hs).1 v hv
        omega
    have hu' : ∃ v ∈ L, o + (q - 1) < v.fromId := by
      refine ⟨u, ?_, by omega⟩
      rcases List.mem_cons.1 hu with rfl | hu
      · omega
      · exact hu
    exact ⟨_, window_same hW hA hb0 hu' (fun v hv => by have := hC v hv; omega),
      window_same hW' hA' hb0 hu' (fun v hv => by have := hC' v hv; omega)⟩

/-- Crossings with the same label have the same centre. -/
theorem centre_of_label {X V : Type} [DecidableEq V] {nd : Nat} {clu : List X → Option (List Nat × List (Fin nd → V))} {one : X → Fin nd → V} {coord : Inter → X}
    {rate : Nat} {ts : List Trans} {lab : Nat → Nat → Nat} {cen : Nat → Nat → Fin nd → V}
    (h1 : Labelled (fun l => (clu l).map Prod.fst) coord rate ts lab) (h2 : Contribution.Centred clu one coord rate ts cen) {s : Nat}
    (hs : s < rate) {x y : Inter} (hx : x ∈ crossings rate ts s) (hy : y ∈ crossings rate ts s)
    (h : lab x.1.src.id s = lab y.1.src.id s) : cen x.1.src.id s = cen y.1.src.id s := by
  by_cases hl : 2 ≤ (crossings rate ts s).length
  · obtain ⟨labels, table, h3, h4⟩ := (h2 s hs).2 hl
    have h5 := h1 s hs hl
    beta_reduce at h5
    rw [h3] at h5
    have h6 : labels = (crossings rate ts s).reverse.map (fun x => lab x.1.src.id s) := Option.some.inj h5
    rw [h6, List.map_map] at h4
    have h7 := List.map_inj_left.1 h4
    have hx' := h7 x (List.mem_reverse.2 hx)
    have hy' := h7 y (List.mem_reverse.2 hy)
    simp only [Function.comp] at hx' hy'
    rw [h] at hx'
    exact Option.some.inj (hx'.trans hy'.symm)
  · match hc : crossings rate ts s with
    | [] => rw [hc] at hx; cases hx
    | [z] =>
      rw [hc] at hx hy
      rw [List.mem_singleton.1 hx, List.mem_singleton.1 hy]
    | _ :: _ :: _ => rw [hc] at hl; simp at hl

/-- The answers for windows which are the same up to the time are the same. -/
theorem meanRarity_same {V : Type} [DecidableEq V] {nd rate : Nat} {ts : List Trans} {lab : Nat → Nat → Nat} {cen : Nat → Nat → Fin nd → V}
    (hcen : ∀ s < rate, ∀ x ∈ crossings rate ts s, ∀ y ∈ crossings rate ts s, lab x.1.src.id s = lab y.1.src.id s →
      cen x.1.src.id s = cen y.1.src.id s) (hseg : ∀ v ∈ walk rate lab ts, v.seg < rate) {a b : Nat} {W : List Edge}
    (ha : ∀ x ∈ W, Edge.rename (Pipeline.shift a) x ∈ pairs (walk rate lab ts))
    (hb : ∀ x ∈ W, Edge.rename (Pipeline.shift b) x ∈ pairs (walk rate lab ts)) :
    Contribution.meanRarity rate ts cen (W.map (Edge.rename (Pipeline.shift a))) =
      Contribution.meanRarity rate ts cen (W.map (Edge.rename (Pipeline.shift b))) := by
  have hcross : ∀ v ∈ walk rate lab ts, v.cluster = lab v.fromId v.seg ∧ ∃ x ∈ crossings rate ts v.seg, x.1.src.id = v.fromId := by
    intro v hv
    obtain ⟨h2, h3⟩ := mem_walk.1 hv
    obtain ⟨t, ht, hk⟩ := List.mem_flatMap.1 h2
    obtain ⟨s, hs, hk⟩ := List.mem_map.1 hk
    obtain ⟨h4, h5⟩ := Prod.mk.inj hk
    exact ⟨h3, (t, v.seg), List.mem_map.2 ⟨t, List.mem_filter.2 ⟨ht, by rw [← h5]; simpa using hs⟩, rfl⟩, h4⟩
  funext d
  unfold Contribution.meanRarity
  rw [List.map_map, List.map_map, List.length_map, List.length_map]
  congr 2
  apply List.map_congr_left
  intro x hx
  have wa := ends_pairs (mem_ends (ha x hx)).1
  have wb := ends_pairs (mem_ends (hb x hx)).1
  obtain ⟨ca, xa, hxa, ea⟩ := hcross _ wa
  obtain ⟨cb, xb, hxb, eb⟩ := hcross _ wb
  have hs := hseg _ wa
  have key : cen (a + x.src.fromId) x.src.seg = cen (b + x.src.fromId) x.src.seg := by
    have := hcen x.src.seg hs xa hxa xb hxb (by rw [ea, eb]; exact ca.symm.trans cb)
    rw [ea, eb] at this
    exact this
  show Contribution.rarity rate ts cen (Pipeline.shift a x.src) d = Contribution.rarity rate ts cen (Pipeline.shift b x.src) d
  unfold Contribution.rarity Pipeline.shift
  simp only [key]

/-- C110: under the conditions of C90 the questions about two equal stretches have the same answer. If its sum is not zero, neither before nor
after the medians of the columns are subtracted, then the rows of the explanation are equal. -/
theorem C110_same_explanations {lib : Lib w} {resolution order : Nat} {p : Parameters} (hp : p.WellFormed) (hn : p.nClusterNodes = 1)
    {series : List (Fin (e + 1) → ℝ)} (hq : 1 ≤ p.queryLength) (ht : 1 ≤ p.nThreads) (hL : 1 ≤ p.latent)
    (hsl : p.nThreads + p.queryLength + p.patternLength ≤ series.length + 1) {rows : List (Fin (e + 1) → ℚ)}
    (h : Explains lib resolution order p series (some rows)) :
    ∃ pts m lab cen filled, ∃ ms : Fin (e + 1) → ℚ, PointsOf lib p series pts ∧ pts.mapM (mirrorPoint p.rate) = some m ∧
      Labelled (clustering resolution order p e) (fun x => (place p e m pts x).getD []) p.rate (track p m pts) lab ∧
      Contribution.Centred (clusters resolution order p e) (vec (e + 1)) (fun x => (place p e m pts x).getD []) p.rate (track p m pts) cen ∧
      Contribution.fillRows none ((List.range (pts.length - p.queryLength)).map (fun i => Contribution.meanRarity p.rate (track p m pts) cen
        (Contribution.queryWindow (pairs (walk p.rate lab (track p m pts))) p.queryLength i))) = some filled ∧
      (∀ d, Contribution.median (filled.map (· d)) = some (ms d)) ∧ ∀ a b n o, Same series a b n →
      (∃ t ∈ track p m pts, a ≤ t.src.id ∧ t.src.id ≤ a + o) →
      (∃ t ∈ track p m pts, a + o + p.queryLength ≤ t.src.id ∧ t.src.id + p.patternLength < a + n) →
      ∃ r, (∀ c, c = a ∨ c = b → Contribution.meanRarity p.rate (track p m pts) cen
          (Contribution.queryWindow (pairs (walk p.rate lab (track p m pts))) p.queryLength (c + o)) = r) ∧
        (Contribution.rowSum r ≠ 0 → Contribution.rowSum (r - ms) ≠ 0 → rows[a + o]? = some (r - ms) ∧ rows[b + o]? = some (r - ms)) := by
  have hr : 0 < p.rate := by have := hp.1; have := hp.2; omega
  obtain ⟨pts, h1, h2, h3⟩ := h
  obtain ⟨hl, hpl, hnum⟩ := h1.numbered hr
  obtain ⟨m, hm, _⟩ := mirrored_some hr hnum.coords
  obtain ⟨_, hml, hmn⟩ := Cluster.mirrorPt_map hr hnum hm
  have hK : Numbered p.rate e (corrected p m pts) := by
    unfold corrected; split
    · exact hmn
    · exact hnum
  have hKl : (corrected p m pts).length = pts.length := by
    unfold corrected; split
    · exact hml
    · rfl
  have htr : track p m pts = validSteps p.rate ((corrected p m pts).map toPt) := by
    unfold track
    rw [Cluster.effective_toPt hr hnum hm]
  obtain ⟨lab, cen, hlab, hcen, hex, -, -⟩ := C102_points hp hn resolution order hm hnum (by omega) hq (by omega) h2
  have hex' := hex.symm.trans h3
  obtain ⟨out, hex', hw⟩ := Option.map_eq_some_iff.1 hex'
  obtain ⟨filled, hfill, hsh⟩ := Option.bind_eq_some_iff.1 hex'
  obtain ⟨ms, hms, hout⟩ := Contribution.shift_medians hsh
  have hco : ∀ t ∈ track p m pts, ∀ s ∈ t.intersectionSegments p.rate, place p e m pts (t, s) ≠ none := by
    intro t ht' s hs hh
    exact h2 ((C72_scores hp hn resolution order hm hnum (by omega) hq ht (by omega)).1.2 (.inl ⟨t, ht', s, hs, hh⟩))
  refine ⟨pts, m, lab, cen, filled, ms, h1, hm, hlab, hcen, hfill, hms, fun a b n o hs hb hf => ?_⟩
  obtain ⟨t, ht1, g3, g4⟩ := hf
  obtain ⟨hsa, hsb⟩ := hs.1, hs.2.1
  have hsame := corrected_same (p := p) hm (h1.same hL (by omega) hs).1 (h1.same hL (by omega) hs).2
  obtain ⟨N, hN⟩ : ∃ N, n - (p.patternLength - 1) = N + 1 := ⟨n - (p.patternLength - 1) - 1, by omega⟩
  rw [hN] at hsame
  have hlab' := hlab
  have hcl := fun s (hs : s < p.rate) x hx y hy => centre_of_label (by rw [clusters_fst]; exact hlab) hcen hs (x := x) (y := y) hx hy
  unfold place at hlab' hco
  rw [htr] at hlab' hco hb ht1
  have hnodes := fun k (hk : k < N) => nodesAt_same ht hK.ids hK.segs hlab' hco hsame hk
  have ha' := hsame.1
  have hb' := hsame.2.1
  rw [List.length_map] at ha' hb'
  obtain ⟨W, w1, w2⟩ := stretch_windows hK.ids hK.segs lab (a := a) (b := b) (n := N) (o := o) (q := p.queryLength) (by omega) (by omega)
    hnodes hb ⟨t, ht1, g3, by omega⟩ hq
  rw [← htr] at w1 w2
  have hseg : ∀ v ∈ walk p.rate lab (track p m pts), v.seg < p.rate := by
    intro v hv
    obtain ⟨t, _, hk⟩ := List.mem_flatMap.1 (mem_walk.1 hv).1
    obtain ⟨s, hs, hk⟩ := List.mem_map.1 hk
    rw [← (Prod.mk.inj hk).2]
    exact Trans.intersectionSegments_lt hr t s (by simpa using hs)
  have hans : Contribution.meanRarity p.rate (track p m pts) cen
      (Contribution.queryWindow (pairs (walk p.rate lab (track p m pts))) p.queryLength (b + o)) =
      Contribution.meanRarity p.rate (track p m pts) cen
      (Contribution.queryWindow (pairs (walk p.rate lab (track p m pts))) p.queryLength (a + o)) := by
    by_cases hz : ∀ x ∈ pairs (walk p.rate lab (track p m pts)), x.dst.fromId = 0
    · unfold Contribution.queryWindow
      rw [if_pos hz, if_pos hz]
    · have q : ∀ i, Contribution.queryWindow (pairs (walk p.rate lab (track p m pts))) p.queryLength i =
          Scoring.windowSpec (pairs (walk p.rate lab (track p m pts))) 0 p.queryLength i := fun i => if_neg hz
      rw [q, q, w1, w2]
      refine (meanRarity_same hcl hseg (fun x hx => ?_) (fun x hx => ?_)).symm
      · refine Whole.mem_queryWindow (q := p.queryLength) (i := a + o) ?_
        rw [q, w1]
        exact List.mem_map_of_mem hx
      · refine Whole.mem_queryWindow (q := p.queryLength) (i := b + o) ?_
        rw [q, w2]
        exact List.mem_map_of_mem hx
  have row : ∀ i r, i < pts.length - p.queryLength → Contribution.meanRarity p.rate (track p m pts) cen
      (Contribution.queryWindow (pairs (walk p.rate lab (track p m pts))) p.queryLength i) = r → Contribution.rowSum r ≠ 0 →
      Contribution.rowSum (r - ms) ≠ 0 → rows[i]? = some (r - ms) := by
    intro i r hi hir r1 r2
    have f1 := Contribution.fillRows_get (j := i) (r := r) hfill (by rw [List.getElem?_map, List.getElem?_range hi, ← hir]; rfl) r1
    rw [← hw]
    exact Contribution.written_get (by rw [hout, List.getElem?_map, f1]; rfl) r2
  refine ⟨_, ?_, fun r1 r2 => ⟨row _ _ (by omega) rfl r1 r2, row _ _ (by omega) hans r1 r2⟩⟩
  rintro c (rfl | rfl)
  · rfl
  · exact hans

/-- The theorem applies to the run of `ExplainedExample.lean`. -/
example : ∃ rows, Explains hLib 250 0 hP hSeries (some rows) ∧ ∃ pts m, PointsOf hLib hP hSeries pts ∧
    pts.mapM (mirrorPoint hP.rate) = some m ∧ (∃ t ∈ track hP m pts, 0 ≤ t.src.id ∧ t.src.id ≤ 0 + 0) ∧
    ∃ t ∈ track hP m pts, 0 + 0 + hP.queryLength ≤ t.src.id ∧ t.src.id + hP.patternLength < 0 + hSeries.length := by
  obtain ⟨rows, h, _⟩ := hExplains
  obtain ⟨pts, m, lab, cen, filled, ms, h1, h2, -⟩ := C110_same_explanations ⟨by decide, by decide⟩ rfl (by decide) (by decide) (by decide)
    (by simp [hP, hSeries]) h
  refine ⟨rows, h, pts, m, h1, h2, ?_⟩
  have := PointsOf.unique hLib_gram hLib_settled h1 (t := 1) hPoints
  subst this
  rw [hTrack]
  exact ⟨by decide, by simp only [hSeries, List.length_cons, List.length_nil]; decide⟩

end Whole
end S2G
