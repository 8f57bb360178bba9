import Verif.Model.ExplainedHashed
import Verif.Props.WholeExplained
import Verif.Props.WholeHashed

/-!
# C104: the keys of the coordinates and the explanation
-/

namespace S2G
namespace Contribution
open Scoring Weights Edges SegState NodeEst Pipeline Kde
variable {X : Type} {nd : Nat}

theorem mapM_guard {α β : Type} {F F' : α → Option β} {P : α → Prop} (h : ∀ x y, F' x = some y ↔ (P x ∧ F x = some y)) (l : List α) (r : List β) :
    l.mapM F' = some r ↔ ((∀ x ∈ l, P x) ∧ l.mapM F = some r) := by
  rw [mapM_eq_some, mapM_eq_some, ← List.forall₂_and_left]
  simp only [h]

theorem uniquenessColHashed_eq (dim : List ℝ) (counts : List Nat) (r : List ℚ) :
    uniquenessColHashed dim counts = some r ↔ ((∀ x ∈ dim, Fits x) ∧ uniquenessCol dim counts = some r) := by
  unfold uniquenessColHashed
  rw [← hashes_iff]
  cases dim.mapM approximate <;> simp

theorem recordHashed_eq (m : Contribs nd) (nodes : List Node) (centers : List (Fin nd → ℝ)) (counts : List Nat) (m' : Contribs nd) :
    recordHashed m nodes centers counts = some m' ↔ ((∀ c ∈ centers, ∀ d, Fits (c d)) ∧ record m nodes centers counts = some m') := by
  have h1 := mapM_guard (F := fun d => uniquenessCol (centers.map (· d)) counts) (F' := fun d => uniquenessColHashed (centers.map (· d)) counts)
    (P := fun d => ∀ c ∈ centers, Fits (c d)) (fun d r => by
      rw [uniquenessColHashed_eq]
      simp) (List.finRange nd)
  have h2 : (∀ d ∈ List.finRange nd, ∀ c ∈ centers, Fits (c d)) ↔ ∀ c ∈ centers, ∀ d, Fits (c d) :=
    ⟨fun h c hc d => h d (List.mem_finRange d) c hc, fun h d _ c hc => h c hc d⟩
  rw [h2] at h1
  unfold recordHashed record uniquenessHashed uniqueness
  simp only [Option.bind_eq_bind, Option.bind_eq_some_iff, h1]
  constructor
  · rintro ⟨sc, ⟨cols, ⟨a1, a2⟩, a3⟩, a4⟩
    exact ⟨a1, sc, ⟨cols, a2, a3⟩, a4⟩
  · rintro ⟨a1, sc, ⟨cols, a2, a3⟩, a4⟩
    exact ⟨sc, ⟨cols, ⟨a1, a2⟩, a3⟩, a4⟩

/-- The numbers of all centres of a segment which is crossed fit. -/
def SegFits (o : Option (List Nat × List (Fin nd → ℝ))) : Prop := ∀ r, o = some r → r.1 ≠ [] → ∀ c ∈ r.2, ∀ d, Fits (c d)

theorem recordSegmentHashed_eq (m : Contribs nd) (xs : List Inter) (r : List Nat × List (Fin nd → ℝ)) (m' : Contribs nd) :
    recordSegmentHashed m xs r = some m' ↔ ((r.1 ≠ [] → ∀ c ∈ r.2, ∀ d, Fits (c d)) ∧ recordSegment m xs r = some m') := by
  unfold recordSegmentHashed recordSegment
  split
  · rename_i h
    simp [h]
  · rename_i h
    rw [recordHashed_eq]
    simp [h]

theorem segmentClusters_hashed {clu cluH : List X → Option (List Nat × List (Fin nd → ℝ))} (hb : ByCentre clu)
    (hsub : ∀ l r, cluH l = some r ↔ (clu l = some r ∧ ∀ c ∈ r.2, ∀ d, Fits (c d))) (one : X → Fin nd → ℝ) (coord : Inter → X)
    (xs : List Inter) (m m' : Contribs nd) :
    (∃ r, segmentClusters cluH one coord xs = some r ∧ recordSegmentHashed m xs r = some m') ↔
      (SegFits (segmentClusters clu one coord xs) ∧ ∃ r, segmentClusters clu one coord xs = some r ∧ recordSegment m xs r = some m') := by
  have key : ∀ r, (segmentClusters cluH one coord xs = some r ∧ (r.1 ≠ [] → ∀ c ∈ r.2, ∀ d, Fits (c d))) ↔
      (segmentClusters clu one coord xs = some r ∧ (r.1 ≠ [] → ∀ c ∈ r.2, ∀ d, Fits (c d))) := by
    intro r
    match xs with
    | [] => exact Iff.rfl
    | [x] => exact Iff.rfl
    | x :: y :: xs =>
      constructor
      · rintro ⟨h1, h2⟩
        exact ⟨((hsub _ _).1 h1).1, h2⟩
      · rintro ⟨h1, h2⟩
        refine ⟨(hsub _ _).2 ⟨h1, h2 ?_⟩, h2⟩
        obtain ⟨cs, h3, h4⟩ := hb _ r (by simp) h1
        intro h0
        have := (extractLabels_eq (labels := r.1) (table := r.2) h4).2.2.1
        rw [h0] at this
        have := congrArg List.length this
        simp [h3] at this
  simp only [recordSegmentHashed_eq]
  constructor
  · rintro ⟨r, h1, h2, h3⟩
    have h4 := ((key r).1 ⟨h1, h2⟩).1
    refine ⟨?_, r, h4, h3⟩
    intro r' hr'
    cases Option.some.inj (h4.symm.trans hr')
    exact h2
  · rintro ⟨h1, r, h2, h3⟩
    exact ⟨r, ((key r).2 ⟨h2, h1 r h2⟩).1, h1 r h2, h3⟩

theorem recordLoop_hashed {clu cluH : List X → Option (List Nat × List (Fin nd → ℝ))} (hb : ByCentre clu)
    (hsub : ∀ l r, cluH l = some r ↔ (clu l = some r ∧ ∀ c ∈ r.2, ∀ d, Fits (c d))) (one : X → Fin nd → ℝ) (coord : Inter → X)
    (rate : Nat) (stored : List Inter) : ∀ n seg m m', rate - seg ≤ n →
    (recordLoopHashed cluH one coord rate stored seg m = some m' ↔
      ((∀ s, seg ≤ s → (s = seg ∨ s < rate) → SegFits (segmentClusters clu one coord (stored.filter (fun x => x.2 = s)))) ∧
        recordLoop clu one coord rate stored seg m = some m')) := by
  have base : ∀ seg m m', ¬ seg + 1 < rate → (recordLoopHashed cluH one coord rate stored seg m = some m' ↔
      ((∀ s, seg ≤ s → (s = seg ∨ s < rate) → SegFits (segmentClusters clu one coord (stored.filter (fun x => x.2 = s)))) ∧
        recordLoop clu one coord rate stored seg m = some m')) := by
    intro seg m m' hn
    rw [recordLoopHashed, recordLoop]
    simp only [hn, dite_false, Option.bind_eq_bind]
    have h1 := segmentClusters_hashed hb hsub one coord (stored.filter (fun x => x.2 = seg)) m m'
    have h2 : (∀ s, seg ≤ s → (s = seg ∨ s < rate) → SegFits (segmentClusters clu one coord (stored.filter (fun x => x.2 = s)))) ↔
        SegFits (segmentClusters clu one coord (stored.filter (fun x => x.2 = seg))) := by
      constructor
      · exact fun h => h seg le_rfl (.inl rfl)
      · intro h s h3 h4
        have : s = seg := by omega
        rw [this]
        exact h
    rw [h2]
    simpa only [Option.bind_some, Option.bind_eq_some_iff, Option.bind_fun_some] using h1
  intro n
  induction n with
  | zero => exact fun seg m m' hn => base seg m m' (by omega)
  | succ n ih =>
    intro seg m m' hn
    by_cases hs : seg + 1 < rate
    · rw [recordLoopHashed, recordLoop]
      simp only [hs, dite_true, Option.bind_eq_bind]
      have h1 := fun m1 => segmentClusters_hashed hb hsub one coord (stored.filter (fun x => x.2 = seg)) m m1
      have h2 : (∀ s, seg ≤ s → (s = seg ∨ s < rate) → SegFits (segmentClusters clu one coord (stored.filter (fun x => x.2 = s)))) ↔
          (SegFits (segmentClusters clu one coord (stored.filter (fun x => x.2 = seg))) ∧
          ∀ s, seg + 1 ≤ s → (s = seg + 1 ∨ s < rate) → SegFits (segmentClusters clu one coord (stored.filter (fun x => x.2 = s)))) := by
        constructor
        · exact fun h => ⟨h seg le_rfl (.inl rfl), fun s h3 h4 => h s (by omega) (by omega)⟩
        · rintro ⟨h, h'⟩ s h3 h4
          rcases Nat.eq_or_lt_of_le h3 with rfl | h5
          · exact h
          · exact h' s h5 (by omega)
      rw [h2]
      simp only [Option.bind_eq_some_iff]
      constructor
      · rintro ⟨r, a1, m1, a2, a3⟩
        obtain ⟨b1, r', b2, b3⟩ := (h1 m1).1 ⟨r, a1, a2⟩
        obtain ⟨c1, c2⟩ := (ih _ _ _ (by omega)).1 a3
        exact ⟨⟨b1, c1⟩, r', b2, m1, b3, c2⟩
      · rintro ⟨⟨b1, c1⟩, r', b2, m1, b3, c2⟩
        obtain ⟨r, a1, a2⟩ := (h1 m1).2 ⟨b1, r', b2, b3⟩
        exact ⟨r, a1, m1, a2, (ih _ _ _ (by omega)).2 ⟨c1, c2⟩⟩
    · exact base seg m m' hs

end Contribution

namespace Whole
open Pca Rotation Points Pipeline Contribution SegState Kde
variable {e w : Nat}

theorem clustersHashed_eq (resolution order : Nat) (p : Parameters) (e : Nat) (data : List (List ℝ)) (r : List Nat × List (Fin (e + 1) → ℝ)) :
    clustersHashed resolution order p e data = some r ↔
      (clusters resolution order p e data = some r ∧ ∀ c ∈ r.2, ∀ d, Fits (c d)) := by
  have hvec : ∀ {labels : List Nat} {table : List (List ℝ)}, cluster p.nThreads resolution order (e + 1) data = some (labels, table) →
      ((∀ c ∈ table.map (vec (e + 1)), ∀ d, Fits (c d)) ↔ ∀ c ∈ table, ∀ x ∈ c, Fits x) := by
    intro labels table h
    classical
    obtain ⟨rows, h2, h3⟩ := (Kde.cluster_rows _ _ _ _ _ _).1 h
    have hl : ∀ c ∈ table, c.length = e + 1 := fun c hc => (centerRows_length h2).2 c (((Contribution.extractLabels_eq h3).2.1 c).1 hc)
    constructor
    · intro h c hc x hx
      obtain ⟨i, hi, rfl⟩ := List.getElem_of_mem hx
      have := h _ (List.mem_map_of_mem hc) ⟨i, by rw [← hl c hc]; exact hi⟩
      unfold vec at this
      rwa [List.getD_eq_getElem _ _ hi] at this
    · intro h c hc d
      obtain ⟨c', hc', rfl⟩ := List.mem_map.1 hc
      unfold vec
      have hd : (d : Nat) < c'.length := by rw [hl c' hc']; exact d.2
      rw [List.getD_eq_getElem _ _ hd]
      exact h c' hc' _ (List.getElem_mem hd)
  unfold clustersHashed clusters
  simp only [Option.map_eq_some_iff]
  constructor
  · rintro ⟨⟨labels, table⟩, h1, rfl⟩
    obtain ⟨h2, h3⟩ := (C101_cluster _ _ _ _ _ _ _).1 h1
    exact ⟨⟨_, h2, rfl⟩, (hvec h2).2 h3⟩
  · rintro ⟨⟨⟨labels, table⟩, h1, rfl⟩, h2⟩
    exact ⟨_, (C101_cluster _ _ _ _ _ _ _).2 ⟨h1, (hvec h1).1 h2⟩, rfl⟩

theorem clustersHashed_fst (resolution order : Nat) (p : Parameters) (e : Nat) :
    (fun l => (clustersHashed resolution order p e l).map Prod.fst) = clusteringHashed resolution order p e := by
  funext l
  unfold clustersHashed clusteringHashed
  rw [Option.map_map]
  rfl

/-- The numbers of the only crossing fit, in every segment which is crossed once. -/
def SinglesFit (p : Parameters) (e : Nat) (mirrored pts : List Point) : Prop :=
  ∀ s < p.rate, ∀ x, crossings p.rate (track p mirrored pts) s = [x] → ∀ l, place p e mirrored pts x = some l → ∀ y ∈ l, Fits y

theorem explanationHashed_eq {p : Parameters} (hp : p.WellFormed) (hn : p.nClusterNodes = 1) (resolution order e len : Nat) {mirrored pts : List Point}
    (hm : pts.mapM (mirrorPoint p.rate) = some mirrored) :
    explanationHashed resolution order p e len pts = explanationWithHashed resolution order p e len (mirrorPt mirrored) (pts.map toPt)
      (corrected p mirrored pts) (track p mirrored pts) := by
  obtain ⟨s, h1, h2⟩ := segment_spec hp hn (mirrorPt mirrored) (pts.map toPt)
  unfold explanationHashed
  simp only [hm, Option.bind_eq_bind, Option.bind_some, effectivePoints_eq hp hn, h1, h2]
  rfl

/-- C104 (from the points to the explanation): if the run with the hash gets as far as the scores, its explanation is the one without the hash;
there is one exactly if there is one without the hash, and the numbers of the crossings which are alone in their segments fit. -/
theorem C104_points {p : Parameters} (hp : p.WellFormed) (hn : p.nClusterNodes = 1) (resolution order : Nat) {e len : Nat}
    {mirrored pts : List Point} (hm : pts.mapM (mirrorPoint p.rate) = some mirrored) (hnum : Numbered p.rate e pts)
    (hlen : pts.length ≤ len) (hs : scoreHashed resolution order p e len pts ≠ none) (out : List (Fin (e + 1) → ℚ)) :
    explanationHashed resolution order p e len pts = some out ↔
      (explanation resolution order p e len pts = some out ∧ SinglesFit p e mirrored pts) := by
  have hr : 0 < p.rate := by have := hp.1; have := hp.2; omega
  obtain ⟨m', hm', hmid, hmc, hms⟩ := mirrored_some hr hnum.coords
  rw [hm] at hm'
  cases hm'
  obtain ⟨s0, hs0⟩ := Option.ne_none_iff_exists'.1 hs
  obtain ⟨_, hfit⟩ := (C101_score hp hn resolution order hm hnum hlen s0).1 hs0
  rw [scoreHashed_eq hp hn resolution order e len hm] at hs
  rw [explanation_eq hp hn resolution order e len hm, explanationHashed_eq hp hn resolution order e len hm]
  unfold scoreWithHashed at hs
  unfold explanationWith explanationWithHashed
  split at hs
  · rename_i hall
    rw [if_pos hall, if_pos hall]
    have hlenp : (pts.map toPt).length = pts.length := List.length_map _
    have hid : (pts.map toPt).map Pt.id = List.range (pts.map toPt).length := by rw [toPt_ids, hnum.ids, hlenp]
    have hseg : ∀ x ∈ pts.map toPt, x.seg < p.rate := by
      intro x hx
      obtain ⟨y, hy, rfl⟩ := List.mem_map.1 hx
      exact hnum.segs y hy
    have hmir := fun a => mirrorPt_spec hms a
    have heid : (effective p (mirrorPt mirrored) (pts.map toPt)).Pairwise (fun a b => a.id < b.id) ∧
        (∀ x ∈ effective p (mirrorPt mirrored) (pts.map toPt), x.seg < p.rate) ∧
        ∀ x ∈ effective p (mirrorPt mirrored) (pts.map toPt), x.id < len := by
      have key : ∀ l : List Pt, l.map Pt.id = List.range l.length → l.length = pts.length →
          l.Pairwise (fun a b => a.id < b.id) ∧ ∀ x ∈ l, x.id < len := by
        intro l h1 h2
        obtain ⟨a, b⟩ := Pipeline.numbered h1
        exact ⟨a, fun x hx => by have := b x hx; omega⟩
      unfold effective
      split
      · obtain ⟨a, b⟩ := key ((pts.map toPt).map (mirrorPt mirrored)) (by
          rw [List.length_map, ← hid, List.map_map]
          apply List.map_congr_left
          intro x _
          exact (hmir x).1) (by simp)
        refine ⟨a, ?_, b⟩
        intro x hx
        obtain ⟨y, hy, rfl⟩ := List.mem_map.1 hx
        exact (hmir y).2 (hseg y hy)
      · obtain ⟨a, b⟩ := key _ hid hlenp
        exact ⟨a, hseg, b⟩
    obtain ⟨es, hesH⟩ : ∃ es, localEdges (clusteringHashed resolution order p e) (fun x => (place p e mirrored pts x).getD []) (mirrorPt mirrored)
        p len (pts.map toPt) = some es := by
      apply Option.ne_none_iff_exists'.1
      intro h0
      apply hs
      unfold localRun
      unfold place at h0
      rw [h0]
      rfl
    have hes := localEdges_mono (fun l r h => clusteringHashed_sub h) _ _ _ _ _ hesH
    obtain ⟨sg, x, lab, a1, a2, a3, a4, a5⟩ := localEdges_labels (clustering_oneLabel resolution order p e) _ _ hp hn heid.2.1 heid.1 heid.2.2 hes
    have hrec := fun m' => recordLoop_hashed (clusters_byCentre resolution order p e) (clustersHashed_eq resolution order p e) (vec (e + 1))
      (fun x => (place p e mirrored pts x).getD []) p.rate x.stored p.rate 0 (fun _ => none) m' (by omega)
    have hfits : (∀ s, 0 ≤ s → (s = 0 ∨ s < p.rate) → SegFits (segmentClusters (clusters resolution order p e) (vec (e + 1))
        (fun x => (place p e mirrored pts x).getD []) (x.stored.filter (fun x => x.2 = s)))) ↔ SinglesFit p e mirrored pts := by
      have htr : validSteps p.rate (effective p (mirrorPt mirrored) (pts.map toPt)) = track p mirrored pts := rfl
      rw [htr] at a3
      simp only [a3]
      have hone : ∀ s y, crossings p.rate (track p mirrored pts) s = [y] → ∃ l, place p e mirrored pts y = some l ∧ l.length = e + 1 := by
        intro s y hy
        have hmem : y ∈ crossings p.rate (track p mirrored pts) s := by rw [hy]; simp
        have h1 : (place p e mirrored pts y).isSome := by
          have := List.all_eq_true.1 hall y ?_
          · exact this
          · unfold intersectionTasks
            unfold crossings at hmem
            obtain ⟨t, ht, rfl⟩ := List.mem_map.1 hmem
            obtain ⟨ht1, ht2⟩ := List.mem_filter.1 ht
            exact List.mem_reverse.2 (List.mem_flatMap.2 ⟨t, ht1, List.mem_map.2 ⟨s, by simpa using ht2, rfl⟩⟩)
        obtain ⟨l, hl⟩ := Option.isSome_iff_exists.1 h1
        refine ⟨l, hl, ?_⟩
        unfold place interCoord at hl
        obtain ⟨z, _, rfl⟩ := Option.map_eq_some_iff.1 hl
        simp
      constructor
      · intro h s hs y hy l hl z hz
        have := h s (Nat.zero_le _) (.inr hs)
        rw [hy] at this
        have h2 := this _ rfl (by simp) (vec (e + 1) l) (by simp [hl])
        obtain ⟨l', hl', hlen'⟩ := hone s y hy
        cases Option.some.inj (hl.symm.trans hl')
        obtain ⟨i, hi, rfl⟩ := List.getElem_of_mem hz
        have h3 := h2 ⟨i, by omega⟩
        unfold vec at h3
        rwa [List.getD_eq_getElem _ _ hi] at h3
      · intro h s _ hs
        have hs : s < p.rate := by omega
        intro r hr hne c hc d
        match hL : crossings p.rate (track p mirrored pts) s with
        | [] =>
          rw [hL] at hr
          cases hr
          exact absurd rfl hne
        | [y] =>
          rw [hL] at hr
          cases hr
          obtain ⟨l, hl, hlen'⟩ := hone s y hL
          rw [List.mem_singleton.1 hc]
          have hd : (d : Nat) < l.length := by omega
          show Fits (((place p e mirrored pts y).getD []).getD d 0)
          rw [hl, Option.getD_some]
          rw [List.getD_eq_getElem _ _ hd]
          exact h s hs y hL l hl _ (List.getElem_mem hd)
        | y :: y' :: L =>
          have h2 : 2 ≤ (crossings p.rate (track p mirrored pts) s).length := by rw [hL]; simp
          have hseg' : clusters resolution order p e (segmentData p e mirrored pts s) = some r := by
            unfold segmentData
            generalize hR : (crossings p.rate (track p mirrored pts) s).reverse = R at hr
            have hRl : 2 ≤ R.length := by rw [← hR, List.length_reverse]; exact h2
            match R, hRl with
            | _ :: _ :: _, _ => exact hr
          refine ((clustersHashed_eq resolution order p e (segmentData p e mirrored pts s) r).1 ?_).2 c hc d
          obtain ⟨⟨labels, table⟩, h3, h4⟩ := Option.map_eq_some_iff.1 hseg'
          exact Option.map_eq_some_iff.2 ⟨_, (C101_cluster _ _ _ _ _ _ _).2 ⟨h3, hfit s hs h2 _ _ h3⟩, h4⟩
    unfold localExplanationHashed localExplanation recordedHashed recorded
    rw [clustersHashed_fst, clusters_fst]
    have hesH' : localEdges (clusteringHashed resolution order p e) (fun x => (interCoord e (corrected p mirrored pts) (track p mirrored pts)
      p.rate x).getD []) (mirrorPt mirrored) p len (pts.map toPt) = some es := hesH
    have hes' : localEdges (clustering resolution order p e) (fun x => (interCoord e (corrected p mirrored pts) (track p mirrored pts)
      p.rate x).getD []) (mirrorPt mirrored) p len (pts.map toPt) = some es := hes
    rw [hfits] at hrec
    have hrec' : ∀ m', recordLoopHashed (clustersHashed resolution order p e) (vec (e + 1)) (fun x => (interCoord e (corrected p mirrored pts)
        (track p mirrored pts) p.rate x).getD []) p.rate x.stored 0 (fun _ => none) = some m' ↔ (SinglesFit p e mirrored pts ∧
        recordLoop (clusters resolution order p e) (vec (e + 1)) (fun x => (interCoord e (corrected p mirrored pts)
        (track p mirrored pts) p.rate x).getD []) p.rate x.stored 0 (fun _ => none) = some m') := hrec
    simp only [a1, a2, hesH', hes', NodeEst.startSegment_eq hp, Option.bind_eq_bind, Option.bind_some, Option.bind_eq_some_iff, Nat.mul_zero, hrec']
    constructor
    · rintro ⟨m, ⟨b1, b2⟩, b3⟩
      exact ⟨⟨m, b2, b3⟩, b1⟩
    · rintro ⟨⟨m, b2, b3⟩, b1⟩
      exact ⟨m, ⟨b1, b2⟩, b3⟩
  · exact absurd rfl hs

/-- **C104.** A run with the hash which gets as far as the scores ends as the run without the hash if the numbers of the crossings which are alone
in their segments fit, and otherwise with a panic. -/
theorem C104_explains (lib : Lib w) {p : Parameters} (hp : p.WellFormed) (hn : p.nClusterNodes = 1) (resolution order : Nat)
    (series : List (Fin (e + 1) → ℝ)) (out : Option (List (Fin (e + 1) → ℚ))) :
    ExplainsHashed lib resolution order p series out ↔ ∃ pts mirrored, PointsOf lib p series pts ∧
      pts.mapM (mirrorPoint p.rate) = some mirrored ∧ CentresFit resolution order p e mirrored pts ∧
      score resolution order p e series.length pts ≠ none ∧
      (SinglesFit p e mirrored pts → out = explanation resolution order p e series.length pts) ∧
      (¬ SinglesFit p e mirrored pts → out = none) := by
  have hr : 0 < p.rate := by have := hp.1; have := hp.2; omega
  have key : ∀ {pts mirrored : List Point}, PointsOf lib p series pts → pts.mapM (mirrorPoint p.rate) = some mirrored →
      scoreHashed resolution order p e series.length pts ≠ none →
      ((explanationHashed resolution order p e series.length pts = out) ↔
        ((SinglesFit p e mirrored pts → out = explanation resolution order p e series.length pts) ∧
          (¬ SinglesFit p e mirrored pts → out = none))) := by
    intro pts mirrored h1 hm h2
    obtain ⟨hl, hpl, hnum⟩ := h1.numbered hr
    have h3 := C104_points hp hn resolution order hm hnum (by omega) h2
    by_cases hf : SinglesFit p e mirrored pts
    · have : explanationHashed resolution order p e series.length pts = explanation resolution order p e series.length pts := by
        apply Option.ext
        intro r
        rw [h3 r]
        exact and_iff_left hf
      rw [this]
      simp only [hf, true_imp_iff, not_true, false_imp_iff, and_true]
      exact eq_comm
    · have : explanationHashed resolution order p e series.length pts = none := by
        rw [Option.eq_none_iff_forall_ne_some]
        intro r h
        exact hf ((h3 r).1 h).2
      rw [this]
      simp only [hf, false_imp_iff, not_false_eq_true, true_imp_iff, true_and]
      exact eq_comm
  constructor
  · rintro ⟨pts, h1, h2, h3⟩
    obtain ⟨hl, hpl, hnum⟩ := h1.numbered hr
    obtain ⟨m, hm, _⟩ := mirrored_some hr hnum.coords
    obtain ⟨s0, hs0⟩ := Option.ne_none_iff_exists'.1 h2
    obtain ⟨h4, h5⟩ := (C101_score hp hn resolution order hm hnum (by omega) s0).1 hs0
    exact ⟨pts, m, h1, hm, h5, by rw [h4]; simp, (key h1 hm h2).1 h3⟩
  · rintro ⟨pts, m, h1, hm, h5, h4, h3⟩
    obtain ⟨hl, hpl, hnum⟩ := h1.numbered hr
    obtain ⟨s0, hs0⟩ := Option.ne_none_iff_exists'.1 h4
    have h2 : scoreHashed resolution order p e series.length pts ≠ none := by
      rw [(C101_score hp hn resolution order hm hnum (by omega) s0).2 ⟨hs0, h5⟩]
      simp
    exact ⟨pts, h1, h2, (key h1 hm h2).2 h3⟩

/-- **C104.** An explanation which is written with the hash is written without: C102 and C103 are true of it. -/
theorem C104_sound (lib : Lib w) {p : Parameters} (hp : p.WellFormed) (hn : p.nClusterNodes = 1) {resolution order : Nat}
    {series : List (Fin (e + 1) → ℝ)} {rows : List (Fin (e + 1) → ℚ)} (h : ExplainsHashed lib resolution order p series (some rows)) :
    Explains lib resolution order p series (some rows) := by
  obtain ⟨pts, m, h1, hm, _, h2, h3, h4⟩ := (C104_explains lib hp hn resolution order series (some rows)).1 h
  refine ⟨pts, h1, h2, ?_⟩
  by_cases hf : SinglesFit p e m pts
  · exact (h3 hf).symm
  · cases h4 hf

/-- **C104.** If no distance of a crossing exceeds `2^63 / 88` (about 10^17), the hash makes no difference. -/
theorem C104_no_difference (lib : Lib w) {p : Parameters} (hp : p.WellFormed) (hn : p.nClusterNodes = 1) {resolution order : Nat}
    {series : List (Fin (e + 1) → ℝ)} {B : ℝ} (hB : 88 * B < 2 ^ 63) (h : ∀ pts mirrored, PointsOf lib p series pts →
      pts.mapM (mirrorPoint p.rate) = some mirrored → ∀ s < p.rate, ∀ row ∈ segmentData p e mirrored pts s, ∀ x ∈ row, x ≤ B)
    (out : Option (List (Fin (e + 1) → ℚ))) :
    ExplainsHashed lib resolution order p series out ↔ Explains lib resolution order p series out := by
  have hr : 0 < p.rate := by have := hp.1; have := hp.2; omega
  have hnn : ∀ {pts mirrored : List Point} {s : Nat} {row : List ℝ}, row ∈ segmentData p e mirrored pts s → ∀ x ∈ row, 0 ≤ x := by
    intro pts mirrored s row hrow x hx
    unfold segmentData at hrow
    obtain ⟨y, _, rfl⟩ := List.mem_map.1 hrow
    unfold place interCoord at hx
    cases hz : Geometry.intersectionPoint (m := 2 * e) ((track p mirrored pts).map (ends (corrected p mirrored pts))) p.rate
        (ends (corrected p mirrored pts) y.1) y.2 with
    | none =>
      rw [hz] at hx
      cases hx
    | some z =>
      rw [hz] at hx
      obtain ⟨i, rfl⟩ := List.mem_ofFn.1 hx
      exact Real.sqrt_nonneg _
  have hS : ∀ {pts mirrored : List Point}, PointsOf lib p series pts → pts.mapM (mirrorPoint p.rate) = some mirrored →
      SinglesFit p e mirrored pts := by
    intro pts mirrored h1 hm s hs x hx l hl y hy
    have hrow : l ∈ segmentData p e mirrored pts s := by
      unfold segmentData
      rw [hx]
      simp [hl]
    have h2 := h pts mirrored h1 hm s hs l hrow y hy
    have h3 := hnn hrow y hy
    refine Fits.of_abs ?_
    rw [abs_of_nonneg h3]
    linarith
  have hC : ∀ {pts mirrored : List Point}, PointsOf lib p series pts → pts.mapM (mirrorPoint p.rate) = some mirrored →
      CentresFit resolution order p e mirrored pts := by
    intro pts mirrored h1 hm s hs _ labels table hcl c hc x hx
    refine Fits.of_abs ?_
    have := C101_centres hcl (B := B) (fun row hrow y hy => ⟨hnn hrow y hy, h pts mirrored h1 hm s hs row hrow y hy⟩) hc hx
    linarith
  rw [C104_explains lib hp hn]
  constructor
  · rintro ⟨pts, m, h1, hm, _, h2, h3, _⟩
    exact ⟨pts, h1, h2, (h3 (hS h1 hm)).symm⟩
  · rintro ⟨pts, h1, h2, h3⟩
    obtain ⟨hl, hpl, hnum⟩ := h1.numbered hr
    obtain ⟨m, hm, _⟩ := mirrored_some hr hnum.coords
    exact ⟨pts, m, h1, hm, hC h1 hm, h2, fun _ => h3.symm, fun hn => absurd (hS h1 hm) hn⟩

/-- The numbers of the only crossings fit when they are expressed in another unit. -/
def SinglesFitIn (a : ℝ) (p : Parameters) (e : Nat) (mirrored pts : List Point) : Prop :=
  ∀ s < p.rate, ∀ x, crossings p.rate (track p mirrored pts) s = [x] → ∀ l, place p e mirrored pts x = some l → ∀ y ∈ l, Fits (a * y)

theorem singlesFit_scale {a : ℝ} (ha : 0 < a) (p : Parameters) (e : Nat) (mirrored pts : List Point) :
    SinglesFit p e (mirrored.map (scalePt a)) (pts.map (scalePt a)) ↔ SinglesFitIn a p e mirrored pts := by
  unfold SinglesFit SinglesFitIn place
  simp only [track_scale, corrected_scale, interCoord_scale ha]
  constructor
  · intro h s hs x hx l hl y hy
    exact h s hs x hx (l.map (a * ·)) (by rw [hl]; rfl) _ (List.mem_map_of_mem hy)
  · intro h s hs x hx l hl y hy
    obtain ⟨l', hl', rfl⟩ := Option.map_eq_some_iff.1 hl
    obtain ⟨y', hy', rfl⟩ := List.mem_map.1 hy
    exact h s hs x hx l' hl' y' hy'

/-- **C104 (units).** In the unit with factor `a` the run with the hash gets as far as the scores if all centres fit in that unit, and then it is
explained as in the given unit (without the hash) if the crossings which are alone in their segments fit as well, and panics otherwise. -/
theorem C104_unit {lib : Lib w} (hqr : ∀ A, gram (lib.qr A) = gram A) (resolution order : Nat) {p : Parameters} (hp : p.WellFormed)
    (hn : p.nClusterNodes = 1) {series : List (Fin (e + 1) → ℝ)} (hs : ∀ m, Settled lib (windows w p series m)) {a : ℝ} (ha : 0 < a)
    (out : Option (List (Fin (e + 1) → ℚ))) :
    ExplainsHashed lib resolution order p (series.map (a • ·)) out ↔ ∃ pts mirrored, PointsOf lib p series pts ∧
      pts.mapM (mirrorPoint p.rate) = some mirrored ∧ CentresFitIn a resolution order p e mirrored pts ∧
      score resolution order p e series.length pts ≠ none ∧
      (SinglesFitIn a p e mirrored pts → out = explanation resolution order p e series.length pts) ∧
      (¬ SinglesFitIn a p e mirrored pts → out = none) := by
  have hr : 0 < p.rate := by have := hp.1; have := hp.2; omega
  rw [C104_explains lib hp hn]
  constructor
  · rintro ⟨pts', m', h1, hm', h2, h3, h4, h5⟩
    obtain ⟨pts, h6, rfl⟩ := points_scale hqr hs ha h1
    obtain ⟨hl, hpl, hnum⟩ := h6.numbered hr
    obtain ⟨m, hm, _⟩ := mirrored_some hr hnum.coords
    rw [mapM_mirror ha, hm] at hm'
    cases hm'
    rw [centresFit_scale ha] at h2
    rw [score_scale ha, List.length_map] at h3
    rw [singlesFit_scale ha] at h4 h5
    rw [explanation_scale ha, List.length_map] at h4
    exact ⟨pts, m, h6, hm, h2, h3, h4, h5⟩
  · rintro ⟨pts, m, h1, hm, h2, h3, h4, h5⟩
    refine ⟨_, m.map (scalePt a), h1.scale hqr hs ha, ?_, (centresFit_scale ha _ _ _ _ _ _).2 h2, ?_, ?_, ?_⟩
    · rw [mapM_mirror ha, hm]
      rfl
    · rw [score_scale ha, List.length_map]
      exact h3
    · rw [singlesFit_scale ha, explanation_scale ha, List.length_map]
      exact h4
    · rw [singlesFit_scale ha]
      exact h5

end Whole
end S2G
