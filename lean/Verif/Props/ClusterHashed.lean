import Verif.Model.ClusterHashed
import Verif.Props.CrossingBound
import Verif.Props.ClusterRunExample

/-!
# C108: keys of the cluster centres on several nodes
-/

namespace S2G
namespace NodeEst

/-- A clustering which gives the same labels where another one gives labels leads to the same nodes. -/
theorem estimateNodes_mono {X : Type} {c1 c2 : List X → Option (List Nat)} {coord : Inter → X} {stored : List Inter}
    (h : ∀ seg r, 2 ≤ (stored.filter (fun x => x.2 = seg)).length → c1 ((stored.filter (fun x => x.2 = seg)).map coord) = some r →
      c2 ((stored.filter (fun x => x.2 = seg)).map coord) = some r)
    {p : Parameters} {j : Nat} {nodes : List Node} (h0 : estimateNodes c1 coord p j stored = some nodes) :
    estimateNodes c2 coord p j stored = some nodes := by
  have h1 : ∀ seg r, segmentLabels c1 coord (stored.filter (fun x => x.2 = seg)) = some r →
      segmentLabels c2 coord (stored.filter (fun x => x.2 = seg)) = some r := by
    intro seg r hr
    have := h seg r
    generalize stored.filter (fun x => x.2 = seg) = xs at this hr ⊢
    match xs with
    | [] => exact hr
    | [_] => exact hr
    | x :: y :: xs => exact this (by simp) hr
  have h2 : ∀ n seg rate acc r, rate - seg ≤ n → estimateLoop c1 coord rate stored seg acc = some r →
      estimateLoop c2 coord rate stored seg acc = some r := by
    intro n
    induction n with
    | zero =>
      intro seg rate acc r hn hl
      rw [estimateLoop] at hl ⊢
      obtain ⟨l, hl1, hl2⟩ := Option.bind_eq_some_iff.1 hl
      refine Option.bind_eq_some_iff.2 ⟨l, h1 _ _ hl1, ?_⟩
      simp only [show ¬ seg + 1 < rate by omega, dite_false] at hl2 ⊢
      exact hl2
    | succ n ih =>
      intro seg rate acc r hn hl
      rw [estimateLoop] at hl ⊢
      obtain ⟨l, hl1, hl2⟩ := Option.bind_eq_some_iff.1 hl
      refine Option.bind_eq_some_iff.2 ⟨l, h1 _ _ hl1, ?_⟩
      by_cases hs : seg + 1 < rate
      · simp only [hs, dite_true] at hl2 ⊢
        exact ih _ _ _ _ (by omega) hl2
      · simp only [hs, dite_false] at hl2 ⊢
        exact hl2
  unfold estimateNodes at h0 ⊢
  obtain ⟨s, hs, h3⟩ := Option.bind_eq_some_iff.1 h0
  exact Option.bind_eq_some_iff.2 ⟨s, hs, h2 _ _ _ _ _ le_rfl h3⟩

end NodeEst

namespace Kde

/-- The centres do not depend on the order of the rows. -/
theorem cluster_table_perm {t resolution order dims : Nat} (ht : 1 ≤ t) {data data' : List (List ℝ)}
    (hd : ∀ row ∈ data, row.length = dims) (h2 : 2 ≤ data.length) (h : data.Perm data') {ls ls' : List Nat} {tb tb' : List (List ℝ)}
    (h1 : cluster t resolution order dims data = some (ls, tb)) (h1' : cluster t resolution order dims data' = some (ls', tb')) (c : List ℝ) :
    c ∈ tb ↔ c ∈ tb' := by
  classical
  have hd' : ∀ row ∈ data', row.length = dims := fun row hr => hd row (h.mem_iff.2 hr)
  have hfs : (List.range dims).mapM (fun c => centerFn t resolution order (column data c)) =
      (List.range dims).mapM (fun c => centerFn t resolution order (column data' c)) := by
    apply mapM_congr'
    intro c _
    exact centerFn_perm ht (h.map _) (by unfold column; rw [List.length_map]; exact h2)
  rw [cluster_eq _ _ _ _ hd] at h1
  rw [cluster_eq _ _ _ _ hd', ← hfs] at h1'
  obtain ⟨fs, h3, h4⟩ := Option.bind_eq_some_iff.1 h1
  rw [h3, Option.bind_some] at h1'
  rw [(Contribution.extractLabels_eq h4).2.1, (Contribution.extractLabels_eq h1').2.1]
  exact (h.map _).mem_iff

end Kde

namespace Cluster
open Pca Whole Points Pipeline Edges SegState

variable {e w : Nat} {lib : Lib w} {p : Parameters} {series : List (Fin (e + 1) → ℝ)} {resolution order : Nat} {q m : List Point}

theorem Scored.mono {X : Type} {c1 c2 : List X → Option (List Nat)} {coord : Inter → X} {len : Nat} {points : Nat → Nat}
    {stores : Nat → List Trans} {qs : Nat → NodeQuestions} {it nodes qn es edges tr deg wt n cnt ov job par sub}
    (h : Scored c1 coord p len points stores qs it nodes qn es edges tr deg wt n cnt ov job par sub)
    (hc : ∀ j < p.nClusterNodes, ∀ seg r, 2 ≤ ((it.store p j).filter (fun x => x.2 = seg)).length →
      c1 (((it.store p j).filter (fun x => x.2 = seg)).map coord) = some r →
      c2 (((it.store p j).filter (fun x => x.2 = seg)).map coord) = some r) :
    Scored c2 coord p len points stores qs it nodes qn es edges tr deg wt n cnt ov job par sub :=
  ⟨h.inter, h.interDone, fun j hj => NodeEst.estimateNodes_mono (hc j hj) (h.estimate j hj), h.exchange, h.exchanged, h.connect, h.sorted,
    h.transposition, h.transposed, h.degrees, h.degreesPay, h.degreesDone, h.weights, h.weightsPay, h.weightsDone, h.resultLength, h.count,
    h.overlap, h.overlapped, h.threads, h.scores, h.scoresDone⟩

/-- **C108.** The keys never change what is delivered on several nodes: a run with them delivers only what a run without them can deliver. -/
theorem C108_sound {i : Nat} {v : Option (List (Option ℚ))} (h : DeliversHashed lib resolution order p series i v) :
    Delivers lib resolution order p series i v := by
  obtain ⟨pts, eff, stores, qs, h1, h2, h3, it, nodes, qn, es, edges, tr, deg, wt, n, cnt, ov, job, par, sub, h4, h5⟩ := h
  exact ⟨pts, eff, stores, qs, h1, h2, h3, it, nodes, qn, es, edges, tr, deg, wt, n, cnt, ov, job, par, sub,
    h4.mono (fun _ _ _ _ _ hr => clusteringHashed_sub hr), h5⟩

/-- What the nodes have stored after the exchange, and its coordinates. -/
theorem Base.stored {rows : Nat} (h : Base p e rows q m) {sg : SegNet} (g1 : SegNet.Reachable p (parts p rows q m) sg)
    (g2 : ∀ j < p.nClusterNodes, sg.net.done j = 1) {it : InterNet} (h1 : InterNet.Reachable p sg.store it)
    (h2 : ∀ i < p.nClusterNodes, it.net.done i = 1) :
    (∀ s < p.rate, ((it.store p (owner p s)).filter (fun x => x.2 = s)).Perm (crossings p.rate (track p m q) s)) ∧
    (∀ j < p.nClusterNodes, ∀ x ∈ it.store p j, x.2 < p.rate ∧ owner p x.2 = j) ∧
    ∀ j < p.nClusterNodes, ∀ x ∈ it.store p j, x.1 ∈ track p m q ∧ x.2 ∈ x.1.intersectionSegments p.rate ∧
      crossing e p (Whole.corrected p m q) sg.store x = place p e m q x := by
  have hst : Steps p.rate rows (allSteps p (parts p rows q m)) := by rw [h.allSteps_eq]; exact h.steps
  refine ⟨fun s hs => ?_, fun j hj x hx => ?_, fun j hj x hx => ?_⟩
  · have k1 := (store_spec h.wf hst g1 g2 h1 h2 (owner_lt h.wf s)).1
    refine (k1.filter _).trans (List.Perm.of_eq ?_)
    rw [← h.allSteps_eq, ← crossings_eq hst.valid, List.filter_filter]
    apply List.filter_congr
    intro x _
    by_cases hx : x.2 = s
    · simp [hx]
    · simp [hx]
  · obtain ⟨k1, k2⟩ := (store_spec h.wf hst g1 g2 h1 h2 hj).2 x hx
    rw [Parameters.assignment_eq h.wf] at k2
    exact ⟨k1, Option.some.inj k2⟩
  · have h3 := (store_spec h.wf hst g1 g2 h1 h2 hj).1.mem_iff.1 hx
    rw [List.mem_filter, List.mem_flatMap] at h3
    obtain ⟨⟨t, ht, h3⟩, _⟩ := h3
    obtain ⟨s, hs, rfl⟩ := List.mem_map.1 h3
    rw [h.allSteps_eq] at ht
    exact ⟨ht, hs, C75_crossings (ts := track p m q) (h.mem_store g1 g2) ht⟩

/-- **C108.** On two or three nodes, which decide on self correction as one node would: a vector is delivered with the keys exactly if it is
delivered without them and the numbers of all centres which one node would compute fit. -/
theorem C108_exact (hqr : ∀ A, gram (lib.qr A) = gram A) (hs : ∀ m, Settled lib (windows w p series m)) (hp : p.WellFormed)
    (hk : 2 ≤ p.nClusterNodes) (hk3 : p.nClusterNodes ≤ 3) (hf : Fits p series.length) (hth : 1 ≤ p.nThreads) (hq : PointsOf lib p series q)
    (hm : q.mapM (mirrorPoint p.rate) = some m) (hdec : SameDecision p series.length q) (i : Nat) (v : Option (List (Option ℚ))) :
    DeliversHashed lib resolution order p series i v ↔
      (Delivers lib resolution order p series i v ∧ CentresFit resolution order p e m q) := by
  have h := base_of_points hp hk hf hq hm
  have hr := h.rate
  have hin : ∀ pts, PointsOfAll lib p RotNet.NotEarly series pts → ∀ i < p.nClusterNodes, pts i = slice p series.length q i := by
    intro pts h1 i hi
    have hqe : (List.range p.nClusterNodes).flatMap pts = q :=
      ((hq.unique (t := p.nThreads) hqr hs (C74_points hqr hs hf hk3 h1))).symm
    have := PointsOfAll.part hr hf h1 hi
    rwa [hqe] at this
  -- the rows which a node clusters are those of one node
  have key : ∀ {sg : SegNet} {it : InterNet}, SegNet.Reachable p (parts p series.length q m) sg → (∀ j < p.nClusterNodes, sg.net.done j = 1) →
      InterNet.Reachable p sg.store it → (∀ i < p.nClusterNodes, it.net.done i = 1) →
      (∀ t ∈ track p m q, ∀ s ∈ t.intersectionSegments p.rate, place p e m q (t, s) ≠ none) → ∀ s < p.rate,
      (((it.store p (owner p s)).filter (fun x => x.2 = s)).map (fun x => (crossing e p (Whole.corrected p m q) sg.store x).getD [])).Perm
        (segmentData p e m q s) ∧ ∀ row ∈ segmentData p e m q s, row.length = e + 1 := by
    intro sg it g1 g2 h1 h2 hpl s hs'
    obtain ⟨k1, k2, k3⟩ := h.stored g1 g2 h1 h2
    constructor
    · rw [List.map_congr_left (g := fun x => (place p e m q x).getD []) (fun x hx => by
        rw [(k3 _ (owner_lt h.wf s) x (List.mem_filter.1 hx).1).2.2])]
      exact ((k1 s hs').trans (List.reverse_perm _).symm).map _
    · intro row hrow
      obtain ⟨x, hx, rfl⟩ := List.mem_map.1 hrow
      obtain ⟨h3, h4⟩ := mem_crossings (List.mem_reverse.1 hx)
      obtain ⟨l, hl⟩ := Option.ne_none_iff_exists'.1 (hpl x.1 h3 x.2 h4)
      rw [show (x.1, x.2) = x from rfl] at hl
      rw [hl]
      exact interCoord_length hl
  constructor
  · intro hd
    refine ⟨C108_sound hd, ?_⟩
    obtain ⟨pts, eff, stores, qs, h1, h2, h3, it, nodes, qn, es, edges, tr, deg, wt, n, cnt, ov, job, par, sub, h4, h5⟩ := hd
    obtain ⟨sg, g1, g2, rfl, rfl, heff⟩ := h2.inside h hdec (hin pts h1)
    rw [heff] at h3 h4
    have hpl := (h.places g1 g2).1 h3
    intro s hs' h6 labels table hcl c hc x hx
    obtain ⟨k1, k2⟩ := key g1 g2 h4.inter h4.interDone hpl s hs'
    have hlow : p.rate / p.nClusterNodes * owner p s ≤ s := by
      have : owner p s ≤ s / (p.rate / p.nClusterNodes) := Nat.min_le_left _ _
      calc p.rate / p.nClusterNodes * owner p s ≤ p.rate / p.nClusterNodes * (s / (p.rate / p.nClusterNodes)) :=
            Nat.mul_le_mul_left _ this
        _ ≤ s := Nat.mul_div_le _ _
    have hlen : (segmentData p e m q s).length = (crossings p.rate (track p m q) s).length := by simp [segmentData]
    have hlen' : 2 ≤ ((it.store p (owner p s)).filter (fun x => x.2 = s)).length := by
      have := k1.length_eq
      rw [List.length_map] at this
      omega
    have hne : clusteringHashed resolution order p e
        (((it.store p (owner p s)).filter (fun x => x.2 = s)).map (fun x => (crossing e p (Whole.corrected p m q) sg.store x).getD [])) ≠
          none := by
      intro hnone
      have := (NodeEst.C33_crash_iff h.wf (owner_lt h.wf s)).2 ⟨s, hlow, hs', hlen', hnone⟩
      rw [h4.estimate _ (owner_lt h.wf s)] at this
      cases this
    obtain ⟨r, hr'⟩ := Option.ne_none_iff_exists'.1 hne
    obtain ⟨⟨l, tb⟩, h7, -⟩ := Option.map_eq_some_iff.1 hr'
    obtain ⟨h8, h9⟩ := (Kde.C101_cluster _ _ _ _ _ _ _).1 h7
    exact h9 c ((Kde.cluster_table_perm hth k2 (by omega) k1.symm hcl h8 c).1 hc) x hx
  · rintro ⟨⟨pts, eff, stores, qs, h1, h2, h3, it, nodes, qn, es, edges, tr, deg, wt, n, cnt, ov, job, par, sub, h4, h5⟩, hfit⟩
    refine ⟨pts, eff, stores, qs, h1, h2, h3, it, nodes, qn, es, edges, tr, deg, wt, n, cnt, ov, job, par, sub, h4.mono ?_, h5⟩
    obtain ⟨sg, g1, g2, rfl, rfl, heff⟩ := h2.inside h hdec (hin pts h1)
    rw [heff] at h3 h4 ⊢
    have hpl := (h.places g1 g2).1 h3
    intro j hj s r h2' hr'
    obtain ⟨x, hx⟩ := List.exists_mem_of_length_pos (show 0 < ((it.store p j).filter (fun x => x.2 = s)).length by omega)
    obtain ⟨hx1, hx2⟩ := List.mem_filter.1 hx
    obtain ⟨k0, rfl⟩ := (h.stored g1 g2 h4.inter h4.interDone).2.1 j hj x hx1
    have hxs : x.2 = s := by simpa using hx2
    subst hxs
    obtain ⟨k1, k2⟩ := key g1 g2 h4.inter h4.interDone hpl x.2 k0
    have hlen : 2 ≤ (segmentData p e m q x.2).length := by
      rw [← k1.length_eq, List.length_map]
      exact h2'
    obtain ⟨⟨l, tb⟩, h7, rfl⟩ := Option.map_eq_some_iff.1 hr'
    refine Option.map_eq_some_iff.2 ⟨(l, tb), (Kde.C101_cluster _ _ _ _ _ _ _).2 ⟨h7, ?_⟩, rfl⟩
    obtain ⟨⟨l', tb'⟩, h8⟩ := Option.ne_none_iff_exists'.1 (fun hn => by
      have := (Kde.cluster_order_free (resolution := resolution) (order := order) hth k2 hlen k1.symm).1.1 hn
      rw [h7] at this
      cases this)
    intro c hc y hy
    refine hfit x.2 k0 ?_ l' tb' h8 c ((Kde.cluster_table_perm hth k2 hlen k1.symm h8 h7 c).2 hc) y hy
    simpa [segmentData] using hlen

/-- **C108.** Ordinary values never reach the limit of the keys on two or three nodes either. -/
theorem C108_no_difference (hqr : ∀ A, gram (lib.qr A) = gram A) (hs : ∀ m, Settled lib (windows w p series m)) (hp : p.WellFormed)
    (hk : 2 ≤ p.nClusterNodes) (hk3 : p.nClusterNodes ≤ 3) (hf : Fits p series.length) (hth : 1 ≤ p.nThreads) (hq : PointsOf lib p series q)
    (hm : q.mapM (mirrorPoint p.rate) = some m) (hdec : SameDecision p series.length q)
    (hv : ∀ A vs, lib.svd A = some vs → ∀ v ∈ vs, ∀ i, |v i| ≤ 1) {M : ℝ} (hM : ∀ x ∈ series, ∀ m, |x m| ≤ M)
    (hlim : 792 * ((p.patternLength - p.latent : Nat) * p.latent * M) < 2 ^ 63) (i : Nat) (v : Option (List (Option ℚ))) :
    DeliversHashed lib resolution order p series i v ↔ Delivers lib resolution order p series i v := by
  rw [C108_exact hqr hs hp hk hk3 hf hth hq hm hdec]
  refine and_iff_left fun s _ _ labels table hcl => ?_
  have h := Kde.C101_small (t := p.nThreads) (resolution := resolution) (order := order) (dims := e + 1) (data := segmentData p e m q s)
    (B := 9 * ((p.patternLength - p.latent : Nat) * p.latent * M)) (by linarith) (by
      intro row hrow y hy
      refine ⟨?_, C105_distances hqr (by have := hp.1; have := hp.2; omega) hs hv hM hq hm hrow hy⟩
      obtain ⟨x, _, rfl⟩ := List.mem_map.1 hrow
      cases hl : place p e m q x with
      | none => rw [hl] at hy; simp at hy
      | some l =>
        rw [hl] at hy
        unfold place at hl
        obtain ⟨z, _, rfl⟩ := Option.map_eq_some_iff.1 hl
        obtain ⟨c, rfl⟩ := List.mem_ofFn.1 hy
        exact Real.sqrt_nonneg _)
  rw [hcl] at h
  exact ((Kde.C101_cluster _ _ _ _ _ _ _).1 h).2

/-- **C108.** Under the conditions of C75 a run on two or three nodes with the keys delivers exactly what a run on one node with the keys
delivers, also beyond the limit. -/
theorem C108_one_node (hqr : ∀ A, gram (lib.qr A) = gram A) (hs : ∀ m, Settled lib (windows w p series m)) (hp : p.WellFormed)
    (hk : 2 ≤ p.nClusterNodes) (hk3 : p.nClusterNodes ≤ 3) (hf : Fits p series.length)
    (hc : ∀ i < p.nClusterNodes, 0 < count p series.length i ∧ Chunked p.nThreads (count p series.length i))
    (hq : PointsOf lib p series q) (hm : q.mapM (mirrorPoint p.rate) = some m) (hdec : SameDecision p series.length q)
    (g : Good p series.length (parts p series.length q m)) {i : Nat} (hi : i < p.nClusterNodes) (v : Option (List (Option ℚ))) :
    DeliversHashed lib resolution order p series i v ↔ Whole.DeliversHashed lib resolution order { p with nClusterNodes := 1 } series v := by
  have hwf : ({ p with nClusterNodes := 1 } : Parameters).WellFormed := by
    unfold Parameters.WellFormed at hp ⊢
    dsimp only
    omega
  rw [C108_exact hqr hs hp hk hk3 hf g.threads hq hm hdec, C75_exact hqr hs hp hk hk3 hf hc hq hm hdec g hi,
    C101_delivers (p := { p with nClusterNodes := 1 }) lib hwf rfl]
  constructor
  · rintro ⟨⟨pts, s0, s, h1, h2, h3, h4⟩, hfit⟩
    cases hq.unique (t := p.nThreads) hqr hs h1
    exact ⟨q, m, s0, s, h1, hm, hfit, h2, h3, h4⟩
  · rintro ⟨pts, m', s0, s, h1, hm', hfit, h2, h3, h4⟩
    cases hq.unique (t := p.nThreads) hqr hs h1
    cases Option.some.inj (hm.symm.trans hm')
    exact ⟨⟨q, s0, s, h1, h2, h3, h4⟩, hfit⟩

/-- **C108.** If one node would find a centre with a number other than zero in a segment with at least two crossings, then in all large
enough units no node of the cluster delivers anything. -/
theorem C108_larger (hqr : ∀ A, gram (lib.qr A) = gram A) (hs : ∀ m, Settled lib (windows w p series m)) (hp : p.WellFormed)
    (hk : 2 ≤ p.nClusterNodes) (hk3 : p.nClusterNodes ≤ 3) (hf : Fits p series.length) (hth : 1 ≤ p.nThreads) (hq : PointsOf lib p series q)
    (hm : q.mapM (mirrorPoint p.rate) = some m) (hdec : SameDecision p series.length q) {s : Nat} (hsr : s < p.rate)
    (h2 : 2 ≤ (crossings p.rate (track p m q) s).length) {labels : List Nat} {table : List (List ℝ)}
    (hcl : Kde.cluster p.nThreads resolution order (e + 1) (segmentData p e m q s) = some (labels, table)) {c : List ℝ}
    (hc : c ∈ table) {x : ℝ} (hx : x ∈ c) (hx0 : x ≠ 0) {a : ℝ} (ha : 2 ^ 63 + 1 ≤ 80 * (a * |x|)) (i : Nat)
    (v : Option (List (Option ℚ))) : ¬ DeliversHashed lib resolution order p (series.map (a • ·)) i v := by
  have hpos : 0 < |x| := abs_pos.2 hx0
  have ha0 : 0 < a := by
    by_contra hneg
    have := mul_nonpos_of_nonpos_of_nonneg (not_lt.1 hneg) hpos.le
    have h63 : (0 : ℝ) < 2 ^ 63 := by positivity
    linarith
  intro h
  have hq' := hq.scale hqr hs ha0
  have := ((C108_exact hqr (settled_scale hs ha0 hq') hp hk hk3 (by rw [List.length_map]; exact hf) hth hq'
    (m := m.map (scalePt a)) (by rw [mapM_mirror ha0, hm]; rfl)
    (by unfold SameDecision at hdec ⊢; rw [List.length_map, toPt_scale]; exact hdec) i v).1 h).2
  obtain ⟨h3, h4⟩ := (centresFit_scale ha0 _ _ _ _ _ _).1 this s hsr h2 labels table hcl c hc x hx
  rcases abs_cases x with ⟨hh, _⟩ | ⟨hh, _⟩ <;> rw [hh] at ha <;> linarith

/-! The wave of `ClusterRunExample.lean` on two nodes. -/

theorem hLib_entries : ∀ A vs, hLib.svd A = some vs → ∀ v ∈ vs, ∀ i, |v i| ≤ 1 := by
  intro A vs h v hv i
  cases Option.some.inj h
  have h2 : (√2)⁻¹ ≤ 1 := inv_le_one_of_one_le₀ (Real.one_le_sqrt.2 (by norm_num))
  have h3 : (√3)⁻¹ ≤ 1 := inv_le_one_of_one_le₀ (Real.one_le_sqrt.2 (by norm_num))
  have h6 : (√6)⁻¹ ≤ 2⁻¹ := inv_anti₀ (by norm_num) (Real.le_sqrt_of_sq_le (by norm_num))
  have p2 : 0 ≤ (√2)⁻¹ := by positivity
  have p3 : 0 ≤ (√3)⁻¹ := by positivity
  have p6 : 0 ≤ (√6)⁻¹ := by positivity
  simp only [hComps, List.mem_cons, List.not_mem_nil, or_false] at hv
  rcases hv with rfl | rfl | rfl <;> fin_cases i <;> rw [abs_le] <;> constructor <;> norm_num <;> linarith

theorem hSeries_le : ∀ x ∈ hSeries, ∀ m, |x m| ≤ 2 := by
  intro x hx m
  simp only [hSeries, List.mem_cons, List.not_mem_nil, or_false] at hx
  rcases hx with rfl | rfl | rfl | rfl | rfl | rfl | rfl | rfl | rfl <;> norm_num

example (resolution order : Nat) : ∃ v, ∀ i < 2, DeliversHashed hLib resolution order hP hSeries i v := by
  obtain ⟨v, hv⟩ := hDelivers resolution order
  obtain ⟨m, hm, _⟩ := mirrored_some (rate := hP.rate) (by decide) (hPoints.numbered (by decide)).2.2.coords
  refine ⟨v, fun i hi => ?_⟩
  exact (C108_no_difference hLib_gram hLib_settled ⟨by decide, by decide⟩ (by decide) (by decide) hFits (by decide) hPoints hm (fun h => (by cases h))
    hLib_entries hSeries_le (by norm_num [hP]) i v).2 ((hCluster resolution order hi v).2 hv)

example (resolution order : Nat) (v : Option (List (Option ℚ))) : DeliversHashed hLib resolution order hP hSeries 1 v ↔
    Whole.DeliversHashed hLib resolution order { hP with nClusterNodes := 1 } hSeries v := by
  obtain ⟨m, hm, _⟩ := mirrored_some (rate := hP.rate) (by decide) (hPoints.numbered (by decide)).2.2.coords
  exact C108_one_node hLib_gram hLib_settled ⟨by decide, by decide⟩ (by decide) (by decide) hFits
    (fun i _ => ⟨by unfold count; split <;> simp [hP, hSeries], .inl le_rfl⟩) hPoints hm (fun h => (by cases h))
    (by
      show Good hP 9 (parts hP 9 hPts m)
      rw [hParts_eq]
      exact hGood) (by decide) v

end Cluster
end S2G
