import Verif.Props.ClusterHashed
import Verif.Props.CrossingFormula

/-!
# C109: when a run on several nodes delivers scores, in terms of its points
-/

namespace S2G
namespace Whole
open Pca Points Pipeline Scoring Weights Edges

variable {e w : Nat} {lib : Lib w} {p : Parameters} {series : List (Fin (e + 1) → ℝ)} {resolution order : Nat} {q m : List Point}

/-- Specification: no step has both ends on the line of a border which it crosses. -/
def Found (p : Parameters) (m q : List Point) : Prop :=
  ∀ t ∈ track p m q, ∀ s ∈ t.intersectionSegments p.rate, ¬Lost p.rate (corrected p m q) t s

/-- Specification: the crossings of every border which is crossed more than once differ in every column. -/
def Spread (p : Parameters) (e : Nat) (m q : List Point) : Prop :=
  ∀ s < p.rate, 2 ≤ (crossings p.rate (track p m q) s).length → ∀ c ≤ e, ∃ x ∈ crossings p.rate (track p m q) s,
    ∃ y ∈ crossings p.rate (track p m q) s,
      spotOf p.rate (e + 1) (corrected p m q) x c ≠ spotOf p.rate (e + 1) (corrected p m q) y c

/-- A run on one node has at most one result. -/
theorem delivers_one (hqr : ∀ A, gram (lib.qr A) = gram A) (hs : ∀ m, Settled lib (windows w p series m)) (hp : p.WellFormed)
    (hn : p.nClusterNodes = 1) (hql : 1 ≤ p.queryLength) (ht : 1 ≤ p.nThreads)
    (hsl : p.nThreads + p.queryLength + p.patternLength ≤ series.length + 1) {v v' : Option (List (Option ℚ))}
    (h : Delivers lib resolution order p series v) (h' : Delivers lib resolution order p series v') : v = v' := by
  have hr : 0 < p.rate := by have := hp.1; have := hp.2; omega
  obtain ⟨pts, s0, s, h1, h2, h3, h4⟩ := h
  obtain ⟨pts', s0', s', h1', h2', h3', h4'⟩ := h'
  cases h1.unique (t := p.nThreads) hqr hs h1'
  cases Option.some.inj (h2.symm.trans h2')
  obtain ⟨hl, _, hnum⟩ := h1.numbered hr
  obtain ⟨m, hm, _⟩ := mirrored_some hr hnum.coords
  obtain ⟨lab, _, h5⟩ := (C72_scores hp hn resolution order hm hnum (len := series.length) (by omega) hql ht (by omega)).2 s0 h2
  have key : ∀ {s v}, ParScore.Reachable s0 s → v ∈ delivered s →
      v = Scoring.normalize (vector (pairs (walk p.rate lab (track p m pts))) p.queryLength (pts.length - p.queryLength)) := by
    intro s v hs hv
    rcases (h5 s hs).1 with h6 | h6
    · rw [h6] at hv
      cases hv
    · rw [h6] at hv
      exact List.mem_singleton.1 hv
  rw [key h3 h4, key h3' h4']

end Whole

namespace Cluster
open Pca Whole Points Pipeline Edges SegState

variable {e w : Nat} {lib : Lib w} {p : Parameters} {series : List (Fin (e + 1) → ℝ)} {resolution order : Nat} {q m : List Point}

/-- **C109.** On two or three nodes under the conditions of C75: if every crossing is found and the crossings of a border differ in every
column, then every node delivers exactly one vector, and it is the same on all nodes; otherwise no node delivers anything. With the keys of the
centres the same holds, with the further condition that the numbers of all centres fit. -/
theorem C109_delivers (hqr : ∀ A, gram (lib.qr A) = gram A) (hs : ∀ m, Settled lib (windows w p series m)) (hp : p.WellFormed)
    (hk : 2 ≤ p.nClusterNodes) (hk3 : p.nClusterNodes ≤ 3) (hres : 1 ≤ resolution) (hord : order ≤ resolution) (hf : Fits p series.length)
    (hc : ∀ i < p.nClusterNodes, 0 < count p series.length i ∧ Chunked p.nThreads (count p series.length i))
    (hq : PointsOf lib p series q) (hm : q.mapM (mirrorPoint p.rate) = some m) (hdec : SameDecision p series.length q)
    (g : Good p series.length (parts p series.length q m)) :
    (Found p m q ∧ Spread p e m q → ∃ v, ∀ i < p.nClusterNodes, ∀ v', Delivers lib resolution order p series i v' ↔ v' = v) ∧
    (¬(Found p m q ∧ Spread p e m q) → ∀ i < p.nClusterNodes, ∀ v, ¬ Delivers lib resolution order p series i v) ∧
    (Found p m q ∧ Spread p e m q ∧ CentresFit resolution order p e m q →
      ∃ v, ∀ i < p.nClusterNodes, ∀ v', DeliversHashed lib resolution order p series i v' ↔ v' = v) ∧
    (¬(Found p m q ∧ Spread p e m q ∧ CentresFit resolution order p e m q) →
      ∀ i < p.nClusterNodes, ∀ v, ¬ DeliversHashed lib resolution order p series i v) := by
  have hwf : ({ p with nClusterNodes := 1 } : Parameters).WellFormed := by
    unfold Parameters.WellFormed at hp ⊢
    dsimp only
    omega
  have hsl : p.nThreads + p.queryLength + p.patternLength ≤ series.length + 1 := by
    have h1 := g.lastPart
    unfold count at h1
    rw [if_pos rfl] at h1
    have h2 := Nat.div_add_mod series.length p.nClusterNodes
    have h3 : series.length / p.nClusterNodes ≤ p.nClusterNodes * (series.length / p.nClusterNodes) := Nat.le_mul_of_pos_left _ (by omega)
    have := g.threads
    omega
  have hstart : ∀ t ∈ (track p m q).head?, t.src.seg + 2 = p.rate → t.src.seg ≤ t.dst.seg := by
    intro t ht h2
    have h := base_of_points hp hk hf hq hm
    rw [← h.allSteps_eq] at ht
    have := g.start t ht
    omega
  have hone := C107_delivers (p := { p with nClusterNodes := 1 }) (lib := lib) hwf rfl hres hord (series := series) g.query g.threads hsl
  have hiff : (∃ v, Whole.Delivers lib resolution order { p with nClusterNodes := 1 } series v) ↔ Found p m q ∧ Spread p e m q := by
    rw [hone]
    constructor
    · rintro ⟨pts, m', h1, hm', h2, h3, _⟩
      cases hq.unique (t := p.nThreads) hqr hs h1
      cases Option.some.inj (hm.symm.trans hm')
      exact ⟨h2, h3⟩
    · rintro ⟨h2, h3⟩
      exact ⟨q, m, hq, hm, h2, h3, hstart⟩
  have huniq : ∀ {v v'}, Whole.Delivers lib resolution order { p with nClusterNodes := 1 } series v →
      Whole.Delivers lib resolution order { p with nClusterNodes := 1 } series v' → v = v' :=
    delivers_one (p := { p with nClusterNodes := 1 }) hqr hs hwf rfl g.query g.threads hsl
  have h75 := fun {i} (hi : i < p.nClusterNodes) v => C75_exact (resolution := resolution) (order := order) hqr hs hp hk hk3 hf hc hq hm hdec g hi v
  have h108 := fun i v => C108_exact (resolution := resolution) (order := order) hqr hs hp hk hk3 hf g.threads hq hm hdec i v
  refine ⟨?_, ?_, ?_, ?_⟩
  · intro h
    obtain ⟨v, hv⟩ := hiff.2 h
    exact ⟨v, fun i hi v' => ⟨fun h' => huniq ((h75 hi v').1 h') hv, fun h' => h' ▸ (h75 hi v).2 hv⟩⟩
  · intro h i hi v hv
    exact h (hiff.1 ⟨v, (h75 hi v).1 hv⟩)
  · rintro ⟨h1, h2, h3⟩
    obtain ⟨v, hv⟩ := hiff.2 ⟨h1, h2⟩
    refine ⟨v, fun i hi v' => ⟨fun h' => huniq ((h75 hi v').1 ((h108 i v').1 h').1) hv, fun h' => ?_⟩⟩
    subst h'
    exact (h108 i _).2 ⟨(h75 hi _).2 hv, h3⟩
  · intro h i hi v hv
    obtain ⟨h1, h2⟩ := (h108 i v).1 hv
    obtain ⟨h3, h4⟩ := hiff.1 ⟨v, (h75 hi v).1 h1⟩
    exact h ⟨h3, h4, h2⟩

/-- The wave of `ClusterRunExample.lean` on two nodes: both deliver exactly one vector, the same one, with and without the keys. -/
example {resolution order : Nat} (hr : 1 ≤ resolution) (ho : order ≤ resolution) : ∃ v, ∀ i < 2, ∀ v',
    (DeliversHashed hLib resolution order hP hSeries i v' ↔ v' = v) := by
  obtain ⟨m, hm, _⟩ := mirrored_some (rate := hP.rate) (by decide) (hPoints.numbered (by decide)).2.2.coords
  obtain ⟨h1, h2, h3, h4⟩ := C109_delivers (resolution := resolution) (order := order) hLib_gram hLib_settled ⟨by decide, by decide⟩ (by decide)
    (by decide) hr ho hFits (fun i _ => ⟨by unfold count; split <;> simp [hP, hSeries], .inl le_rfl⟩) hPoints hm (fun h => (by cases h))
    (by
      show Good hP 9 (parts hP 9 hPts m)
      rw [hParts_eq]
      exact hGood)
  refine h3 ?_
  by_contra hcon
  obtain ⟨v, hv⟩ := hDelivers resolution order
  exact h4 hcon 0 (by decide) v ((C108_no_difference hLib_gram hLib_settled ⟨by decide, by decide⟩ (by decide) (by decide) hFits (by decide)
    hPoints hm (fun h => (by cases h)) hLib_entries hSeries_le (by norm_num [hP]) 0 v).2 ((hCluster resolution order (by decide) v).2 hv))

end Cluster
end S2G
