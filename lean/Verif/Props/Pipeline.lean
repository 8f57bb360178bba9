import Verif.Model.Pipeline
import Verif.Props.Relabel
import Verif.Props.EdgesDistributed
import Verif.Props.SelfCorrection

/-!
# C64: the whole run on one node
-/

namespace S2G
namespace Pipeline
open Scoring Weights Edges SegState NodeEst
variable {X : Type}

/-! ### Specification -/

/-- The points after self correction. -/
def effective (p : Parameters) (mirror : Pt → Pt) (pts : List Pt) : List Pt :=
  if p.selfCorrection = true ∧ (validSteps p.rate pts).length < (SelfCorrection.invalidSteps p.rate pts).length
  then pts.map mirror else pts

/-- The crossings of segment `s` in temporal order. -/
def crossings (rate : Nat) (ts : List Trans) (s : Nat) : List Inter :=
  (ts.filter (fun t => s ∈ t.intersectionSegments rate)).map (fun t => (t, s))

/-- `lab` are the groups which the clustering makes of the crossings of each segment, given last crossing first. -/
def Labelled (clu : List X → Option (List Nat)) (coord : Inter → X) (rate : Nat) (ts : List Trans) (lab : Nat → Nat → Nat) :
    Prop :=
  ∀ s < rate, 2 ≤ (crossings rate ts s).length →
    clu ((crossings rate ts s).reverse.map coord) = some ((crossings rate ts s).reverse.map (fun x => lab x.1.src.id s))

/-! ### Labels -/

theorem estimateLoop_labels {clu : List X → Option (List Nat)} {coord : Inter → X} {rate : Nat} {stored : List Inter} (k : Nat) :
    ∀ (seg : Nat) (nodes out : List Node), rate - seg = k → seg < rate → estimateLoop clu coord rate stored seg nodes = some out →
    (∀ v ∈ nodes, v ∈ out) ∧
    ∀ s, seg ≤ s → s < rate → ∃ ls, segmentLabels clu coord (stored.filter (fun x => x.2 = s)) = some ls ∧
      ∀ v ∈ segmentNodes (stored.filter (fun x => x.2 = s)) ls, v ∈ out := by
  induction k with
  | zero => intro seg nodes out hk hs; omega
  | succ k ih =>
    intro seg nodes out hk hs h
    rw [estimateLoop] at h
    simp only [Option.bind_eq_bind, Option.bind_eq_some_iff] at h
    obtain ⟨labels, hl, h⟩ := h
    split at h
    · rename_i hlt
      obtain ⟨h1, h2⟩ := ih (seg + 1) _ out (by omega) hlt h
      refine ⟨fun v hv => h1 v (List.mem_append_left _ hv), ?_⟩
      intro s hs1 hs2
      by_cases e : s = seg
      · subst e
        exact ⟨labels, hl, fun v hv => h1 v (List.mem_append_right _ hv)⟩
      · exact h2 s (by omega) hs2
    · rename_i hge
      simp only [Option.some.injEq] at h
      subst h
      refine ⟨fun v hv => List.mem_append_left _ hv, ?_⟩
      intro s hs1 hs2
      obtain rfl : s = seg := by omega
      exact ⟨labels, hl, fun v hv => List.mem_append_right _ hv⟩

/-- The labels of the nodes created by node estimation are those of the clustering. -/
theorem estimateNodes_labels {clu : List X → Option (List Nat)} (hc : OneLabelEach clu) {coord : Inter → X} {p : Parameters}
    (hp : p.WellFormed) {own : Nat} (ho : own < p.nClusterNodes) {stored : List Inter} {nodes : List Node}
    (h : estimateNodes clu coord p own stored = some nodes) {lab : Nat → Nat → Nat}
    (hlab : ∀ v ∈ nodes, v.cluster = lab v.fromId v.seg) {s : Nat} (h1 : p.rate / p.nClusterNodes * own ≤ s) (h2 : s < p.rate) :
    segmentLabels clu coord (stored.filter (fun x => x.2 = s)) =
      some ((stored.filter (fun x => x.2 = s)).map (fun x => lab x.1.src.id s)) := by
  simp only [estimateNodes, startSegment_eq hp, Option.bind_eq_bind, Option.bind_some] at h
  obtain ⟨ls, hl, hm⟩ := (estimateLoop_labels _ _ _ _ rfl (start_lt hp ho) h).2 s h1 h2
  have hlen := segmentLabels_length hc hl
  rw [hl]
  congr 1
  apply List.ext_getElem
  · rw [List.length_map, hlen]
  · intro i hi hi'
    rw [List.length_map] at hi'
    rw [List.getElem_map]
    have hx := List.getElem_mem hi'
    have hs2 := (List.mem_filter.1 hx).2
    simp only [decide_eq_true_eq] at hs2
    have hv := hm ⟨((stored.filter (fun x => decide (x.2 = s)))[i]).2, ls[i], ((stored.filter (fun x => decide (x.2 = s)))[i]).1.src.id⟩ (by
      unfold segmentNodes
      refine List.mem_map.2 ⟨((stored.filter (fun x => decide (x.2 = s)))[i], ls[i]), ?_, rfl⟩
      rw [← List.getElem_zip (l := stored.filter (fun x => decide (x.2 = s))) (l' := ls) (h := by rw [List.length_zip]; omega)]
      exact List.getElem_mem _)
    have := hlab _ hv
    simp only [hs2] at this
    exact this

theorem segmentLabels_two {clu : List X → Option (List Nat)} {coord : Inter → X} {xs : List Inter} (h : 2 ≤ xs.length) :
    segmentLabels clu coord xs = clu (xs.map coord) := by
  match xs, h with
  | a :: b :: l, _ => rfl

theorem cluster_of_localNodes {p : Parameters} {lab : Nat → Nat → Nat} {ts : List Trans} {j : Nat} {nodes : List Node}
    (h : LocalNodes p lab ts j (nodesOf nodes)) : ∀ v ∈ nodes, v.cluster = lab v.fromId v.seg := by
  intro v hv
  have hm : v ∈ nodesOf nodes v.fromId := List.mem_filter.2 ⟨hv, by simp⟩
  by_cases ht : ∀ t ∈ ts, t.src.id ≠ v.fromId
  · rw [h.2 _ ht] at hm
    cases hm
  · push Not at ht
    obtain ⟨t, ht, he⟩ := ht
    have := (h.1 t ht).1.subset (by rw [he]; exact hm)
    have := (List.mem_filter.1 this).1
    obtain ⟨s, _, rfl⟩ := List.mem_map.1 this
    rfl

/-! ### Crossings -/

theorem filter_segment {l : List Nat} (hnd : l.Nodup) (s : Nat) :
    l.filter (fun x => x = s) = if s ∈ l then [s] else [] := by
  induction l with
  | nil => rfl
  | cons a l ih =>
    obtain ⟨h1, h2⟩ := List.nodup_cons.1 hnd
    rw [List.filter_cons, ih h2]
    by_cases e : a = s
    · subst e
      simp [h1]
    · have : s ≠ a := fun h => e h.symm
      simp [e, this]

theorem crossings_eq {rate : Nat} {ts : List Trans} (hv : ∀ t ∈ ts, ValidStep rate t) (s : Nat) :
    (ts.flatMap (fun t => (t.intersectionSegments rate).map (fun s => (t, s)))).filter (fun x => x.2 = s) =
      crossings rate ts s := by
  induction ts with
  | nil => rfl
  | cons t ts ih =>
    have ih := ih (fun u hu => hv u (by simp [hu]))
    obtain ⟨hf, hd, hval⟩ := hv t (by simp)
    obtain ⟨_, _, _, hnd, _⟩ := Trans.C30_segments t hf hd hval
    have h1 : ((t.intersectionSegments rate).map (fun s => ((t, s) : Inter))).filter (fun x => x.2 = s) =
        if s ∈ t.intersectionSegments rate then [(t, s)] else [] := by
      rw [List.filter_map]
      have := filter_segment hnd s
      simp only [Function.comp_def]
      rw [this]
      split <;> rfl
    rw [List.flatMap_cons, List.filter_append, ih, h1]
    unfold crossings
    rw [List.filter_cons]
    by_cases hs : s ∈ t.intersectionSegments rate
    · rw [if_pos hs, if_pos (by simpa using hs)]
      rfl
    · rw [if_neg hs, if_neg (by simpa using hs)]
      rfl

/-! ### Order of the edges -/

theorem pairs_sorted : ∀ {l : List Node}, l.Pairwise (fun v w => v.fromId ≤ w.fromId) →
    (pairs l).Pairwise (fun a b => a.toId ≤ b.toId)
  | [], _ => List.Pairwise.nil
  | [_], _ => List.Pairwise.nil
  | a :: b :: l, h => by
    have h2 := (List.pairwise_cons.1 h).2
    refine List.pairwise_cons.2 ⟨?_, pairs_sorted h2⟩
    intro e he
    have hm := ends_pairs (mem_ends he).2
    rcases List.mem_cons.1 hm with hh | hh
    · exact le_of_eq (by rw [show e.toId = e.dst.fromId from rfl, hh]; rfl)
    · exact (List.pairwise_cons.1 h2).1 _ hh

theorem walk_sorted {rate : Nat} {lab : Nat → Nat → Nat} {ts : List Trans}
    (h : ts.Pairwise (fun t u => t.src.id < u.src.id)) : (walk rate lab ts).Pairwise (fun v w => v.fromId ≤ w.fromId) := by
  unfold walk
  rw [List.pairwise_flatMap]
  constructor
  · intro t _
    unfold stepWalk
    rw [List.pairwise_map]
    exact List.pairwise_of_forall (fun _ _ => le_refl _)
  · apply h.imp
    intro t u htu v hv w hw
    obtain ⟨_, _, rfl⟩ := List.mem_map.1 hv
    obtain ⟨_, _, rfl⟩ := List.mem_map.1 hw
    exact le_of_lt htu

theorem sortEdges_sorted {es : List Edge} (h : es.Pairwise (fun a b => a.toId ≤ b.toId)) : Transposition.sortEdges es = es := by
  unfold Transposition.sortEdges
  exact List.mergeSort_of_pairwise (h.imp (fun hab => by simpa using hab))

/-! ### Segmentation -/

theorem owner_one {p : Parameters} (hn : p.nClusterNodes = 1) (s : Nat) : owner p s = 0 := by
  unfold owner
  rw [hn]
  simp

theorem stored_one {p : Parameters} (hp : p.WellFormed) (hn : p.nClusterNodes = 1) {s0 s : SegState} {pts : List Pt}
    (h : buildSegments p 0 s0 pts = some s) (h0 : s0.stored = []) : s.stored = validSteps p.rate pts := by
  obtain ⟨s', h1, h2⟩ := buildSegments_built hp 0 s0 pts
  obtain rfl : s' = s := Option.some.inj (h1.symm.trans h)
  rw [h2.stored, h0, List.nil_append, List.filter_eq_self]
  intro t _
  simpa using owner_one hn t.src.seg

theorem segment_spec {p : Parameters} (hp : p.WellFormed) (hn : p.nClusterNodes = 1) (mirror : Pt → Pt) (pts : List Pt) :
    ∃ s, segment p mirror pts = some s ∧ s.stored = validSteps p.rate (effective p mirror pts) := by
  obtain ⟨s, h1, _⟩ := buildSegments_built hp 0 {} pts
  unfold segment effective
  rw [h1]
  simp only [Option.bind_eq_bind, Option.bind_some]
  have hcond : (p.selfCorrection && SelfCorrection.mirrors (SelfCorrection.localCount s)) = true ↔
      (p.selfCorrection = true ∧ (validSteps p.rate pts).length < (SelfCorrection.invalidSteps p.rate pts).length) := by
    rw [Bool.and_eq_true]
    exact and_congr_right (fun hsc => SelfCorrection.C29_local_decision hp hn hsc h1)
  by_cases h : p.selfCorrection = true ∧ (validSteps p.rate pts).length < (SelfCorrection.invalidSteps p.rate pts).length
  · rw [if_pos h, if_pos (hcond.2 h)]
    obtain ⟨s', h1', _⟩ := buildSegments_built hp 0 { invalid := s.invalid } (pts.map mirror)
    exact ⟨s', h1', stored_one hp hn h1' rfl⟩
  · rw [if_neg h, if_neg (fun hh => h (hcond.1 hh))]
    exact ⟨s, rfl, stored_one hp hn h1 rfl⟩

/-! ### The graph -/

theorem steps_of_points {rate len : Nat} {pts : List Pt} (hseg : ∀ x ∈ pts, x.seg < rate)
    (hids : pts.Pairwise (fun a b => a.id < b.id)) (hbound : ∀ x ∈ pts, x.id < len) : Steps rate len (validSteps rate pts) := by
  refine ⟨validSteps_valid hseg, (Edges.steps_sorted hids).filter _, ?_⟩
  intro t ht
  exact hbound _ (mem_steps (List.mem_filter.1 ht).1).1

/-- C64 (graph): a run on one node crashes before scoring exactly if the clustering of the crossings of a segment crashes, or in
the case of C40; otherwise its edges are the consecutive pairs of the walk through the clusters of the crossings. -/
theorem C64_graph {clu : List X → Option (List Nat)} (hc : OneLabelEach clu) (coord : Inter → X) (mirror : Pt → Pt)
    {p : Parameters} (hp : p.WellFormed) (hn : p.nClusterNodes = 1) {len : Nat} {pts : List Pt}
    (hseg : ∀ x ∈ effective p mirror pts, x.seg < p.rate)
    (hids : (effective p mirror pts).Pairwise (fun a b => a.id < b.id)) (hbound : ∀ x ∈ effective p mirror pts, x.id < len) :
    (localEdges clu coord mirror p len pts = none ↔
      (∃ s < p.rate, 2 ≤ (crossings p.rate (validSteps p.rate (effective p mirror pts)) s).length ∧
        clu ((crossings p.rate (validSteps p.rate (effective p mirror pts)) s).reverse.map coord) = none) ∨
      ∃ t ∈ (validSteps p.rate (effective p mirror pts)).head?, t.src.seg + 2 = p.rate ∧ t.dst.seg < t.src.seg) ∧
    ∀ es, localEdges clu coord mirror p len pts = some es →
      ∃ lab, Labelled clu coord p.rate (validSteps p.rate (effective p mirror pts)) lab ∧
        es = pairs (walk p.rate lab (validSteps p.rate (effective p mirror pts))) := by
  have hst := steps_of_points hseg hids hbound
  obtain ⟨sg, hsg, hstored⟩ := segment_spec hp hn mirror pts
  set ts := validSteps p.rate (effective p mirror pts) with hts
  obtain ⟨x, hx, hxs, _⟩ := Inter.onResults_spec hp 0 (intersectionTasks p.rate ts)
  have hxs' : x.stored = intersectionTasks p.rate ts := by
    rw [hxs, List.filter_eq_self]
    intro y _
    simpa using owner_one hn y.2
  have hcr : ∀ s, x.stored.filter (fun y => y.2 = s) = (crossings p.rate ts s).reverse := by
    intro s
    rw [hxs', intersectionTasks, List.filter_reverse, crossings_eq hst.valid]
  have hsmall : ∀ y ∈ x.stored, y.2 < p.rate ∧ p.segmentIdToAssignment y.2 = some 0 := by
    intro y hy
    rw [hxs', intersectionTasks, List.mem_reverse] at hy
    obtain ⟨t, ht, hy⟩ := List.mem_flatMap.1 hy
    obtain ⟨s, hs, rfl⟩ := List.mem_map.1 hy
    obtain ⟨hf, hd, hval⟩ := hst.valid t ht
    obtain ⟨k, _, he, _⟩ := Trans.C30_segments t hf hd hval
    rw [he] at hs
    obtain ⟨j, _, rfl⟩ := List.mem_map.1 hs
    refine ⟨Nat.mod_lt _ (by omega), ?_⟩
    rw [Parameters.assignment_eq hp]
    exact congrArg some (owner_one hn _)
  unfold localEdges
  rw [hsg]
  simp only [Option.bind_eq_bind, Option.bind_some, hstored, hx]
  have hcrash := C33_crash_iff (clu := clu) (coord := coord) hp (show 0 < p.nClusterNodes by omega) (stored := x.stored)
  simp only [hcr, List.length_reverse, Nat.mul_zero, Nat.zero_le, true_and] at hcrash
  cases hes : estimateNodes clu coord p 0 x.stored with
  | none =>
    rw [hes] at hcrash
    obtain ⟨s, h1, h2⟩ := hcrash.1 rfl
    exact ⟨⟨fun _ => Or.inl ⟨s, h1, h2⟩, fun _ => rfl⟩, fun es h => by cases h⟩
  | some nodes =>
    have hno : ¬ ∃ s < p.rate, 2 ≤ (crossings p.rate ts s).length ∧ clu ((crossings p.rate ts s).reverse.map coord) = none := by
      rintro ⟨s, h1, h2⟩
      have := hcrash.2 ⟨s, h1, h2⟩
      rw [hes] at this
      cases this
    obtain ⟨hk, hasc, _⟩ := C33_nodes hc hp (show 0 < p.nClusterNodes by omega) hsmall hes
    have hkeys : ∀ j < p.nClusterNodes, ((fun _ : Nat => nodes) j |>.map NodeEst.key).Perm
        ((ts.flatMap (fun t => (t.intersectionSegments p.rate).map (fun s => (t.src.id, s)))).filter
          (fun k => owner p k.2 = j)) := by
      intro j hj
      obtain rfl : j = 0 := by omega
      rw [List.filter_eq_self.2 (fun k _ => by simpa using owner_one hn k.2)]
      refine hk.trans ?_
      rw [hxs', intersectionTasks]
      refine ((List.reverse_perm _).map _).trans (List.Perm.of_eq ?_)
      rw [List.map_flatMap]
      apply List.flatMap_congr
      intro t _
      rw [List.map_map]
      rfl
    have hloc := localNodes_of_keys hst.valid hst.sorted hkeys (fun _ _ => hasc) (show 0 < p.nClusterNodes by omega)
    have hans : Answered p (walk p.rate (labels p (fun _ => nodes)) ts) 0 (fun _ => none) := by
      intro A y B _ _
      cases B.head? <;> simp [owner_one hn]
    have h40 := C40_run_crash_iff hp (show 0 < p.nClusterNodes by omega) hst hloc hans
    simp only [Option.bind_some]
    refine ⟨?_, ?_⟩
    · cases hcn : connectNodes len (nodesOf nodes) (fun _ => none) with
      | none =>
        obtain ⟨t, ht, _, h⟩ := h40.1 hcn
        exact ⟨fun _ => Or.inr ⟨t, ht, h⟩, fun _ => rfl⟩
      | some es =>
        refine ⟨fun h => (by cases h), ?_⟩
        rintro (h | ⟨t, ht, h⟩)
        · exact absurd h hno
        · have := h40.2 ⟨t, ht, hn, h⟩
          rw [hcn] at this
          cases this
    · intro es h
      refine ⟨labels p (fun _ => nodes), ?_, ?_⟩
      · intro s hs h2
        have := estimateNodes_labels hc hp (show 0 < p.nClusterNodes by omega) hes
          (cluster_of_localNodes hloc) (s := s) (by omega) hs
        rw [hcr, segmentLabels_two (by rw [List.length_reverse]; exact h2)] at this
        exact this
      · cases hcn : connectNodes len (nodesOf nodes) (fun _ => none) with
        | none => rw [hcn] at h; cases h
        | some es' =>
          have hw := connect_walk hp (show 0 < p.nClusterNodes by omega) hst hloc hans (fun t ht hcs => by
            have := h40.2 ⟨t, ht, hcs⟩
            rw [hcn] at this
            cases this)
          rw [List.filter_eq_self.2 (fun e _ => by simpa using owner_one hn e.src.seg)] at hw
          rw [hw] at h
          simp only [Option.bind_some, Option.some.injEq] at h
          rw [← h]
          exact sortEdges_sorted (pairs_sorted (walk_sorted hst.sorted))

/-! ### The scores -/

theorem vector_length (E : List Edge) (q len : Nat) : (vector E q len).length = len := by
  simp [vector, carrySpec]

theorem weightOf_val (E : List Edge) : (edgeWeight E).val = weightOf E := by
  funext k
  unfold Counts.val weightOf
  rw [C45_local]
  split
  · next h => rw [h]; rfl
  · rfl

theorem degreeOf_val (E : List Edge) : (nodeDegrees E).val = degreeOf E := by
  funext v
  exact (C46_local E v).1

theorem answer_vector (E : List Edge) (q len : Nat) :
    (ParScore.answer (fun i => rawSpec (edgeWeight E).val (nodeDegrees E).val (windowSpec E 0 q i)) 0 len).1 = vector E q len := by
  unfold ParScore.answer vector
  rw [weightOf_val, degreeOf_val, ← List.range_eq_range']
  rfl

theorem normalize_const {l : List ℚ} {c : ℚ} (h : ∀ x ∈ l, x = c) (hne : l ≠ []) :
    normalize l = some (l.map (fun _ => none)) :=
  ((C52_degenerate l).2 hne).1 (fun x hx y hy => (h x hx).trans (h y hy).symm)

theorem carry_const {c : ℚ} : ∀ {l : List (Option ℚ)}, (∀ x ∈ l, x = some c) → ∀ a, carry a l = List.replicate l.length c
  | [], _, _ => rfl
  | x :: l, h, a => by
    have hx := h x (by simp)
    subst hx
    rw [carry, Option.getD_some, carry_const (fun y hy => h y (by simp [hy])), List.length_cons, List.replicate_succ]

theorem carry_none : ∀ {l : List (Option ℚ)}, (∀ x ∈ l, x = none) → ∀ a, carry a l = List.replicate l.length a
  | [], _, _ => rfl
  | x :: l, h, a => by
    have hx := h x (by simp)
    subst hx
    rw [carry, Option.getD_none, carry_none (fun y hy => h y (by simp [hy])), List.length_cons, List.replicate_succ]

/-- All edges end at point 0: the helper looks at the first edge for every position. -/
theorem helper_zero {e : Edge} {es : List Edge} {w : Counts EdgeKey} {d : Counts NodeKey} (hk : Known w d (e :: es))
    {q r : Nat} (hq : 1 ≤ q) {a b : Nat} (hlen : a + b + (q - 1) ≤ r) :
    helper (e :: es) (List.replicate r 0) w d q a b =
      some (ParScore.answer (fun _ => some (- normality w.val d.val [e])) a b) := by
  have hwin : ∀ i, a ≤ i → i < a + b → window (e :: es) (List.replicate r 0) q i = some [e] := by
    intro i h1 h2
    have h3 : checkedSub (i + q) 1 = some (i + (q - 1)) := by
      unfold checkedSub
      rw [if_pos (by omega)]
      congr 1
      omega
    unfold window
    simp only [h3, Option.bind_eq_bind, Option.bind_some, List.getElem?_replicate]
    rw [if_pos (by omega), if_pos (by omega)]
    simp [slice]
  have hfold : ∀ (l : List Nat) (s : List ℚ × Bool), (∀ i ∈ l, a ≤ i ∧ i < a + b) →
      l.foldlM (fun s i => do
        let win ← window (e :: es) (List.replicate r 0) q i
        let x ← score w d win
        some (push s x)) s = some (s.1 ++ List.replicate l.length (- normality w.val d.val [e]), s.2) := by
    intro l
    induction l with
    | nil => intro s _; simp
    | cons i l ih =>
      intro s h
      rw [List.foldlM_cons, hwin i (h i (by simp)).1 (h i (by simp)).2]
      simp only [Option.bind_eq_bind, Option.bind_some]
      rw [score_eq (fun x hx => hk x (by
        rw [List.mem_singleton] at hx
        simp [hx]))]
      simp only [Option.bind_some]
      have := ih (push s (normality w.val d.val [e], [e].length)) (fun j hj => h j (by simp [hj]))
      simp only [Option.bind_eq_bind] at this
      rw [this]
      simp [push, List.replicate_succ]
  unfold helper
  rw [hfold _ _ (fun i hi => by rw [List.mem_range'_1] at hi; exact hi)]
  unfold ParScore.answer
  rw [← carry_eq_spec, carry_const (c := - normality w.val d.val [e])]
  · simp
  · intro x hx
    obtain ⟨_, _, rfl⟩ := List.mem_map.1 hx
    rfl

/-- C64 (scores): for edges in temporal order, which end before the last point, with at least one position per thread, the run
delivers exactly one vector in every schedule of the threads: the normalised scores of the edges. -/
theorem C64_scores {p : Parameters} {points : Nat} {es : List Edge} (hs : es.Pairwise (fun a b => a.toId ≤ b.toId))
    (hid : ∀ e ∈ es, e.toId + 1 < points) (hq : 1 ≤ p.queryLength) (ht : 1 ≤ p.nThreads)
    (hsl : p.nThreads + p.queryLength ≤ points) :
    ∃ s0, startScores p points es = some s0 ∧ ∀ s, ParScore.Reachable s0 s →
      (delivered s = [] ∨ delivered s = [normalize (vector es p.queryLength (points - p.queryLength))]) ∧
      (s.pool = [] → delivered s = [normalize (vector es p.queryLength (points - p.queryLength))]) ∧
      (∀ pre m post, s.pool = pre ++ m :: post → ∃ u, ParScore.handle { s with pool := pre ++ post } m = some u ∧
        u.pool.length + (p.nThreads - u.proto.nReceived) < s.pool.length + (p.nThreads - s.proto.nReceived)) := by
  have hr : EdgesInTime.resultLength 1 0 points = some (points - 1) := by
    simp only [EdgesInTime.resultLength, checkedSub, Nat.sub_self, if_true]
    rw [if_pos (by omega)]
  unfold startScores
  rw [hr]
  simp only [Option.bind_eq_bind, Option.bind_some]
  have hscl : ∀ l : List Nat, l.length = points - 1 → scoreLength l p.queryLength = some (points - p.queryLength) := by
    intro l hl
    simp only [scoreLength, checkedSub, hl, Option.bind_eq_bind]
    rw [if_pos hq]
    simp only [Option.bind_some]
    rw [if_pos (by omega)]
    congr 1
    omega
  by_cases h0 : es.map Edge.toId = [] ∨ ∃ x ∈ es.map Edge.toId, x ≠ 0
  · rw [EdgesInTime.C47_count (List.pairwise_map.2 hs) (fun _ _ => Nat.zero_le _) (by
      intro x hx
      obtain ⟨e, he, rfl⟩ := List.mem_map.1 hx
      have := hid e he
      omega) h0]
    simp only [Option.bind_some]
    rw [hscl _ (by simp [EdgesInTime.spec])]
    simp only [Option.bind_some]
    obtain ⟨s0, h1, h2⟩ := ParScore.C49_scores hs (C48_known_local es) (start := 0) (length := points - 1) hq
      (sl := points - p.queryLength) (by omega) ht (by omega)
    refine ⟨s0, h1, fun s hr => ?_⟩
    obtain ⟨g1, g2, g3⟩ := h2 s hr
    have hdel : s.final = [ParScore.answer (fun i => rawSpec (edgeWeight es).val (nodeDegrees es).val
        (windowSpec es 0 p.queryLength i)) 0 (points - p.queryLength)] →
        delivered s = [normalize (vector es p.queryLength (points - p.queryLength))] := by
      intro h
      rw [delivered, h, List.map_singleton, answer_vector]
    refine ⟨?_, fun h => hdel (g2 h), g3⟩
    rcases g1 with g1 | g1
    · left; rw [delivered, g1]; rfl
    · right; exact hdel g1
  · push Not at h0
    obtain ⟨hne, hz⟩ := h0
    obtain ⟨e, es', rfl⟩ : ∃ e es', es = e :: es' := by
      cases es with
      | nil => exact absurd rfl hne
      | cons e es' => exact ⟨e, es', rfl⟩
    rw [EdgesInTime.C47_zero hne hz]
    simp only [Option.bind_some]
    rw [hscl _ (by simp)]
    simp only [Option.bind_some]
    obtain ⟨s0, h1, h2⟩ := ParScore.C49_parallel (run := helper (e :: es') (List.replicate (points - 1) 0)
      (edgeWeight (e :: es')) (nodeDegrees (e :: es')) p.queryLength)
      (raw := fun _ => some (- normality (edgeWeight (e :: es')).val (nodeDegrees (e :: es')).val [e]))
      (sl := points - p.queryLength) ht (by omega)
      (fun a b hab => helper_zero (C48_known_local _) hq (by omega)) (fun _ _ _ h => by cases h)
    refine ⟨s0, h1, fun s hr => ?_⟩
    obtain ⟨g1, g2, g3⟩ := h2 s hr
    have hdel : s.final = [ParScore.answer (fun _ => some (- normality (edgeWeight (e :: es')).val
        (nodeDegrees (e :: es')).val [e])) 0 (points - p.queryLength)] →
        delivered s = [normalize (vector (e :: es') p.queryLength (points - p.queryLength))] := by
      intro h
      rw [delivered, h, List.map_singleton]
      congr 1
      have ha : (ParScore.answer (fun _ => some (- normality (edgeWeight (e :: es')).val
          (nodeDegrees (e :: es')).val [e])) 0 (points - p.queryLength)).1 =
          List.replicate (points - p.queryLength) (- normality (edgeWeight (e :: es')).val
          (nodeDegrees (e :: es')).val [e]) := by
        unfold ParScore.answer
        rw [← carry_eq_spec, carry_const (c := - normality (edgeWeight (e :: es')).val (nodeDegrees (e :: es')).val [e])]
        · simp
        · intro x hx
          obtain ⟨_, _, rfl⟩ := List.mem_map.1 hx
          rfl
      have hv : vector (e :: es') p.queryLength (points - p.queryLength) = List.replicate (points - p.queryLength) 0 := by
        unfold vector
        rw [← carry_eq_spec, carry_none]
        · simp
        · intro x hx
          obtain ⟨i, _, rfl⟩ := List.mem_map.1 hx
          unfold rawOf rawSpec
          rw [if_pos]
          rw [ParScore.windowSpec_eq_nil]
          intro y hy
          have := hz _ (List.mem_map_of_mem hy)
          omega
      rw [ha, hv, normalize_const (c := - normality (edgeWeight (e :: es')).val (nodeDegrees (e :: es')).val [e]),
        normalize_const (c := 0)]
      · simp
      · intro x hx; exact List.eq_of_mem_replicate hx
      · intro hh
        have := congrArg List.length hh
        simp at this
        omega
      · intro x hx; exact List.eq_of_mem_replicate hx
      · intro hh
        have := congrArg List.length hh
        simp at this
        omega
    refine ⟨?_, fun h => hdel (g2 h), g3⟩
    rcases g1 with g1 | g1
    · left; rw [delivered, g1]; rfl
    · right; exact hdel g1

/-! ### The whole run -/

theorem steps_lt : ∀ {l : List Pt}, l.Pairwise (fun a b => a.id < b.id) → ∀ t ∈ steps l, t.src.id < t.dst.id
  | a :: b :: l, h, t, ht => by
    rw [steps] at ht
    have h' := List.pairwise_cons.1 h
    rcases List.mem_cons.1 ht with rfl | ht
    · exact h'.1 b (by simp)
    · exact steps_lt h'.2 t ht
  | [_], _, _, ht => by simp [steps] at ht
  | [], _, _, ht => by simp [steps] at ht

theorem toId_walk {rate : Nat} {lab : Nat → Nat → Nat} {ts : List Trans} {e : Edge} (he : e ∈ pairs (walk rate lab ts)) :
    ∃ t ∈ ts, e.toId = t.src.id := by
  have := (mem_walk.1 (ends_pairs (mem_ends he).2)).1
  obtain ⟨t, ht, hk⟩ := List.mem_flatMap.1 this
  obtain ⟨s, _, hs⟩ := List.mem_map.1 hk
  exact ⟨t, ht, (congrArg Prod.fst hs).symm⟩

/-- Points numbered from 0 on. -/
theorem numbered {pts : List Pt} (h : pts.map Pt.id = List.range pts.length) :
    pts.Pairwise (fun a b => a.id < b.id) ∧ ∀ x ∈ pts, x.id < pts.length := by
  constructor
  · rw [← List.pairwise_map, h]
    exact List.pairwise_lt_range
  · intro x hx
    have : x.id ∈ pts.map Pt.id := List.mem_map_of_mem hx
    rw [h] at this
    exact List.mem_range.1 this

/-- C64: a run on one node whose points are numbered from 0 on and lie in segments of the circle, with at least one position
per thread, in which neither the clustering nor the connection of nodes (C40) crashes, delivers exactly one vector in every schedule of the threads:
the normalised scores (`vector`: weights, degrees and windows of C48) of the consecutive pairs of the walk through the clusters
of the crossings of the points after self correction. -/
theorem C64_run {clu : List X → Option (List Nat)} (hc : OneLabelEach clu) (coord : Inter → X) {mirror : Pt → Pt}
    {p : Parameters} (hp : p.WellFormed) (hn : p.nClusterNodes = 1) {len : Nat} {pts : List Pt}
    (hm : ∀ a, (mirror a).id = a.id ∧ (a.seg < p.rate → (mirror a).seg < p.rate))
    (hid : pts.map Pt.id = List.range pts.length) (hseg : ∀ x ∈ pts, x.seg < p.rate) (hlen : pts.length ≤ len)
    (hq : 1 ≤ p.queryLength) (ht : 1 ≤ p.nThreads) (hsl : p.nThreads + p.queryLength ≤ pts.length)
    (hclu : ∀ s < p.rate, 2 ≤ (crossings p.rate (validSteps p.rate (effective p mirror pts)) s).length →
      clu ((crossings p.rate (validSteps p.rate (effective p mirror pts)) s).reverse.map coord) ≠ none)
    (h40 : ∀ t ∈ (validSteps p.rate (effective p mirror pts)).head?, ¬ (t.src.seg + 2 = p.rate ∧ t.dst.seg < t.src.seg)) :
    ∃ lab, Labelled clu coord p.rate (validSteps p.rate (effective p mirror pts)) lab ∧
    ∃ s0, localRun clu coord mirror p len pts = some s0 ∧ ∀ s, ParScore.Reachable s0 s →
      (delivered s = [] ∨ delivered s = [normalize (vector (pairs (walk p.rate lab (validSteps p.rate (effective p mirror pts))))
        p.queryLength (pts.length - p.queryLength))]) ∧
      (s.pool = [] → delivered s = [normalize (vector (pairs (walk p.rate lab (validSteps p.rate (effective p mirror pts))))
        p.queryLength (pts.length - p.queryLength))]) ∧
      (∀ pre m post, s.pool = pre ++ m :: post → ∃ u, ParScore.handle { s with pool := pre ++ post } m = some u ∧
        u.pool.length + (p.nThreads - u.proto.nReceived) < s.pool.length + (p.nThreads - s.proto.nReceived)) := by
  have heid : (effective p mirror pts).map Pt.id = List.range (effective p mirror pts).length ∧
      (effective p mirror pts).length = pts.length ∧ ∀ x ∈ effective p mirror pts, x.seg < p.rate := by
    unfold effective
    split
    · refine ⟨?_, by simp, ?_⟩
      · rw [List.length_map, ← hid, List.map_map]
        apply List.map_congr_left
        intro a _
        exact (hm a).1
      · intro x hx
        obtain ⟨a, ha, rfl⟩ := List.mem_map.1 hx
        exact (hm a).2 (hseg a ha)
    · exact ⟨hid, rfl, hseg⟩
  obtain ⟨e1, e2, e3⟩ := heid
  obtain ⟨n1, n2⟩ := numbered e1
  rw [e2] at n2
  obtain ⟨g1, g2⟩ := C64_graph hc coord mirror hp hn (len := len) e3 n1 (fun x hx => by have := n2 x hx; omega)
  cases hes : localEdges clu coord mirror p len pts with
  | none =>
    rcases g1.1 hes with ⟨s, h1, h2, h3⟩ | ⟨t, h1, h2⟩
    · exact absurd h3 (hclu s h1 h2)
    · exact absurd h2 (h40 t h1)
  | some es =>
    obtain ⟨lab, hlab, rfl⟩ := g2 es hes
    refine ⟨lab, hlab, ?_⟩
    have hst := steps_of_points (rate := p.rate) e3 n1 (fun x hx => n2 x hx)
    obtain ⟨s0, h1, h2⟩ := C64_scores (p := p) (points := pts.length) (pairs_sorted (walk_sorted hst.sorted)) (by
      intro e he
      obtain ⟨t, ht, he⟩ := toId_walk he
      have hmem := (List.mem_filter.1 ht).1
      have := steps_lt n1 t hmem
      have := n2 _ (mem_steps hmem).2
      omega) hq ht hsl
    refine ⟨s0, ?_, h2⟩
    unfold localRun
    rw [hes]
    exact h1

/-! ### Concrete instances -/

def exP : Parameters := ⟨4, 1, 2, 8, 1, 1, false⟩

/-- A little more than one turn. -/
def exPts : List Pt := [⟨0, 1⟩, ⟨1, 3⟩, ⟨2, 4⟩, ⟨3, 6⟩, ⟨4, 7⟩, ⟨5, 1⟩, ⟨6, 3⟩]

def exClu : List Nat → Option (List Nat) := fun xs => some (xs.map (fun _ => 0))

theorem exClu_labels : OneLabelEach exClu := by
  intro xs labels _ h
  rw [← Option.some.inj h, List.length_map]

/-- The hypotheses of `C64_run` hold for a walk of nine edges. -/
example : ∃ lab s0, Labelled exClu (fun x => x.1.src.id) exP.rate (validSteps exP.rate (effective exP id exPts)) lab ∧
    localRun exClu (fun x => x.1.src.id) id exP 7 exPts = some s0 := by
  obtain ⟨lab, h1, s0, h2, _⟩ := C64_run exClu_labels (fun x => x.1.src.id) (mirror := id) (p := exP) (by decide) rfl (len := 7)
    (pts := exPts) (fun a => ⟨rfl, fun h => h⟩) (by decide) (by decide) (by decide) (by decide) (by decide) (by decide)
    (fun s _ _ h => by cases h) (by decide)
  exact ⟨lab, s0, h1, h2⟩

example : (pairs (walk exP.rate (fun _ _ => 0) (validSteps exP.rate (effective exP id exPts)))).length = 9 := by decide

/-- ... and with self correction, which mirrors. -/
example : ∃ lab s0, Labelled exClu (fun x => x.1.src.id) 8 (validSteps 8 exPts) lab ∧
    localRun exClu (fun x => x.1.src.id) (SelfCorrection.mirrorPt 4) { exP with selfCorrection := true } 7
      (exPts.map (SelfCorrection.mirrorPt 4)) = some s0 := by
  have he : effective { exP with selfCorrection := true } (SelfCorrection.mirrorPt 4) (exPts.map (SelfCorrection.mirrorPt 4)) =
      exPts := by decide
  obtain ⟨lab, h1, s0, h2, _⟩ := C64_run exClu_labels (fun x => x.1.src.id) (mirror := SelfCorrection.mirrorPt 4)
    (p := { exP with selfCorrection := true }) (by decide) rfl (len := 7) (pts := exPts.map (SelfCorrection.mirrorPt 4))
    (fun a => ⟨rfl, fun _ => Nat.mod_lt _ (by decide)⟩) (by decide) (by decide) (by decide) (by decide) (by decide) (by decide)
    (fun s _ _ h => by cases h) (by rw [he]; decide)
  rw [he] at h1
  exact ⟨lab, s0, h1, h2⟩

end Pipeline
end S2G
