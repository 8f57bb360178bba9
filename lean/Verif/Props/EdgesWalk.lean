import Verif.Props.EdgesLocal
import Verif.Props.NodeEstimation

/-!
# C39, C40, C41: statements and instances
-/

namespace S2G
namespace Edges

/-- C39: given the node `v` of the previous step, the edges of a valid step are the path from `v` through the nodes of
the crossed segments `f+1, …, t` (modulo the rate) in direction of travel, and the next step continues at the node in
segment `t`. The nodes are given as the data store returns them: one node per crossed segment, ascending. -/
theorem C39_path {rate : Nat} (t : Trans) (hf : t.src.seg < rate) (ht : t.dst.seg < rate) (hv : t.isValid rate = true)
    (lab : Nat → Nat → Nat) (v : Node) {nodes : List Node}
    (hp : nodes.Perm ((t.intersectionSegments rate).map (fun s => ⟨s, lab t.src.id s, t.src.id⟩)))
    (hs : nodes.Pairwise (fun v w => v.seg ≤ w.seg)) :
    stepEdges (some v) nodes = some (some ⟨t.dst.seg, lab t.src.id t.dst.seg, t.src.id⟩,
      pairs (v :: (t.intersectionSegments rate).map (fun s => ⟨s, lab t.src.id s, t.src.id⟩))) := by
  have := stepEdges_walk t hf ht hv lab (some v) hp hs
  rw [if_neg (by simp)] at this
  exact this

/-- C40: for a valid step without predecessor, the code crashes iff the step leaves the last but one segment and
crosses the start of the circle; otherwise the edges are the path through its nodes. -/
theorem C40_step_crash_iff {rate : Nat} (t : Trans) (hf : t.src.seg < rate) (ht : t.dst.seg < rate)
    (hv : t.isValid rate = true) (lab : Nat → Nat → Nat) (prev : Option Node) {nodes : List Node}
    (hp : nodes.Perm ((t.intersectionSegments rate).map (fun s => ⟨s, lab t.src.id s, t.src.id⟩)))
    (hs : nodes.Pairwise (fun v w => v.seg ≤ w.seg)) :
    stepEdges prev nodes = none ↔ prev = none ∧ t.src.seg + 2 = rate ∧ t.dst.seg < t.src.seg := by
  rw [stepEdges_walk t hf ht hv lab prev hp hs]
  split <;> simp_all

/-- The crash of the first step carries over to the whole stage. -/
theorem foldlM_crash {p : Parameters} (hp : p.WellFormed) {j : Nat} (hj : j < p.nClusterNodes) {lab : Nat → Nat → Nat}
    {nodesOf : Nat → List Node} {t : Trans} {ts : List Trans}
    (hv : t.src.seg < p.rate ∧ t.dst.seg < p.rate ∧ t.isValid p.rate = true)
    (hloc : LocalNodes p lab (t :: ts) j nodesOf) (hsort : (t :: ts).Pairwise (fun t u => t.src.id < u.src.id))
    (hcr : CrashStep p t) (nfn : Nat × Nat → Option Node) (m : Nat) : ∀ a, a ≤ t.src.id → t.src.id < a + m →
    (List.range' a m).foldlM (fun c pid => Conn.point c pid (nodesOf pid)) ⟨none, [], nfn⟩ = none := by
  induction m with
  | zero => intro a h1 h2; omega
  | succ m ih =>
    intro a h1 h2
    rw [List.range'_succ, List.foldlM_cons]
    by_cases e : t.src.id = a
    · subst e
      obtain ⟨h3, h4⟩ := hloc.1 t (by simp)
      have hne : nodesOf t.src.id ≠ [] := by
        rw [own_eq_self hp hcr.1 hj] at h3
        intro e
        rw [e, List.nil_perm, stepWalk, List.map_eq_nil_iff] at h3
        obtain ⟨_, _, _, _, h⟩ := Trans.C30_segments t hv.1 hv.2.1 hv.2.2
        rw [h3] at h
        simp at h
      have := (stepEdges_node hp t hv.1 hv.2.1 hv.2.2 hj lab none hne h3 h4).1 ⟨rfl, hcr⟩
      have : Conn.point ⟨none, [], nfn⟩ t.src.id (nodesOf t.src.id) = none := by
        unfold Conn.point
        rw [if_neg (by simpa using hne), this]
        rfl
      rw [this]
      rfl
    · have : nodesOf a = [] := by
        apply hloc.2
        intro u hu
        rcases List.mem_cons.1 hu with rfl | hu
        · exact e
        · have := (List.pairwise_cons.1 hsort).1 u hu
          omega
      rw [this]
      exact ih (a + 1) (by omega) (by omega)

/-- C40: with complete nodes and answers, edge estimation at node `j` crashes iff the cluster has one node and the
very first step of the series leaves the last but one segment and crosses the start of the circle. -/
theorem C40_run_crash_iff {p : Parameters} (hp : p.WellFormed) {j : Nat} (hj : j < p.nClusterNodes)
    {lab : Nat → Nat → Nat} {len : Nat} {ts : List Trans} (hst : Steps p.rate len ts) {nodesOf : Nat → List Node}
    (hloc : LocalNodes p lab ts j nodesOf) {nfn : Nat × Nat → Option Node}
    (hans : Answered p (walk p.rate lab ts) j nfn) :
    connectNodes len nodesOf nfn = none ↔ ∃ t ∈ ts.head?, p.nClusterNodes = 1 ∧ t.src.seg + 2 = p.rate ∧
      t.dst.seg < t.src.seg := by
  constructor
  · intro h
    by_contra hc
    rw [connect_walk hp hj hst hloc hans (fun t ht hcr => hc ⟨t, ht, hcr⟩)] at h
    cases h
  · rintro ⟨t, ht, hcr⟩
    cases ts with
    | nil => cases ht
    | cons u ts =>
      cases ht
      unfold connectNodes
      rw [List.range_eq_range', foldlM_crash hp hj (hst.valid t (by simp)) hloc hst.sorted hcr nfn len 0 (by omega)
        (by have := hst.bound t (by simp); omega)]
      rfl

/-- C40 (the unconditional claim is false): with 100 segments, a first step from segment 98 to segment 0 crashes. -/
theorem C40_counterexample :
    (Trans.mk ⟨0, 98⟩ ⟨1, 0⟩).isValid 100 = true ∧
    (Trans.mk ⟨0, 98⟩ ⟨1, 0⟩).intersectionSegments 100 = [99, 0] ∧
    connectNodes 2 (fun pid => if pid = 0 then [⟨0, 0, 0⟩, ⟨99, 0, 0⟩] else []) (fun _ => none) = none := by
  refine ⟨by decide, by decide, ?_⟩
  rfl

/-- C41: in a one-node run without the crash of C40 the edges are exactly the consecutive pairs of the walk of visited
graph nodes, in temporal order and direction of travel. -/
theorem C41_local_edges {p : Parameters} (hp : p.WellFormed) (hn : p.nClusterNodes = 1) {lab : Nat → Nat → Nat}
    {len : Nat} {ts : List Trans} (hst : Steps p.rate len ts) {nodesOf : Nat → List Node}
    (hloc : ∀ t ∈ ts, (nodesOf t.src.id).Perm ((t.intersectionSegments p.rate).map (node lab t.src.id)) ∧
      (nodesOf t.src.id).Pairwise (fun v w => v.seg ≤ w.seg))
    (hempty : ∀ pid, (∀ t ∈ ts, t.src.id ≠ pid) → nodesOf pid = [])
    (hcrash : ∀ t ∈ ts.head?, ¬ (t.src.seg + 2 = p.rate ∧ t.dst.seg < t.src.seg)) :
    connectNodes len nodesOf (fun _ => none) =
      some (pairs (ts.flatMap (fun t => (t.intersectionSegments p.rate).map (node lab t.src.id)))) := by
  have hown : ∀ s, owner p s = 0 := fun s => by have := owner_lt hp s; omega
  rw [connect_walk (j := 0) (lab := lab) hp (by omega) hst ⟨by
      intro t ht
      rw [own_eq_self hp hn (by omega)]
      exact hloc t ht, hempty⟩
    (by
      intro A x B _ _
      cases B.head? <;> simp [hown])
    (fun t ht h => hcrash t ht h.2)]
  have : (pairs (walk p.rate lab ts)).filter (fun e => owner p e.src.seg = 0) = pairs (walk p.rate lab ts) := by
    rw [List.filter_eq_self]
    intro e _
    simp [hown]
  rw [this]
  rfl

/-! ### Labels: from node estimation (C33) to the walk -/

/-- The labels assigned by node estimation, read off the nodes of all cluster nodes. -/
def labels (p : Parameters) (nodes : Nat → List Node) (pid s : Nat) : Nat :=
  (((nodes (owner p s)).find? (fun v => v.fromId = pid ∧ v.seg = s)).map Node.cluster).getD 0

/-- Node estimation (C33) at all nodes provides exactly what edge estimation needs. -/
theorem localNodes_of_keys {p : Parameters} {ts : List Trans}
    (hv : ∀ t ∈ ts, t.src.seg < p.rate ∧ t.dst.seg < p.rate ∧ t.isValid p.rate = true)
    (hsort : ts.Pairwise (fun t u => t.src.id < u.src.id)) {nodes : Nat → List Node}
    (hkeys : ∀ j < p.nClusterNodes, ((nodes j).map NodeEst.key).Perm
      ((ts.flatMap (fun t => (t.intersectionSegments p.rate).map (fun s => (t.src.id, s)))).filter
        (fun k => owner p k.2 = j)))
    (hasc : ∀ j < p.nClusterNodes, (nodes j).Pairwise (fun v w => v.seg ≤ w.seg)) {j : Nat} (hj : j < p.nClusterNodes) :
    LocalNodes p (labels p nodes) ts j (NodeEst.nodesOf (nodes j)) := by
  have hfilter : ∀ pid, ((NodeEst.nodesOf (nodes j) pid).map NodeEst.key).Perm
      (((ts.filter (fun t => t.src.id = pid)).flatMap
        (fun t => (t.intersectionSegments p.rate).map (fun s => (t.src.id, s)))).filter (fun k => owner p k.2 = j)) := by
    intro pid
    have h := (hkeys j hj).filter (fun k => decide (k.1 = pid))
    rw [List.filter_map] at h
    refine List.Perm.trans h (List.Perm.of_eq ?_)
    rw [List.filter_comm]
    congr 1
    rw [List.filter_flatMap]
    clear hsort h hkeys hv
    induction ts with
    | nil => rfl
    | cons t ts ih =>
      rw [List.flatMap_cons, ih, List.filter_cons]
      by_cases e : t.src.id = pid
      · have : ((t.intersectionSegments p.rate).map (fun s => (t.src.id, s))).filter (fun k => decide (k.1 = pid)) =
            (t.intersectionSegments p.rate).map (fun s => (t.src.id, s)) := by
          rw [List.filter_eq_self]
          simp [e]
        simp [e] at this ⊢
      · have : ((t.intersectionSegments p.rate).map (fun s => (t.src.id, s))).filter (fun k => decide (k.1 = pid)) =
            [] := by
          rw [List.filter_eq_nil_iff]
          simp [e]
        simp [e] at this ⊢
  have hids : ∀ t ∈ ts, ts.filter (fun u => u.src.id = t.src.id) = [t] := by
    intro t ht
    clear hfilter hkeys hv
    induction ts with
    | nil => cases ht
    | cons u ts ih =>
      obtain ⟨h1, h2⟩ := List.pairwise_cons.1 hsort
      rcases List.mem_cons.1 ht with rfl | ht
      · rw [List.filter_cons, if_pos (by simp)]
        congr 1
        rw [List.filter_eq_nil_iff]
        intro u hu
        have := h1 u hu
        simp only [decide_eq_true_eq]
        omega
      · have := h1 t ht
        rw [List.filter_cons, if_neg (by simp only [decide_eq_true_eq]; omega)]
        exact ih h2 ht
  constructor
  · intro t ht
    refine ⟨?_, (hasc j hj).filter _⟩
    have h := hfilter t.src.id
    rw [hids t ht, List.flatMap_cons, List.flatMap_nil, List.append_nil, List.filter_map] at h
    have hsegs : ((NodeEst.nodesOf (nodes j) t.src.id).map Node.seg).Perm
        ((t.intersectionSegments p.rate).filter (fun s => owner p s = j)) := by
      have := h.map Prod.snd
      rw [List.map_map, List.map_map] at this
      simpa [Function.comp_def, NodeEst.key] using this
    obtain ⟨hf, hd, hval⟩ := hv t ht
    obtain ⟨_, _, _, hnd, _⟩ := Trans.C30_segments t hf hd hval
    have hnd' : ((NodeEst.nodesOf (nodes j) t.src.id).map Node.seg).Nodup :=
      hsegs.nodup_iff.2 (hnd.filter _)
    have hlab : ∀ v ∈ NodeEst.nodesOf (nodes j) t.src.id, v = node (labels p nodes) t.src.id v.seg := by
      intro v hv
      have hvs : v.seg ∈ (t.intersectionSegments p.rate).filter (fun s => owner p s = j) :=
        hsegs.subset (List.mem_map_of_mem hv)
      have hvo : owner p v.seg = j := by simpa using (List.mem_filter.1 hvs).2
      have hvid : v.fromId = t.src.id := by simpa using (List.mem_filter.1 hv).2
      have hvm : v ∈ nodes j := (List.mem_filter.1 hv).1
      have hfind : (nodes j).find? (fun w => decide (w.fromId = t.src.id ∧ w.seg = v.seg)) = some v := by
        rcases hf : (nodes j).find? (fun w => decide (w.fromId = t.src.id ∧ w.seg = v.seg)) with _ | w
        · rw [List.find?_eq_none] at hf
          exact absurd (by simpa using hvid) (hf v hvm)
        · have hw := List.find?_some hf
          have hwm := List.mem_of_find?_eq_some hf
          simp only [decide_eq_true_eq] at hw
          have hwn : w ∈ NodeEst.nodesOf (nodes j) t.src.id := List.mem_filter.2 ⟨hwm, by simpa using hw.1⟩
          rw [hf, List.inj_on_of_nodup_map hnd' hwn hv hw.2]
      have hl : labels p nodes t.src.id v.seg = v.cluster := by
        unfold labels
        rw [hvo, hfind]
        rfl
      unfold node
      rw [hl, ← hvid]
    have hmap : NodeEst.nodesOf (nodes j) t.src.id =
        ((NodeEst.nodesOf (nodes j) t.src.id).map Node.seg).map (node (labels p nodes) t.src.id) := by
      rw [List.map_map]
      conv_lhs => rw [← List.map_id (NodeEst.nodesOf (nodes j) t.src.id)]
      exact List.map_congr_left hlab
    have hown : own p j (stepWalk p.rate (labels p nodes) t) =
        ((t.intersectionSegments p.rate).filter (fun s => owner p s = j)).map (node (labels p nodes) t.src.id) := by
      unfold own stepWalk
      rw [List.filter_map]
      rfl
    rw [hown, hmap]
    exact hsegs.map _
  · intro pid hno
    have h := hfilter pid
    have : ts.filter (fun t => t.src.id = pid) = [] := by
      rw [List.filter_eq_nil_iff]
      intro t ht
      simpa using hno t ht
    rw [this] at h
    exact List.map_eq_nil_iff.1 (List.perm_nil.1 h)

/-! ### Concrete instance: a walk around the circle on one node -/

private def exP1 : Parameters := { SegNet.exP with nClusterNodes := 1 }
private def exTs : List Trans := [⟨⟨0, 5⟩, ⟨1, 7⟩⟩, ⟨⟨1, 7⟩, ⟨2, 2⟩⟩, ⟨⟨3, 1⟩, ⟨4, 3⟩⟩]
private def exNodes (pid : Nat) : List Node :=
  if pid = 0 then [⟨6, 0, 0⟩, ⟨7, 1, 0⟩]
  else if pid = 1 then [⟨0, 0, 1⟩, ⟨1, 2, 1⟩, ⟨2, 0, 1⟩]
  else if pid = 3 then [⟨2, 0, 3⟩, ⟨3, 1, 3⟩] else []

example : Steps 8 5 exTs := ⟨by decide, by decide, by decide⟩

example : connectNodes 5 exNodes (fun _ => none) = some (pairs
    [⟨6, 0, 0⟩, ⟨7, 1, 0⟩, ⟨0, 0, 1⟩, ⟨1, 2, 1⟩, ⟨2, 0, 1⟩, ⟨2, 0, 3⟩, ⟨3, 1, 3⟩]) := by rfl

/-- with wrap-around inside one step: 6 → 1 crosses 7, 0, 1 -/
example : stepEdges (some ⟨6, 0, 0⟩) [⟨0, 0, 1⟩, ⟨1, 0, 1⟩, ⟨7, 0, 1⟩] =
    some (some ⟨1, 0, 1⟩, pairs [⟨6, 0, 0⟩, ⟨7, 0, 1⟩, ⟨0, 0, 1⟩, ⟨1, 0, 1⟩]) := by rfl

end Edges
end S2G
