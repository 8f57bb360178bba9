import Verif.Props.Pipeline
import Verif.Props.KdeOrder

/-!
# C62: the distributed run and the run on one node
-/

namespace S2G
namespace Pipeline
open Scoring Weights Edges SegState NodeEst
variable {X : Type}

/-! ### Reordering of the edges which end at the same point -/

/-- Of the edges which end at point `k`, the same one comes first (only points from `q` on are the end of a window). -/
def SameFirst (q : Nat) (E E' : List Edge) : Prop :=
  ∀ k, q ≤ k → (E.filter (fun e => e.toId = k)).head? = (E'.filter (fun e => e.toId = k)).head?

theorem weightOf_perm {E E' : List Edge} (h : E.Perm E') : weightOf E = weightOf E' := by
  funext k
  exact h.countP_eq _

theorem degreeOf_perm {E E' : List Edge} (h : E.Perm E') : degreeOf E = degreeOf E' := by
  funext v
  have hp : (distinct E).Perm (distinct E') := (h.map Edge.edgeKey).dedup
  unfold degreeOf degreeSpec
  rw [hp.countP_eq, hp.countP_eq]

theorem head_later {E : List Edge} (hs : E.Pairwise (fun a b => a.toId ≤ b.toId)) {b : Nat} {e : Edge}
    (h : (E.filter (fun x => b < x.toId)).head? = some e) :
    (E.filter (fun x => x.toId = e.toId)).head? = some e ∧ b < e.toId ∧ e ∈ E ∧ ∀ x ∈ E, b < x.toId → e.toId ≤ x.toId := by
  obtain ⟨l, hl⟩ : ∃ l, E.filter (fun x => b < x.toId) = e :: l := by
    cases hc : E.filter (fun x => b < x.toId) with
    | nil => rw [hc] at h; cases h
    | cons a l =>
      rw [hc] at h
      exact ⟨l, by rw [Option.some.inj h]⟩
  have hmem : e ∈ E.filter (fun x => b < x.toId) := by rw [hl]; simp
  have hb : b < e.toId := by simpa using (List.mem_filter.1 hmem).2
  refine ⟨?_, hb, (List.mem_filter.1 hmem).1, ?_⟩
  · have : E.filter (fun x => x.toId = e.toId) = (E.filter (fun x => b < x.toId)).filter (fun x => x.toId = e.toId) := by
      rw [List.filter_filter]
      apply List.filter_congr
      intro x _
      by_cases hx : x.toId = e.toId
      · simp [hx, hb]
      · simp [hx]
    rw [this, hl]
    simp
  · intro x hx hbx
    have hx' : x ∈ E.filter (fun x => b < x.toId) := List.mem_filter.2 ⟨hx, by simpa using hbx⟩
    have hs' := hs.filter (fun x => decide (b < x.toId))
    rw [hl] at hx' hs'
    rcases List.mem_cons.1 hx' with rfl | hx'
    · exact le_refl _
    · exact (List.pairwise_cons.1 hs').1 x hx'

/-- The window after a reordering. -/
theorem window_congr {E E' : List Edge} (hp : E.Perm E') (hs : E.Pairwise (fun a b => a.toId ≤ b.toId))
    (hs' : E'.Pairwise (fun a b => a.toId ≤ b.toId)) {q : Nat} (hf : SameFirst q E E') (hq : 1 ≤ q) (i : Nat) :
    (windowSpec E 0 q i).Perm (windowSpec E' 0 q i) := by
  simp only [windowSpec_toId]
  have htake : ∀ l : List Edge, l.take 1 = l.head?.toList := by
    intro l
    cases l <;> rfl
  refine List.Perm.append (hp.filter _) (List.Perm.of_eq ?_)
  rw [htake, htake]
  congr 1
  cases h : (E.filter (fun e => 0 + i + (q - 1) < e.toId)).head? with
  | none =>
    rw [List.head?_eq_none_iff] at h
    have := hp.filter (fun e => decide (0 + i + (q - 1) < e.toId))
    rw [h] at this
    rw [List.nil_perm.1 this]
    rfl
  | some e =>
    cases h' : (E'.filter (fun e => 0 + i + (q - 1) < e.toId)).head? with
    | none =>
      rw [List.head?_eq_none_iff] at h'
      have := hp.filter (fun e => decide (0 + i + (q - 1) < e.toId))
      rw [h'] at this
      rw [List.perm_nil.1 this] at h
      cases h
    | some e' =>
      obtain ⟨a1, a2, a3, a4⟩ := head_later hs h
      obtain ⟨b1, b2, b3, b4⟩ := head_later hs' h'
      have he : e.toId = e'.toId := by
        have := a4 e' (hp.mem_iff.2 b3) b2
        have := b4 e (hp.mem_iff.1 a3) a2
        omega
      rw [← a1, ← b1, hf e.toId (by omega), he]

/-- The scores after a reordering of edges which end at the same point. -/
theorem vector_congr {E E' : List Edge} (hp : E.Perm E') (hs : E.Pairwise (fun a b => a.toId ≤ b.toId))
    (hs' : E'.Pairwise (fun a b => a.toId ≤ b.toId)) {q : Nat} (hq : 1 ≤ q) (hf : SameFirst q E E') (len : Nat) :
    vector E q len = vector E' q len := by
  unfold vector
  congr 1
  apply List.map_congr_left
  intro i _
  have hw := window_congr hp hs hs' hf hq i
  unfold rawOf rawSpec
  rw [weightOf_perm hp, degreeOf_perm hp]
  by_cases h : windowSpec E 0 q i = []
  · rw [if_pos h]
    rw [h] at hw
    rw [if_pos (List.nil_perm.1 hw)]
  · rw [if_neg h, if_neg (fun h' => h (by rw [h'] at hw; exact List.perm_nil.1 hw))]
    unfold normality
    rw [hw.length_eq, (hw.map _).sum_eq]

/-! ### Clusterings which do not depend on the order -/

/-- The groups made by the clustering do not depend on the order of its input (for `Kde.cluster` see `kde_orderFree`). -/
def OrderFree (P : X → Prop) (clu : List X → Option (List Nat)) : Prop :=
  ∀ xs ys : List X, (∀ x ∈ xs, P x) → 2 ≤ xs.length → xs.Perm ys → (clu xs = none ↔ clu ys = none) ∧
    ∀ ls ls', clu xs = some ls → clu ys = some ls' → ∀ (i j i' j' : Nat) (a b : X), xs[i]? = some a → xs[j]? = some b →
      ys[i']? = some a → ys[j']? = some b → (ls[i]? = ls[j]? ↔ ls'[i']? = ls'[j']?)

theorem kde_orderFree {t resolution order dims : Nat} (ht : 1 ≤ t) :
    OrderFree (fun row : List ℝ => row.length = dims) (fun data => (Kde.cluster t resolution order dims data).map Prod.fst) := by
  intro xs ys hP h2 hp
  obtain ⟨h1, h3⟩ := Kde.cluster_order_free (resolution := resolution) (order := order) ht hP h2 hp
  refine ⟨by simpa using h1, ?_⟩
  intro ls ls' hl hl'
  simp only [Option.map_eq_some_iff] at hl hl'
  obtain ⟨⟨l, tb⟩, hl, rfl⟩ := hl
  obtain ⟨⟨l', tb'⟩, hl', rfl⟩ := hl'
  exact h3 l tb l' tb' hl hl'

/-- `lab` are the groups which the clustering makes of the crossings of each segment in some order. -/
def LabelledPerm (clu : List X → Option (List Nat)) (coord : Inter → X) (rate : Nat) (ts : List Trans) (lab : Nat → Nat → Nat) :
    Prop :=
  ∀ s < rate, 2 ≤ (crossings rate ts s).length → ∃ xs : List Inter, xs.Perm (crossings rate ts s) ∧
    clu (xs.map coord) = some (xs.map (fun x => lab x.1.src.id s))

theorem Labelled.perm {clu : List X → Option (List Nat)} {coord : Inter → X} {rate : Nat} {ts : List Trans} {lab : Nat → Nat → Nat}
    (h : Labelled clu coord rate ts lab) : LabelledPerm clu coord rate ts lab :=
  fun s hs h2 => ⟨_, List.reverse_perm _, h s hs h2⟩

theorem sameGroups_of_orderFree {P : X → Prop} {clu : List X → Option (List Nat)} (hf : OrderFree P clu) {coord : Inter → X}
    (hP : ∀ x, P (coord x)) {rate : Nat} {ts : List Trans} (hv : ∀ t ∈ ts, ValidStep rate t) {lab lab' : Nat → Nat → Nat}
    (h : LabelledPerm clu coord rate ts lab) (h' : LabelledPerm clu coord rate ts lab') : SameGroups rate ts lab lab' := by
  have hcross : ∀ a s, (a, s) ∈ keysOf rate ts → s < rate ∧ ∃ t, (t, s) ∈ crossings rate ts s ∧ t.src.id = a := by
    intro a s hk
    obtain ⟨t, ht, hk⟩ := List.mem_flatMap.1 hk
    obtain ⟨s', hs', he⟩ := List.mem_map.1 hk
    obtain ⟨rfl, rfl⟩ := Prod.mk.inj he
    refine ⟨?_, t, List.mem_map.2 ⟨t, List.mem_filter.2 ⟨ht, by simpa using hs'⟩, rfl⟩, rfl⟩
    obtain ⟨hf, hd, hval⟩ := hv t ht
    obtain ⟨k, _, he, _⟩ := Trans.C30_segments t hf hd hval
    rw [he] at hs'
    obtain ⟨j, _, rfl⟩ := List.mem_map.1 hs'
    exact Nat.mod_lt _ (by omega)
  intro s a b ha hb
  obtain ⟨hs, ta, hta, rfl⟩ := hcross a s ha
  obtain ⟨_, tb, htb, rfl⟩ := hcross b s hb
  by_cases h2 : 2 ≤ (crossings rate ts s).length
  · obtain ⟨xs, hx, hcx⟩ := h s hs h2
    obtain ⟨ys, hy, hcy⟩ := h' s hs h2
    obtain ⟨i, hi⟩ := List.mem_iff_getElem?.1 (hx.mem_iff.2 hta)
    obtain ⟨j, hj⟩ := List.mem_iff_getElem?.1 (hx.mem_iff.2 htb)
    obtain ⟨i', hi'⟩ := List.mem_iff_getElem?.1 (hy.mem_iff.2 hta)
    obtain ⟨j', hj'⟩ := List.mem_iff_getElem?.1 (hy.mem_iff.2 htb)
    have := (hf (xs.map coord) (ys.map coord) (by
        intro x hx
        obtain ⟨y, _, rfl⟩ := List.mem_map.1 hx
        exact hP y) (by rw [List.length_map, hx.length_eq]; exact h2) ((hx.trans hy.symm).map coord)).2 _ _ hcx hcy i j i' j'
      (coord (ta, s)) (coord (tb, s)) (by rw [List.getElem?_map, hi]; rfl) (by rw [List.getElem?_map, hj]; rfl)
      (by rw [List.getElem?_map, hi']; rfl) (by rw [List.getElem?_map, hj']; rfl)
    rw [List.getElem?_map, List.getElem?_map, List.getElem?_map, List.getElem?_map, hi, hj, hi', hj'] at this
    simpa using this
  · have : ta = tb := by
      have hl : (crossings rate ts s).length = 1 := by
        have := List.length_pos_of_mem hta
        omega
      obtain ⟨x, hx⟩ := List.length_eq_one_iff.1 hl
      rw [hx, List.mem_singleton] at hta htb
      exact congrArg Prod.fst (hta.trans htb.symm)
    rw [this]
    simp

/-! ### The distributed run -/

/-- A finished run on several nodes up to the transposition, in any schedule of every stage. -/
structure Graphed (clu : List X → Option (List Nat)) (coord : Inter → X) (p : Parameters) (len : Nat) (pts : Nat → List Pt)
    (sg : SegNet) (it : InterNet) (nodes : Nat → List Node) (qn : QNet) (es edges : Nat → List Edge) (tr : TransNet) :
    Prop where
  wf : p.WellFormed
  several : 2 ≤ p.nClusterNodes
  /-- points lie in segments of the circle and are numbered; all parts but the last have `len / n` points (C15) -/
  seg : ∀ i < p.nClusterNodes, ∀ x ∈ pts i, x.seg < p.rate
  ids : (series p.nClusterNodes pts).map Pt.id = List.range (series p.nClusterNodes pts).length
  size : ∀ i, i + 1 < p.nClusterNodes → (pts i).length = len / p.nClusterNodes
  bound : (series p.nClusterNodes pts).length ≤ len
  nodes_len : p.nClusterNodes ≤ len
  /-- segmentation (C27) -/
  segmentation : SegNet.Reachable p pts sg
  segmented : ∀ i < p.nClusterNodes, sg.net.done i = 1
  /-- exchange of intersections (C32) -/
  inter : InterNet.Reachable p sg.store it
  interDone : ∀ i < p.nClusterNodes, it.net.done i = 1
  /-- node estimation (C33) -/
  estimate : ∀ j < p.nClusterNodes, estimateNodes clu coord p j (it.store p j) = some (nodes j)
  /-- exchange of successor nodes (C43) -/
  exchange : QNet.Reachable p.nClusterNodes (questionsOf sg) (fun a => nodesOf (nodes a)) qn
  exchanged : ∀ j < p.nClusterNodes, qn.fin j = 1
  /-- edge estimation -/
  connect : ∀ j < p.nClusterNodes, connectNodes len (nodesOf (nodes j)) (qn.nfn j) = some (es j)
  sorted : ∀ j < p.nClusterNodes, edges j = Transposition.sortEdges (es j)
  /-- transposition (C44) -/
  transposition : TransNet.Reachable p.nClusterNodes len edges tr
  transposed : ∀ j < p.nClusterNodes, tr.net.done j = 1

/-- A complete run on several nodes (`pts` are the points after self correction, C73): all stages from segmentation on, every stage in any schedule
(the rotations of degrees, weights and scores without the race of C18). `help` is the function of the scoring helpers. -/
structure DistributedBy (help : List Edge → List Nat → Counts EdgeKey → Counts NodeKey → Nat → Nat → Nat → Option (List ℚ × Bool))
    (clu : List X → Option (List Nat)) (coord : Inter → X) (p : Parameters) (len : Nat) (pts : Nat → List Pt)
    (sg : SegNet) (it : InterNet) (nodes : Nat → List Node) (qn : QNet) (es edges : Nat → List Edge) (tr : TransNet)
    (deg : RingNet (Counts NodeKey)) (wt : RingNet (Counts EdgeKey)) (m : Nat → Nat) (cnt : Nat → List Nat) (ov : OvNet)
    (job : Nat → List Edge × List Nat) (par : Nat → ParScore) (sub : RingNet (List ℚ × Bool)) : Prop extends
    Graphed clu coord p len pts sg it nodes qn es edges tr where
  /-- rotation of degrees and weights (C45, C46) -/
  degrees : RingNet.Reachable true p.nClusterNodes deg
  degreesPay : ∀ j < p.nClusterNodes, deg.pay j = nodeDegrees (edges j)
  degreesDone : ∀ j < p.nClusterNodes, deg.done j = 1
  weights : RingNet.Reachable true p.nClusterNodes wt
  weightsPay : ∀ j < p.nClusterNodes, wt.pay j = edgeWeight (tr.store j)
  weightsDone : ∀ j < p.nClusterNodes, wt.done j = 1
  /-- edges in time (C47) -/
  resultLength : ∀ i < p.nClusterNodes, EdgesInTime.resultLength p.nClusterNodes i (pts i).length = some (m i)
  count : ∀ i < p.nClusterNodes, EdgesInTime.count (Transposition.rangeStart (len / p.nClusterNodes) i) (m i)
    ((tr.store i).map Edge.toId) = some (cnt i)
  /-- overlaps (C51) -/
  overlap : OvNet.Reachable p.nClusterNodes p.queryLength tr.store cnt ov
  overlapped : ∀ i < p.nClusterNodes, ov.scored i = [job i]
  /-- the threads of every node (C49) -/
  threads : ∀ i < p.nClusterNodes, ∃ sl s0, scoreLength (job i).2 p.queryLength = some sl ∧
    ParScore.init (help (job i).1 (job i).2 (rotated wt i) (rotated deg i) p.queryLength) sl p.nThreads = some s0 ∧
    ParScore.Reachable s0 (par i) ∧ (par i).final = [sub.pay i]
  /-- rotation of the scores (C53) -/
  scores : RingNet.Reachable true p.nClusterNodes sub
  scoresDone : ∀ i < p.nClusterNodes, sub.done i = 1

/-- A complete run on several nodes with exact scores. -/
abbrev Distributed := @DistributedBy X helper

section
variable {clu : List X → Option (List Nat)} {coord : Inter → X} {p : Parameters} {len : Nat} {pts : Nat → List Pt}
    {sg : SegNet} {it : InterNet} {nodes : Nat → List Node} {qn : QNet} {es edges : Nat → List Edge} {tr : TransNet}
    {deg : RingNet (Counts NodeKey)} {wt : RingNet (Counts EdgeKey)} {m : Nat → Nat} {cnt : Nat → List Nat} {ov : OvNet}
    {job : Nat → List Edge × List Nat} {par : Nat → ParScore} {sub : RingNet (List ℚ × Bool)}

theorem Graphed.points (h : Graphed clu coord p len pts sg it nodes qn es edges tr) :
    Steps p.rate len (allSteps p pts) := by
  obtain ⟨h1, h2⟩ := numbered h.ids
  refine steps_of_points ?_ h1 (fun x hx => by have := h2 x hx; have := h.bound; omega)
  intro x hx
  obtain ⟨i, hi, hx⟩ := List.mem_flatMap.1 hx
  exact h.seg i (List.mem_range.1 hi) x hx

theorem store_spec (hp : p.WellFormed) (hpts : Steps p.rate len (allSteps p pts)) (h1 : SegNet.Reachable p pts sg)
    (h2 : ∀ i < p.nClusterNodes, sg.net.done i = 1) (h3 : InterNet.Reachable p sg.store it)
    (h4 : ∀ i < p.nClusterNodes, it.net.done i = 1)
    {j : Nat} (hj : j < p.nClusterNodes) :
    (it.store p j).Perm (((allSteps p pts).flatMap (fun t => (t.intersectionSegments p.rate).map (fun seg => (t, seg)))).filter
      (fun x => owner p x.2 = j)) ∧
    ∀ x ∈ it.store p j, x.2 < p.rate ∧ p.segmentIdToAssignment x.2 = some j := by
  have h1 := InterNet.C32_end_to_end hp h1 h2 h3 hj (h4 j hj)
  have hown : ∀ s, p.segmentIdToAssignment s = some (owner p s) := fun s => Parameters.assignment_eq hp s
  constructor
  · refine h1.trans (List.Perm.of_eq ?_)
    apply List.filter_congr
    intro x _
    rw [hown]
    simp
  · intro x hx
    obtain ⟨hm, ha⟩ := List.mem_filter.1 (h1.mem_iff.1 hx)
    simp only [decide_eq_true_eq] at ha
    refine ⟨?_, ha⟩
    obtain ⟨t, ht, hm⟩ := List.mem_flatMap.1 hm
    obtain ⟨s, hs, rfl⟩ := List.mem_map.1 hm
    obtain ⟨hf, hd, hval⟩ := hpts.valid t ht
    obtain ⟨k, _, he, _⟩ := Trans.C30_segments t hf hd hval
    rw [he] at hs
    obtain ⟨j, _, rfl⟩ := List.mem_map.1 hs
    exact Nat.mod_lt _ (by omega)

theorem keys_spec (hc : OneLabelEach clu) (hp : p.WellFormed) (hpts : Steps p.rate len (allSteps p pts))
    (h1 : SegNet.Reachable p pts sg) (h2 : ∀ i < p.nClusterNodes, sg.net.done i = 1) (h3 : InterNet.Reachable p sg.store it)
    (h4 : ∀ i < p.nClusterNodes, it.net.done i = 1)
    (h5 : ∀ j < p.nClusterNodes, estimateNodes clu coord p j (it.store p j) = some (nodes j)) {j : Nat}
    (hj : j < p.nClusterNodes) :
    ((nodes j).map NodeEst.key).Perm (((allSteps p pts).flatMap
      (fun t => (t.intersectionSegments p.rate).map (fun s => (t.src.id, s)))).filter (fun k => owner p k.2 = j)) ∧
    (nodes j).Pairwise (fun v w => v.seg ≤ w.seg) := by
  obtain ⟨g1, g2⟩ := store_spec hp hpts h1 h2 h3 h4 hj
  refine ⟨(C33_nodes hc hp hj g2 (h5 j hj)).1.trans ((g1.map _).trans (List.Perm.of_eq ?_)),
    (C33_nodes hc hp hj g2 (h5 j hj)).2.1⟩
  rw [List.filter_flatMap, List.filter_flatMap, List.map_flatMap]
  apply List.flatMap_congr
  intro t _
  rw [List.filter_map, List.filter_map, List.map_map]
  rfl

theorem Graphed.store (h : Graphed clu coord p len pts sg it nodes qn es edges tr)
    {j : Nat} (hj : j < p.nClusterNodes) :
    (it.store p j).Perm (((allSteps p pts).flatMap (fun t => (t.intersectionSegments p.rate).map (fun seg => (t, seg)))).filter
      (fun x => owner p x.2 = j)) ∧
    ∀ x ∈ it.store p j, x.2 < p.rate ∧ p.segmentIdToAssignment x.2 = some j :=
  store_spec h.wf h.points h.segmentation h.segmented h.inter h.interDone hj

theorem Graphed.run (hc : OneLabelEach clu)
    (h : Graphed clu coord p len pts sg it nodes qn es edges tr) :
    Run p pts len sg nodes qn := by
  obtain ⟨h1, h2⟩ := numbered h.ids
  have key := fun j (hj : j < p.nClusterNodes) =>
    keys_spec hc h.wf h.points h.segmentation h.segmented h.inter h.interDone h.estimate hj
  exact ⟨h.wf, h.several, h.seg, h1, fun x hx => by have := h2 x hx; have := h.bound; omega, h.segmentation, h.segmented,
    fun j hj => (key j hj).1, fun j hj => (key j hj).2, h.exchange⟩

theorem Graphed.labelled (hc : OneLabelEach clu)
    (h : Graphed clu coord p len pts sg it nodes qn es edges tr) :
    LabelledPerm clu coord p.rate (allSteps p pts) (labels p nodes) := by
  intro s hs h2
  have hj := owner_lt h.wf s
  have hloc := (h.run hc).localNodes hj
  obtain ⟨g1, g2⟩ := h.store hj
  refine ⟨(it.store p (owner p s)).filter (fun x => x.2 = s), ?_, ?_⟩
  · refine (g1.filter _).trans (List.Perm.of_eq ?_)
    rw [← crossings_eq h.points.valid, List.filter_filter]
    apply List.filter_congr
    intro x _
    by_cases hx : x.2 = s
    · simp [hx]
    · simp [hx]
  · have hlow : p.rate / p.nClusterNodes * owner p s ≤ s := by
      have : owner p s ≤ s / (p.rate / p.nClusterNodes) := Nat.min_le_left _ _
      calc p.rate / p.nClusterNodes * owner p s ≤ p.rate / p.nClusterNodes * (s / (p.rate / p.nClusterNodes)) :=
            Nat.mul_le_mul_left _ this
        _ ≤ s := Nat.mul_div_le _ _
    have := estimateNodes_labels hc h.wf hj (h.estimate _ hj) (cluster_of_localNodes hloc) hlow hs
    rw [segmentLabels_two] at this
    · exact this
    · have hp := (g1.filter (fun x => decide (x.2 = s))).length_eq
      rw [hp, List.filter_filter]
      rw [← crossings_eq h.points.valid] at h2
      refine le_trans h2 (le_of_eq ?_)
      congr 1
      apply List.filter_congr
      intro x _
      by_cases hx : x.2 = s
      · simp [hx]
      · simp [hx]

theorem Layout.congr {n q : Nat} {st m m' : Nat → Nat} {own : Nat → List Edge} {cnt cnt' : Nat → List Nat}
    (h : OvNet.Layout n q st m own cnt) (hm : ∀ i < n, m' i = m i) (hcnt : ∀ i < n, cnt' i = cnt i) :
    OvNet.Layout n q st m' own cnt' := by
  have hn := h.hn
  refine ⟨h.hn, h.hq, fun i hi => ?_, h.sorted, h.low, fun i hi => ?_, fun i hi => ?_, ?_⟩
  · rw [hm i (by omega)]; exact h.next i hi
  · rw [hm i (by omega)]; exact h.high i hi
  · rw [hm i hi, hcnt i hi]; exact h.cnt i hi
  · rw [hm _ (by omega)]; exact h.last

theorem Graphed.total (h : Graphed clu coord p len pts sg it nodes qn es edges tr) :
    (series p.nClusterNodes pts).length =
      len / p.nClusterNodes * (p.nClusterNodes - 1) + (pts (p.nClusterNodes - 1)).length := by
  have key : ∀ k, k < p.nClusterNodes → ((List.range k).flatMap pts).length = len / p.nClusterNodes * k := by
    intro k
    induction k with
    | zero => intro _; simp
    | succ k ih =>
      intro hk
      rw [List.range_succ, List.flatMap_append, List.length_append, ih (by omega)]
      simp only [List.flatMap_cons, List.flatMap_nil, List.append_nil]
      rw [h.size k (by omega), Nat.mul_succ]
  have hs := h.several
  obtain ⟨k, hk⟩ : ∃ k, p.nClusterNodes = k + 1 := ⟨p.nClusterNodes - 1, by omega⟩
  unfold series
  have := key k (by omega)
  rw [hk] at this ⊢
  rw [List.range_succ, List.flatMap_append, List.length_append, this]
  simp

/-- The edges after the transposition are those of the walk of the whole series, in the order of their ends. -/
theorem Graphed.graph (hc : OneLabelEach clu)
    (h : Graphed clu coord p len pts sg it nodes qn es edges tr)
    (hb : ∀ i, i + 1 < p.nClusterNodes → BorderOK p pts i) :
    ((List.range p.nClusterNodes).flatMap edges).Perm (pairs (walk p.rate (labels p nodes) (allSteps p pts))) ∧
    ((List.range p.nClusterNodes).flatMap tr.store).Perm (pairs (walk p.rate (labels p nodes) (allSteps p pts))) ∧
    ((List.range p.nClusterNodes).flatMap tr.store).Pairwise (fun a b => a.toId ≤ b.toId) := by
  have hs := h.several
  have h1 := C43_union_of_borders (h.run hc) hb h.exchanged h.connect
  obtain ⟨h2, h3⟩ := TransNet.C44_timeline (by omega) h.nodes_len h.transposition h.transposed
  have h4 : ((List.range p.nClusterNodes).flatMap edges).Perm ((List.range p.nClusterNodes).flatMap es) := by
    apply List.Perm.flatMap_left
    intro j hj
    rw [h.sorted j (List.mem_range.1 hj)]
    exact Transposition.sortEdges_perm _
  exact ⟨h4.trans h1, h2.trans (h4.trans h1), h3⟩

/-- The counters of edges in time exist and fit the overlaps (C47, C51). -/
theorem Graphed.layout (hc : OneLabelEach clu) (h : Graphed clu coord p len pts sg it nodes qn es edges tr)
    (hb : ∀ i, i + 1 < p.nClusterNodes → BorderOK p pts i)
    (hz : (∃ e ∈ pairs (walk p.rate (labels p nodes) (allSteps p pts)), e.toId = 0) →
      ∃ e ∈ pairs (walk p.rate (labels p nodes) (allSteps p pts)), 0 < e.toId ∧ e.toId < len / p.nClusterNodes)
    (hq : 1 ≤ p.queryLength) (hlast : p.queryLength + 1 ≤ (pts (p.nClusterNodes - 1)).length) :
    ∃ (m : Nat → Nat) (cnt : Nat → List Nat), (∀ i < p.nClusterNodes,
      EdgesInTime.resultLength p.nClusterNodes i (pts i).length = some (m i) ∧
      EdgesInTime.count (Transposition.rangeStart (len / p.nClusterNodes) i) (m i) ((tr.store i).map Edge.toId) = some (cnt i)) ∧
      OvNet.Layout p.nClusterNodes p.queryLength (Transposition.rangeStart (len / p.nClusterNodes)) m tr.store cnt := by
  have hs := h.several
  obtain ⟨g0, g1, g2⟩ := h.graph hc hb
  have hrange := fun (i : Nat) (hi : i < p.nClusterNodes) =>
    (TransNet.C44_edges_of_range (by omega) h.nodes_len h.transposition hi (h.transposed i hi)).1
  -- no edge ends at the last point
  have hend : ∀ e ∈ pairs (walk p.rate (labels p nodes) (allSteps p pts)), e.toId + 1 < (series p.nClusterNodes pts).length := by
    obtain ⟨n1, n2⟩ := numbered h.ids
    intro e he
    obtain ⟨t, ht, he⟩ := toId_walk he
    have hmem := (List.mem_filter.1 ht).1
    have := steps_lt n1 t hmem
    have := n2 _ (mem_steps hmem).2
    omega
  exact OvNet.C51_layout (q := p.queryLength) (rotated := fun i => (pts i).length) hs h.nodes_len hq
    h.transposition h.transposed h.size (by omega) (by
      intro i hi e he
      have := hend e (g0.subset (List.mem_flatMap.2 ⟨i, List.mem_range.2 hi, he⟩))
      rw [h.total] at this
      exact this) (by
      by_contra hcon
      push Not at hcon
      obtain ⟨hne, hall⟩ := hcon
      obtain ⟨e, he⟩ := List.exists_mem_of_ne_nil _ hne
      obtain ⟨f, hf, hf1, hf2⟩ := hz ⟨e, g1.subset (List.mem_flatMap.2 ⟨0, List.mem_range.2 (by omega), he⟩), hall e he⟩
      have : f ∈ tr.store 0 := by
        rw [(hrange 0 (by omega)).mem_iff, List.mem_filter]
        refine ⟨g0.mem_iff.2 hf, ?_⟩
        unfold Transposition.home
        simp only [decide_eq_true_eq]
        rw [show f.dst.fromId = f.toId from rfl, Nat.div_eq_of_lt hf2]
        omega
      have := hall f this
      omega)

/-- What the helpers of every node get: edges in the order of their ends, with known weights and degrees, those of all edges, and the positions. -/
theorem Graphed.ready (hc : OneLabelEach clu) (h : Graphed clu coord p len pts sg it nodes qn es edges tr)
    (hb : ∀ i, i + 1 < p.nClusterNodes → BorderOK p pts i)
    (hdr : RingNet.Reachable true p.nClusterNodes deg) (hdp : ∀ j < p.nClusterNodes, deg.pay j = nodeDegrees (edges j))
    (hdd : ∀ j < p.nClusterNodes, deg.done j = 1) (hwr : RingNet.Reachable true p.nClusterNodes wt)
    (hwp : ∀ j < p.nClusterNodes, wt.pay j = edgeWeight (tr.store j)) (hwd : ∀ j < p.nClusterNodes, wt.done j = 1)
    (hres : ∀ i < p.nClusterNodes, EdgesInTime.resultLength p.nClusterNodes i (pts i).length = some (m i))
    (hL : OvNet.Layout p.nClusterNodes p.queryLength (Transposition.rangeStart (len / p.nClusterNodes)) m tr.store cnt)
    (hq : 1 ≤ p.queryLength) {t : Nat} (ht : 1 ≤ t) (hsl : t ≤ len / p.nClusterNodes)
    (hlast : t + p.queryLength ≤ (pts (p.nClusterNodes - 1)).length) {i : Nat} (hi : i < p.nClusterNodes) :
    ∃ sl, sl = (if i + 1 < p.nClusterNodes then m i else m i - (p.queryLength - 1)) ∧ t ≤ sl ∧
      sl + (p.queryLength - 1) = OvNet.extLen p.nClusterNodes p.queryLength m i ∧
      scoreLength (EdgesInTime.spec (Transposition.rangeStart (len / p.nClusterNodes) i)
        (OvNet.extLen p.nClusterNodes p.queryLength m i) ((OvNet.extEdges p.nClusterNodes p.queryLength
        (Transposition.rangeStart (len / p.nClusterNodes)) tr.store i).map Edge.toId)) p.queryLength = some sl ∧
      (OvNet.extEdges p.nClusterNodes p.queryLength (Transposition.rangeStart (len / p.nClusterNodes)) tr.store i).Pairwise
        (fun a b => a.toId ≤ b.toId) ∧
      Known (rotated wt i) (rotated deg i) (OvNet.extEdges p.nClusterNodes p.queryLength (Transposition.rangeStart (len / p.nClusterNodes)) tr.store i) ∧
      (rotated wt i).val = weightOf ((List.range p.nClusterNodes).flatMap tr.store) ∧
      (rotated deg i).val = degreeOf ((List.range p.nClusterNodes).flatMap tr.store) := by
  have hs := h.several
  obtain ⟨g0, g1, g2⟩ := h.graph hc hb
  have hmval : ∀ i < p.nClusterNodes, m i + (if i = p.nClusterNodes - 1 then 1 else 0) = (pts i).length := by
    intro i hi
    have := hres i hi
    unfold EdgesInTime.resultLength checkedSub at this
    by_cases hc : (if i = p.nClusterNodes - 1 then 1 else 0) ≤ (pts i).length
    · rw [if_pos hc] at this
      have := Option.some.inj this
      omega
    · rw [if_neg hc] at this
      cases this
  have hW : ∀ i < p.nClusterNodes, (rotated wt i).val = weightOf ((List.range p.nClusterNodes).flatMap tr.store) := by
    intro i hi
    funext x
    exact (C45_global hs hwr hwp hi (hwd i hi) x).1
  have hone : HeldOnce p.nClusterNodes edges := by
    have := C46_edges_held_once (h.run hc) h.exchanged h.connect
    intro i hi j hj e he f hf
    rw [h.sorted i hi] at he
    rw [h.sorted j hj] at hf
    exact this i hi j hj e ((Transposition.sortEdges_perm _).subset he) f ((Transposition.sortEdges_perm _).subset hf)
  have hD : ∀ i < p.nClusterNodes, (rotated deg i).val = degreeOf ((List.range p.nClusterNodes).flatMap tr.store) := by
    intro i hi
    rw [degreeOf_perm (g1.trans g0.symm)]
    funext x
    exact (C46_global hs hdr hdp hone hi (hdd i hi) x).1
  have hsub : ∀ i < p.nClusterNodes, ∀ e ∈ OvNet.extEdges p.nClusterNodes p.queryLength
      (Transposition.rangeStart (len / p.nClusterNodes)) tr.store i, e ∈ (List.range p.nClusterNodes).flatMap tr.store := by
    intro i hi e he
    unfold OvNet.extEdges at he
    split at he
    · obtain ⟨j, hj, he⟩ := List.mem_flatMap.1 (List.mem_filter.1 he).1
      refine List.mem_flatMap.2 ⟨j, ?_, he⟩
      rw [List.mem_range'_1] at hj
      rw [List.mem_range]
      omega
    · exact List.mem_flatMap.2 ⟨i, List.mem_range.2 hi, he⟩
  have hmi := hmval i hi
  obtain ⟨sl, hsl', hslb1, hslb2⟩ : ∃ sl, sl = (if i + 1 < p.nClusterNodes then m i else m i - (p.queryLength - 1)) ∧
      t ≤ sl ∧ sl + (p.queryLength - 1) = OvNet.extLen p.nClusterNodes p.queryLength m i := by
    refine ⟨_, rfl, ?_⟩
    unfold OvNet.extLen
    by_cases hc : i + 1 < p.nClusterNodes
    · rw [if_pos hc, if_pos hc]
      rw [if_neg (by omega), h.size i hc] at hmi
      omega
    · rw [if_neg hc, if_neg hc]
      obtain rfl : i = p.nClusterNodes - 1 := by omega
      rw [if_pos rfl] at hmi
      omega
  have hsorted : (OvNet.extEdges p.nClusterNodes p.queryLength (Transposition.rangeStart (len / p.nClusterNodes)) tr.store
      i).Pairwise (fun a b => a.toId ≤ b.toId) := (OvNet.ext_sorted hL (p.nClusterNodes - 1 - i) i (by omega)).1
  have hk : Known (rotated wt i) (rotated deg i) (OvNet.extEdges p.nClusterNodes p.queryLength
      (Transposition.rangeStart (len / p.nClusterNodes)) tr.store i) := fun e he =>
    C48_known hs (g1.trans g0.symm) hwr hwp hdr hdp hone hi (hwd i hi) (hdd i hi) e (hsub i hi e he)
  refine ⟨sl, hsl', hslb1, hslb2, ?_, hsorted, hk, hW i hi, hD i hi⟩
  unfold scoreLength checkedSub
  rw [if_pos hq]
  simp only [EdgesInTime.spec, List.length_map, List.length_range, Option.bind_eq_bind, Option.bind_some]
  rw [if_pos (by omega)]
  congr 1
  omega

/-- The threads of every node start, and what they deliver (C49). -/
theorem Graphed.scored (hc : OneLabelEach clu) (h : Graphed clu coord p len pts sg it nodes qn es edges tr)
    (hb : ∀ i, i + 1 < p.nClusterNodes → BorderOK p pts i)
    (hdr : RingNet.Reachable true p.nClusterNodes deg) (hdp : ∀ j < p.nClusterNodes, deg.pay j = nodeDegrees (edges j))
    (hdd : ∀ j < p.nClusterNodes, deg.done j = 1) (hwr : RingNet.Reachable true p.nClusterNodes wt)
    (hwp : ∀ j < p.nClusterNodes, wt.pay j = edgeWeight (tr.store j)) (hwd : ∀ j < p.nClusterNodes, wt.done j = 1)
    (hres : ∀ i < p.nClusterNodes, EdgesInTime.resultLength p.nClusterNodes i (pts i).length = some (m i))
    (hL : OvNet.Layout p.nClusterNodes p.queryLength (Transposition.rangeStart (len / p.nClusterNodes)) m tr.store cnt)
    (hq : 1 ≤ p.queryLength) (ht : 1 ≤ p.nThreads) (hsl : p.nThreads ≤ len / p.nClusterNodes)
    (hlast : p.nThreads + p.queryLength ≤ (pts (p.nClusterNodes - 1)).length) {i : Nat} (hi : i < p.nClusterNodes) :
    ∃ sl s0, sl = (if i + 1 < p.nClusterNodes then m i else m i - (p.queryLength - 1)) ∧
      scoreLength (EdgesInTime.spec (Transposition.rangeStart (len / p.nClusterNodes) i)
        (OvNet.extLen p.nClusterNodes p.queryLength m i) ((OvNet.extEdges p.nClusterNodes p.queryLength
        (Transposition.rangeStart (len / p.nClusterNodes)) tr.store i).map Edge.toId)) p.queryLength = some sl ∧
      ParScore.init (helper (OvNet.extEdges p.nClusterNodes p.queryLength (Transposition.rangeStart (len / p.nClusterNodes))
        tr.store i) (EdgesInTime.spec (Transposition.rangeStart (len / p.nClusterNodes) i)
        (OvNet.extLen p.nClusterNodes p.queryLength m i) ((OvNet.extEdges p.nClusterNodes p.queryLength
        (Transposition.rangeStart (len / p.nClusterNodes)) tr.store i).map Edge.toId)) (rotated wt i) (rotated deg i)
        p.queryLength) sl p.nThreads = some s0 ∧
      ∀ s, ParScore.Reachable s0 s → (s.final = [] ∨ s.final = [ParScore.answer (SubScores.rawAt
          (weightOf ((List.range p.nClusterNodes).flatMap tr.store)) (degreeOf ((List.range p.nClusterNodes).flatMap tr.store))
          (OvNet.extEdges p.nClusterNodes p.queryLength (Transposition.rangeStart (len / p.nClusterNodes)) tr.store i)
          (Transposition.rangeStart (len / p.nClusterNodes) i) p.queryLength) 0 sl]) ∧
        (s.pool = [] → s.final ≠ []) ∧
        (∀ pre m post, s.pool = pre ++ m :: post → ∃ u, ParScore.handle { s with pool := pre ++ post } m = some u ∧
          u.pool.length + (p.nThreads - u.proto.nReceived) < s.pool.length + (p.nThreads - s.proto.nReceived)) := by
  obtain ⟨sl, hsl', hslb1, hslb2, h4, hsorted, hk, hW, hD⟩ := h.ready hc hb hdr hdp hdd hwr hwp hwd hres hL hq ht hsl hlast hi
  obtain ⟨s0, h5, h6⟩ := ParScore.C49_scores hsorted hk (start := Transposition.rangeStart (len / p.nClusterNodes) i)
    (length := OvNet.extLen p.nClusterNodes p.queryLength m i) (q := p.queryLength) (sl := sl) hq hslb2.le ht hslb1
  refine ⟨sl, s0, hsl', h4, h5, fun s hr => ?_⟩
  obtain ⟨k1, k2, k3⟩ := h6 s hr
  rw [hW, hD] at k1
  exact ⟨k1, fun hp hf => (by rw [k2 hp] at hf; cases hf), k3⟩

/-- With edges in the order of their ends, the weights and degrees of all edges and windows which are those of all edges, the helpers answer
with the score `F` of the windows. -/
def Helps (help : List Edge → List Nat → Counts EdgeKey → Counts NodeKey → Nat → Nat → Nat → Option (List ℚ × Bool))
    (F : List Edge → Option ℚ) (all : List Edge) (q : Nat) : Prop :=
  ∀ (edges : List Edge) (w : Counts EdgeKey) (d : Counts NodeKey) (start length : Nat), edges.Pairwise (fun a b => a.toId ≤ b.toId) →
    Known w d edges → w.val = weightOf all → d.val = degreeOf all →
    (∀ k, k + (q - 1) < length → windowSpec edges start q k = windowSpec all 0 q (start + k)) →
    ∀ a b, a + b + (q - 1) ≤ length → help edges (EdgesInTime.spec start length (edges.map Edge.toId)) w d q a b =
      some (ParScore.answer (fun k => F (windowSpec edges start q k)) a b)

theorem helper_helps {all : List Edge} {q : Nat} (hq : 1 ≤ q) : Helps helper (rawSpec (weightOf all) (degreeOf all)) all q := by
  intro edges w d start length hs hk hw hd _ a b hab
  rw [C48_scores hs hk hq hab, hw, hd]
  unfold ParScore.answer
  congr 2
  apply decide_eq_decide.2
  simp only [rawSpec, ite_eq_left_iff, reduceCtorEq, imp_false, not_not]

/-- What the helpers of every node compute, for every score of a window. -/
theorem Graphed.runsBy {help : List Edge → List Nat → Counts EdgeKey → Counts NodeKey → Nat → Nat → Nat → Option (List ℚ × Bool)}
    {F : List Edge → Option ℚ} (hc : OneLabelEach clu) (h : Graphed clu coord p len pts sg it nodes qn es edges tr)
    (hb : ∀ i, i + 1 < p.nClusterNodes → BorderOK p pts i)
    (hdr : RingNet.Reachable true p.nClusterNodes deg) (hdp : ∀ j < p.nClusterNodes, deg.pay j = nodeDegrees (edges j))
    (hdd : ∀ j < p.nClusterNodes, deg.done j = 1) (hwr : RingNet.Reachable true p.nClusterNodes wt)
    (hwp : ∀ j < p.nClusterNodes, wt.pay j = edgeWeight (tr.store j)) (hwd : ∀ j < p.nClusterNodes, wt.done j = 1)
    (hres : ∀ i < p.nClusterNodes, EdgesInTime.resultLength p.nClusterNodes i (pts i).length = some (m i))
    (hL : OvNet.Layout p.nClusterNodes p.queryLength (Transposition.rangeStart (len / p.nClusterNodes)) m tr.store cnt)
    (hov : ∀ i, i + 1 < p.nClusterNodes → ∃ e ∈ (List.range p.nClusterNodes).flatMap tr.store,
      e.toId = Transposition.rangeStart (len / p.nClusterNodes) (i + 1) + (p.queryLength - 1))
    (hh : Helps help F ((List.range p.nClusterNodes).flatMap tr.store) p.queryLength)
    (hq : 1 ≤ p.queryLength) {t : Nat} (ht : 1 ≤ t) (hsl : t ≤ len / p.nClusterNodes)
    (hlast : t + p.queryLength ≤ (pts (p.nClusterNodes - 1)).length) {i : Nat} (hi : i < p.nClusterNodes) :
    ∃ sl, sl = (if i + 1 < p.nClusterNodes then m i else m i - (p.queryLength - 1)) ∧ t ≤ sl ∧
      scoreLength (EdgesInTime.spec (Transposition.rangeStart (len / p.nClusterNodes) i)
        (OvNet.extLen p.nClusterNodes p.queryLength m i) ((OvNet.extEdges p.nClusterNodes p.queryLength
        (Transposition.rangeStart (len / p.nClusterNodes)) tr.store i).map Edge.toId)) p.queryLength = some sl ∧
      ∀ a b, a + b ≤ sl → help (OvNet.extEdges p.nClusterNodes p.queryLength (Transposition.rangeStart (len / p.nClusterNodes))
        tr.store i) (EdgesInTime.spec (Transposition.rangeStart (len / p.nClusterNodes) i)
        (OvNet.extLen p.nClusterNodes p.queryLength m i) ((OvNet.extEdges p.nClusterNodes p.queryLength
        (Transposition.rangeStart (len / p.nClusterNodes)) tr.store i).map Edge.toId)) (rotated wt i) (rotated deg i)
        p.queryLength a b = some (ParScore.answer (fun k => F (windowSpec (OvNet.extEdges p.nClusterNodes p.queryLength
          (Transposition.rangeStart (len / p.nClusterNodes)) tr.store i) (Transposition.rangeStart (len / p.nClusterNodes) i) p.queryLength k)) a b) := by
  obtain ⟨sl, hsl', hslb1, hslb2, h4, hsorted, hk, hW, hD⟩ := h.ready hc hb hdr hdp hdd hwr hwp hwd hres hL hq ht hsl hlast hi
  refine ⟨sl, hsl', hslb1, h4, fun a b hab => hh _ _ _ _ (OvNet.extLen p.nClusterNodes p.queryLength m i) hsorted hk hW hD (fun k hkl => ?_) a b (by omega)⟩
  refine OvNet.C51_complete hL hov hi (fun hj1 => ?_)
  unfold OvNet.extLen at hkl
  rw [if_pos hj1] at hkl
  omega

/-- The threads of every node start, and what they deliver (C49), for every score of a window. -/
theorem Graphed.scoredBy {help : List Edge → List Nat → Counts EdgeKey → Counts NodeKey → Nat → Nat → Nat → Option (List ℚ × Bool)}
    {F : List Edge → Option ℚ} (hF : ∀ win, F win = none ↔ win = []) (hc : OneLabelEach clu) (h : Graphed clu coord p len pts sg it nodes qn es edges tr)
    (hb : ∀ i, i + 1 < p.nClusterNodes → BorderOK p pts i)
    (hdr : RingNet.Reachable true p.nClusterNodes deg) (hdp : ∀ j < p.nClusterNodes, deg.pay j = nodeDegrees (edges j))
    (hdd : ∀ j < p.nClusterNodes, deg.done j = 1) (hwr : RingNet.Reachable true p.nClusterNodes wt)
    (hwp : ∀ j < p.nClusterNodes, wt.pay j = edgeWeight (tr.store j)) (hwd : ∀ j < p.nClusterNodes, wt.done j = 1)
    (hres : ∀ i < p.nClusterNodes, EdgesInTime.resultLength p.nClusterNodes i (pts i).length = some (m i))
    (hL : OvNet.Layout p.nClusterNodes p.queryLength (Transposition.rangeStart (len / p.nClusterNodes)) m tr.store cnt)
    (hov : ∀ i, i + 1 < p.nClusterNodes → ∃ e ∈ (List.range p.nClusterNodes).flatMap tr.store,
      e.toId = Transposition.rangeStart (len / p.nClusterNodes) (i + 1) + (p.queryLength - 1))
    (hh : Helps help F ((List.range p.nClusterNodes).flatMap tr.store) p.queryLength)
    (hq : 1 ≤ p.queryLength) (ht : 1 ≤ p.nThreads) (hsl : p.nThreads ≤ len / p.nClusterNodes)
    (hlast : p.nThreads + p.queryLength ≤ (pts (p.nClusterNodes - 1)).length) {i : Nat} (hi : i < p.nClusterNodes) :
    ∃ sl s0, sl = (if i + 1 < p.nClusterNodes then m i else m i - (p.queryLength - 1)) ∧
      scoreLength (EdgesInTime.spec (Transposition.rangeStart (len / p.nClusterNodes) i)
        (OvNet.extLen p.nClusterNodes p.queryLength m i) ((OvNet.extEdges p.nClusterNodes p.queryLength
        (Transposition.rangeStart (len / p.nClusterNodes)) tr.store i).map Edge.toId)) p.queryLength = some sl ∧
      ParScore.init (help (OvNet.extEdges p.nClusterNodes p.queryLength (Transposition.rangeStart (len / p.nClusterNodes))
        tr.store i) (EdgesInTime.spec (Transposition.rangeStart (len / p.nClusterNodes) i)
        (OvNet.extLen p.nClusterNodes p.queryLength m i) ((OvNet.extEdges p.nClusterNodes p.queryLength
        (Transposition.rangeStart (len / p.nClusterNodes)) tr.store i).map Edge.toId)) (rotated wt i) (rotated deg i)
        p.queryLength) sl p.nThreads = some s0 ∧
      ∀ s, ParScore.Reachable s0 s → (s.final = [] ∨ s.final = [ParScore.answer (fun k => F (windowSpec
          (OvNet.extEdges p.nClusterNodes p.queryLength (Transposition.rangeStart (len / p.nClusterNodes)) tr.store i)
          (Transposition.rangeStart (len / p.nClusterNodes) i) p.queryLength k)) 0 sl]) ∧
        (s.pool = [] → s.final ≠ []) ∧
        (∀ pre m post, s.pool = pre ++ m :: post → ∃ u, ParScore.handle { s with pool := pre ++ post } m = some u ∧
          u.pool.length + (p.nThreads - u.proto.nReceived) < s.pool.length + (p.nThreads - s.proto.nReceived)) := by
  obtain ⟨sl, hsl', hslb1, h4, hrun⟩ := h.runsBy (F := F) hc hb hdr hdp hdd hwr hwp hwd hres hL hov hh hq ht hsl hlast hi
  have hnone : ∀ k, F (windowSpec (OvNet.extEdges p.nClusterNodes p.queryLength (Transposition.rangeStart (len / p.nClusterNodes)) tr.store i)
      (Transposition.rangeStart (len / p.nClusterNodes) i) p.queryLength k) = none ↔
      ∀ e ∈ OvNet.extEdges p.nClusterNodes p.queryLength (Transposition.rangeStart (len / p.nClusterNodes)) tr.store i,
        e.toId ≤ Transposition.rangeStart (len / p.nClusterNodes) i + k := by
    intro k
    rw [hF, ParScore.windowSpec_eq_nil]
  obtain ⟨s0, h5, h6⟩ := ParScore.C49_parallel (raw := fun k => F (windowSpec (OvNet.extEdges p.nClusterNodes p.queryLength
      (Transposition.rangeStart (len / p.nClusterNodes)) tr.store i) (Transposition.rangeStart (len / p.nClusterNodes) i) p.queryLength k))
    ht hslb1 hrun (by
      intro i _ _ hr j hj _ hz
      rw [hnone] at hr
      exact absurd (((hnone j).2 (fun e he => by have := hr e he; omega)).symm.trans hz) (by simp))
  refine ⟨sl, s0, hsl', h4, h5, fun s hr => ?_⟩
  obtain ⟨k1, k2, k3⟩ := h6 s hr
  exact ⟨k1, fun hp hf => (by rw [k2 hp] at hf; cases hf), k3⟩

/-- What the nodes put together in a finished run, for every score `F` of a window which the helpers compute. -/
theorem DistributedBy.parts {help : List Edge → List Nat → Counts EdgeKey → Counts NodeKey → Nat → Nat → Nat → Option (List ℚ × Bool)}
    {F : List Edge → Option ℚ} (hF : ∀ win, F win = none ↔ win = []) (hc : OneLabelEach clu)
    (h : DistributedBy help clu coord p len pts sg it nodes qn es edges tr deg wt m cnt ov job par sub)
    (hb : ∀ i, i + 1 < p.nClusterNodes → BorderOK p pts i)
    (hov : ∀ i, i + 1 < p.nClusterNodes → ∃ e ∈ pairs (walk p.rate (labels p nodes) (allSteps p pts)),
      e.toId = len / p.nClusterNodes * (i + 1) + (p.queryLength - 1))
    (hz : (∃ e ∈ pairs (walk p.rate (labels p nodes) (allSteps p pts)), e.toId = 0) →
      ∃ e ∈ pairs (walk p.rate (labels p nodes) (allSteps p pts)), 0 < e.toId ∧ e.toId < len / p.nClusterNodes)
    (hh : Helps help F ((List.range p.nClusterNodes).flatMap tr.store) p.queryLength)
    (hq : 1 ≤ p.queryLength) (ht : 1 ≤ p.nThreads) (hsl : p.nThreads ≤ len / p.nClusterNodes)
    (hlast : p.nThreads + p.queryLength ≤ (pts (p.nClusterNodes - 1)).length) {i : Nat} (hi : i < p.nClusterNodes) :
    ∃ l, SubScores.collect p.nClusterNodes (SubScores.subscores sub i) = some l ∧ l.flatten =
      carrySpec 0 ((List.range ((series p.nClusterNodes pts).length - p.queryLength)).map
        (fun k => F (windowSpec ((List.range p.nClusterNodes).flatMap tr.store) 0 p.queryLength k))) := by
  have hs := h.several
  have hpos : 1 ≤ len / p.nClusterNodes := le_trans ht hsl
  obtain ⟨g0, g1, g2⟩ := h.graph hc hb
  obtain ⟨m', cnt', hm, hL⟩ := h.toGraphed.layout hc hb hz hq (by omega)
  have hm' : ∀ i < p.nClusterNodes, m i = m' i := fun i hi => Option.some.inj ((h.resultLength i hi).symm.trans (hm i hi).1)
  have hcnt : ∀ i < p.nClusterNodes, cnt i = cnt' i := by
    intro i hi
    have h1 := h.count i hi
    rw [hm' i hi] at h1
    exact Option.some.inj (h1.symm.trans (hm i hi).2)
  have hL := Layout.congr hL hm' hcnt
  have hmval : ∀ i < p.nClusterNodes, m i + (if i = p.nClusterNodes - 1 then 1 else 0) = (pts i).length := by
    intro i hi
    have := h.resultLength i hi
    unfold EdgesInTime.resultLength checkedSub at this
    by_cases hc : (if i = p.nClusterNodes - 1 then 1 else 0) ≤ (pts i).length
    · rw [if_pos hc] at this
      have := Option.some.inj this
      omega
    · rw [if_neg hc] at this
      cases this
  have hov' : ∀ i, i + 1 < p.nClusterNodes → ∃ e ∈ (List.range p.nClusterNodes).flatMap tr.store,
      e.toId = Transposition.rangeStart (len / p.nClusterNodes) (i + 1) + (p.queryLength - 1) := by
    intro i hi
    obtain ⟨e, he, h1⟩ := hov i hi
    exact ⟨e, g1.mem_iff.2 he, h1⟩
  have hpay : ∀ i < p.nClusterNodes, sub.pay i = ParScore.answer (fun k => F (windowSpec
      (OvNet.extEdges p.nClusterNodes p.queryLength (Transposition.rangeStart (len / p.nClusterNodes)) tr.store i)
      (Transposition.rangeStart (len / p.nClusterNodes) i) p.queryLength k)) 0
      (if i + 1 < p.nClusterNodes then m i else m i - (p.queryLength - 1)) := by
    intro i hi
    have hjob : job i = (OvNet.extEdges p.nClusterNodes p.queryLength (Transposition.rangeStart (len / p.nClusterNodes)) tr.store
        i, EdgesInTime.spec (Transposition.rangeStart (len / p.nClusterNodes) i) (OvNet.extLen p.nClusterNodes p.queryLength m i)
        ((OvNet.extEdges p.nClusterNodes p.queryLength (Transposition.rangeStart (len / p.nClusterNodes)) tr.store i).map
          Edge.toId)) := by
      rcases OvNet.C51_scored hL h.overlap hi with h1 | h1
      · rw [h.overlapped i hi] at h1; cases h1
      · rw [h.overlapped i hi] at h1
        exact List.singleton_inj.1 h1
    obtain ⟨sl, s0, h1, h2, h3, h4⟩ := h.threads i hi
    rw [hjob] at h1 h2
    obtain ⟨sl', s0', hsl', h1', h2', h6⟩ := h.toGraphed.scoredBy hF hc hb h.degrees h.degreesPay h.degreesDone h.weights h.weightsPay
      h.weightsDone h.resultLength hL hov' hh hq ht hsl hlast hi
    obtain rfl : sl = sl' := Option.some.inj (h1.symm.trans h1')
    obtain rfl : s0 = s0' := Option.some.inj (h2.symm.trans h2')
    rcases (h6 _ h3).1 with h7 | h7
    · rw [h4] at h7; cases h7
    · rw [h4, hsl'] at h7
      exact List.singleton_inj.1 h7
  obtain ⟨l, hl1, hl2⟩ := SubScores.collect_equals_local hL (by simp [Transposition.rangeStart]) hF hov' (by
    obtain ⟨e, he, h1⟩ := hov' 0 (by omega)
    refine ⟨e, ?_, ?_⟩
    · unfold OvNet.extEdges OvNet.tailEdges
      rw [if_pos (by omega), List.mem_filter, Nat.sub_zero, ← List.range_eq_range']
      exact ⟨he, by simpa using h1.le⟩
    · rw [h1]
      unfold Transposition.rangeStart
      omega) h.scores hpay hi (h.scoresDone i hi)
  refine ⟨l, hl1, hl2.trans ?_⟩
  have hlen : Transposition.rangeStart (len / p.nClusterNodes) (p.nClusterNodes - 1) + (m (p.nClusterNodes - 1) + 1) -
      p.queryLength = (series p.nClusterNodes pts).length - p.queryLength := by
    have := hmval (p.nClusterNodes - 1) (by omega)
    rw [if_pos rfl] at this
    rw [h.total, this]
    rfl
  rw [hlen]
  unfold ParScore.answer
  rw [← List.range_eq_range']

/-- C62: a finished run on several nodes, in any schedule of every stage (rotations without the race of C18), with harmless
borders (C43), an edge which ends at the last point of every overlap (C51), not only edges to point 0 at the first node (C47)
and at least one position per thread on every node (C49), delivers at every node the normalised scores of the edges of
the walk of the whole series; of the edges which end at the same point the order is the one of the transposition (C44). -/
theorem C62_distributed (hc : OneLabelEach clu)
    (h : Distributed clu coord p len pts sg it nodes qn es edges tr deg wt m cnt ov job par sub)
    (hb : ∀ i, i + 1 < p.nClusterNodes → BorderOK p pts i)
    (hov : ∀ i, i + 1 < p.nClusterNodes → ∃ e ∈ pairs (walk p.rate (labels p nodes) (allSteps p pts)),
      e.toId = len / p.nClusterNodes * (i + 1) + (p.queryLength - 1))
    (hz : (∃ e ∈ pairs (walk p.rate (labels p nodes) (allSteps p pts)), e.toId = 0) →
      ∃ e ∈ pairs (walk p.rate (labels p nodes) (allSteps p pts)), 0 < e.toId ∧ e.toId < len / p.nClusterNodes)
    (hq : 1 ≤ p.queryLength) (ht : 1 ≤ p.nThreads) (hsl : p.nThreads ≤ len / p.nClusterNodes)
    (hlast : p.nThreads + p.queryLength ≤ (pts (p.nClusterNodes - 1)).length) {i : Nat} (hi : i < p.nClusterNodes) :
    SubScores.finalize p.nClusterNodes (SubScores.subscores sub i) = normalize
      (vector ((List.range p.nClusterNodes).flatMap tr.store) p.queryLength
        ((series p.nClusterNodes pts).length - p.queryLength)) := by
  obtain ⟨l, h1, h2⟩ := DistributedBy.parts (F := rawSpec (weightOf ((List.range p.nClusterNodes).flatMap tr.store))
    (degreeOf ((List.range p.nClusterNodes).flatMap tr.store))) (fun win => by unfold rawSpec; split <;> simp_all) hc h hb hov hz
    (helper_helps hq) hq ht hsl hlast hi
  unfold SubScores.finalize
  rw [h1]
  simp only [Option.bind_eq_bind, Option.bind_some]
  rw [h2]
  rfl

/-- What the run on one node with the same points delivers, in every schedule, in terms of the clusters of the distributed run. -/
theorem Graphed.local {P : X → Prop} (hf : OrderFree P clu) (hP : ∀ x, P (coord x)) (hc : OneLabelEach clu)
    (h : Graphed clu coord p len pts sg it nodes qn es edges tr)
    (hq : 1 ≤ p.queryLength) (ht : 1 ≤ p.nThreads)
    (hlast : p.nThreads + p.queryLength ≤ (pts (p.nClusterNodes - 1)).length)
    (h40 : ∀ t ∈ (allSteps p pts).head?, ¬ (t.src.seg + 2 = p.rate ∧ t.dst.seg < t.src.seg)) (mirror : Pt → Pt) :
    ∃ s0, localRun clu coord mirror { p with nClusterNodes := 1, selfCorrection := false } len (series p.nClusterNodes pts) = some s0 ∧
      ∀ s, ParScore.Reachable s0 s → s.pool = [] →
        delivered s = [normalize (vector (pairs (walk p.rate (labels p nodes) (allSteps p pts))) p.queryLength
          ((series p.nClusterNodes pts).length - p.queryLength))] := by
  have hs := h.several
  have hlab := h.labelled hc
  have heff : effective { p with nClusterNodes := 1, selfCorrection := false } id (series p.nClusterNodes pts) = series p.nClusterNodes pts := by
    unfold effective
    rw [if_neg]
    simp
  have heff' : effective { p with nClusterNodes := 1, selfCorrection := false } mirror (series p.nClusterNodes pts) = series p.nClusterNodes pts := by
    unfold effective
    rw [if_neg]
    simp
  have hwf : ({ p with nClusterNodes := 1, selfCorrection := false } : Parameters).WellFormed := by
    have := h.wf
    unfold Parameters.WellFormed at this ⊢
    dsimp only
    omega
  have htot := h.total
  obtain ⟨lab, h1, s0, h2, h3⟩ := C64_run hc coord (mirror := id) (p := { p with nClusterNodes := 1, selfCorrection := false }) hwf rfl (len := len)
    (pts := series p.nClusterNodes pts) (fun a => ⟨rfl, fun h => h⟩) h.ids (by
      intro x hx
      obtain ⟨j, hj, hx⟩ := List.mem_flatMap.1 hx
      exact h.seg j (List.mem_range.1 hj) x hx) h.bound hq ht (by dsimp only; omega) (by
      rw [heff]
      intro s hs h2 hnone
      obtain ⟨xs, hx, hcx⟩ := hlab s hs h2
      have := (hf (xs.map coord) ((crossings p.rate (allSteps p pts) s).reverse.map coord) (by
        intro x hx
        obtain ⟨y, _, rfl⟩ := List.mem_map.1 hx
        exact hP y) (by rw [List.length_map, hx.length_eq]; exact h2)
        ((hx.trans (List.reverse_perm _).symm).map coord)).1.2 hnone
      rw [hcx] at this
      cases this) (by rw [heff]; exact h40)
  rw [heff] at h1 h3
  have hloc : localRun clu coord mirror { p with nClusterNodes := 1, selfCorrection := false } len (series p.nClusterNodes pts) =
      localRun clu coord id { p with nClusterNodes := 1, selfCorrection := false } len (series p.nClusterNodes pts) := by
    unfold localRun localEdges segment
    simp
  refine ⟨s0, hloc.trans h2, fun s hr hp => ?_⟩
  rw [((h3 s hr).2.1) hp, ← vector_sameGroups (sameGroups_of_orderFree hf hP h.points.valid hlab h1.perm)]

/-- C62: if in addition the clustering does not depend on the order of its input, and of the edges which end at the same point
the transposition puts the same one first as the walk, the vector is the one which a run on one node with the same points
delivers in every schedule. (The run on one node may crash as in C40, the distributed one does not.) -/
theorem C62_equal {P : X → Prop} (hf : OrderFree P clu) (hP : ∀ x, P (coord x)) (hc : OneLabelEach clu)
    (h : Distributed clu coord p len pts sg it nodes qn es edges tr deg wt m cnt ov job par sub)
    (hb : ∀ i, i + 1 < p.nClusterNodes → BorderOK p pts i)
    (hov : ∀ i, i + 1 < p.nClusterNodes → ∃ e ∈ pairs (walk p.rate (labels p nodes) (allSteps p pts)),
      e.toId = len / p.nClusterNodes * (i + 1) + (p.queryLength - 1))
    (hz : (∃ e ∈ pairs (walk p.rate (labels p nodes) (allSteps p pts)), e.toId = 0) →
      ∃ e ∈ pairs (walk p.rate (labels p nodes) (allSteps p pts)), 0 < e.toId ∧ e.toId < len / p.nClusterNodes)
    (hq : 1 ≤ p.queryLength) (ht : 1 ≤ p.nThreads) (hsl : p.nThreads ≤ len / p.nClusterNodes)
    (hlast : p.nThreads + p.queryLength ≤ (pts (p.nClusterNodes - 1)).length)
    (hfirst : SameFirst p.queryLength ((List.range p.nClusterNodes).flatMap tr.store)
      (pairs (walk p.rate (labels p nodes) (allSteps p pts))))
    (h40 : ∀ t ∈ (allSteps p pts).head?, ¬ (t.src.seg + 2 = p.rate ∧ t.dst.seg < t.src.seg)) {i : Nat} (hi : i < p.nClusterNodes)
    (mirror : Pt → Pt) :
    ∃ s0, localRun clu coord mirror { p with nClusterNodes := 1, selfCorrection := false } len (series p.nClusterNodes pts) = some s0 ∧
      ∀ s, ParScore.Reachable s0 s → s.pool = [] →
        delivered s = [SubScores.finalize p.nClusterNodes (SubScores.subscores sub i)] := by
  obtain ⟨-, g1, g2⟩ := h.graph hc hb
  obtain ⟨s0, h1, h2⟩ := h.toGraphed.local hf hP hc hq ht hlast h40 mirror
  refine ⟨s0, h1, fun s hr hp => ?_⟩
  rw [h2 s hr hp, C62_distributed hc h hb hov hz hq ht hsl hlast hi,
    vector_congr g1 g2 (pairs_sorted (walk_sorted h.points.sorted)) hq hfirst]

end

end Pipeline
end S2G
