import Verif.Model.FloatCluster
import Verif.Props.Rare
import Verif.Props.FirstEdge

/-!
# C94: in single precision a cluster delivers the same numbers as one node

In a cluster the edges of a window can be in another order than on one node (transposition, C44), and sums in single precision depend on the
order of the summands (C83). As long as the sums over the windows stay in the range in which single precision is exact, the score of a window
is the correctly rounded mean in both cases, hence all nodes of the cluster deliver the same vector as the run on one node, digit for digit.
-/

namespace S2G
namespace FloatRun
namespace Score

open Edges Weights Pipeline NodeEst SegNet
variable {X : Type}

/-! ### Windows in another order and with other names of the clusters -/

theorem total_perm {w : EdgeKey → Nat} {d : NodeKey → Nat} {a b : List Edge} (h : a.Perm b) : total w d a = total w d b :=
  (h.map _).sum_eq

theorem raw_perm {w : EdgeKey → Nat} {d : NodeKey → Nat} {a b : List Edge} (h : a.Perm b) : raw w d a = raw w d b := by
  unfold raw mean
  rw [total_perm h, h.length_eq]
  by_cases ha : a = []
  · subst ha
    rw [List.nil_perm.1 h]
  · rw [if_neg ha, if_neg (fun hb => ha (by subst hb; exact List.perm_nil.1 h))]

theorem small_perm {w : EdgeKey → Nat} {d : NodeKey → Nat} {a b : List Edge} (h : a.Perm b) (hs : Small w d a) : Small w d b :=
  ⟨by rw [← total_perm h]; exact hs.total, by rw [← h.length_eq]; exact hs.length⟩

/-- The scores after a reordering of edges which end at the same point. -/
theorem vector_congr {E E' : List Edge} (hp : E.Perm E') (hs : E.Pairwise (fun a b => a.toId ≤ b.toId))
    (hs' : E'.Pairwise (fun a b => a.toId ≤ b.toId)) {q : Nat} (hq : 1 ≤ q) (hf : SameFirst q E E') (len : Nat) :
    vector E q len = vector E' q len := by
  unfold vector
  congr 1
  apply List.map_congr_left
  intro i _
  rw [raw_perm (window_congr hp hs hs' hf hq i), weightOf_perm hp, degreeOf_perm hp]

theorem total_rename {E : List Edge} {f : Node → Node} (h : Renaming E f) {win : List Edge} (hw : ∀ e ∈ win, e ∈ E) :
    total (weightOf (E.map (Edge.rename f))) (degreeOf (E.map (Edge.rename f))) (win.map (Edge.rename f)) =
      total (weightOf E) (degreeOf E) win := by
  unfold total
  rw [List.map_map]
  congr 1
  apply List.map_congr_left
  intro e he
  have hE := hw e he
  simp only [Function.comp_apply]
  rw [weightOf_rename h hE]
  congr 2
  exact degreeOf_rename h (mem_ends hE).1

/-- The names of the clusters as a renaming. -/
theorem sameGroups_renaming {rate : Nat} {ts : List Trans} {lab lab' : Nat → Nat → Nat} (h : SameGroups rate ts lab lab') :
    Renaming (pairs (walk rate lab ts)) (fun v => ⟨v.seg, lab' v.fromId v.seg, v.fromId⟩) := by
  refine ⟨fun v _ => rfl, fun v hv w hw => ?_⟩
  have h1 := (mem_walk.1 (ends_pairs hv))
  have h2 := (mem_walk.1 (ends_pairs hw))
  simp only [Node.nodeKey, Prod.mk.injEq]
  refine and_congr_right (fun hs => ?_)
  rw [h1.2, h2.2]
  rw [hs] at h1 ⊢
  exact (h w.seg v.fromId w.fromId h1.1 h2.1).symm

/-- The window with other names of the clusters. -/
theorem window_sameGroups {rate : Nat} {ts : List Trans} {lab lab' : Nat → Nat → Nat} (h : SameGroups rate ts lab lab') (q i : Nat) :
    (Scoring.windowSpec (pairs (walk rate lab' ts)) 0 q i).length = (Scoring.windowSpec (pairs (walk rate lab ts)) 0 q i).length ∧
    total (weightOf (pairs (walk rate lab' ts))) (degreeOf (pairs (walk rate lab' ts))) (Scoring.windowSpec (pairs (walk rate lab' ts)) 0 q i) =
      total (weightOf (pairs (walk rate lab ts))) (degreeOf (pairs (walk rate lab ts))) (Scoring.windowSpec (pairs (walk rate lab ts)) 0 q i) := by
  rw [walk_rename rate lab lab', pairs_map, windowSpec_rename (sameGroups_renaming h), List.length_map]
  exact ⟨rfl, total_rename (sameGroups_renaming h) (fun e he => windowSpec_subset he)⟩

theorem vector_sameGroups {rate : Nat} {ts : List Trans} {lab lab' : Nat → Nat → Nat} (h : SameGroups rate ts lab lab')
    (q len : Nat) : vector (pairs (walk rate lab' ts)) q len = vector (pairs (walk rate lab ts)) q len := by
  unfold vector
  congr 1
  apply List.map_congr_left
  intro i _
  obtain ⟨h1, h2⟩ := window_sameGroups h q i
  unfold raw mean
  rw [h1, h2]
  have : Scoring.windowSpec (pairs (walk rate lab' ts)) 0 q i = [] ↔ Scoring.windowSpec (pairs (walk rate lab ts)) 0 q i = [] := by
    rw [← List.length_eq_zero_iff, h1, List.length_eq_zero_iff]
  simp only [this]

/-- The sums over all windows are in the range in which `f32` is exact. -/
def AllSmall (q : Nat) (E : List Edge) : Prop := ∀ k, Small (weightOf E) (degreeOf E) (Scoring.windowSpec E 0 q k)

theorem AllSmall.sameGroups {rate : Nat} {ts : List Trans} {lab lab' : Nat → Nat → Nat} (h : SameGroups rate ts lab lab') {q : Nat}
    (hs : AllSmall q (pairs (walk rate lab ts))) : AllSmall q (pairs (walk rate lab' ts)) := by
  intro k
  obtain ⟨h1, h2⟩ := window_sameGroups h q k
  exact ⟨by rw [h2]; exact (hs k).total, by rw [h1]; exact (hs k).length⟩

theorem AllSmall.congr {E E' : List Edge} (hp : E.Perm E') (hs : E.Pairwise (fun a b => a.toId ≤ b.toId))
    (hs' : E'.Pairwise (fun a b => a.toId ≤ b.toId)) {q : Nat} (hq : 1 ≤ q) (hf : SameFirst q E E') (h : AllSmall q E') : AllSmall q E := by
  intro k
  rw [weightOf_perm hp, degreeOf_perm hp]
  exact small_perm (window_congr hp hs hs' hf hq k).symm (h k)

theorem window_length (E : List Edge) (q k : Nat) : (Scoring.windowSpec E 0 q k).length ≤ E.length := by
  unfold Scoring.windowSpec
  rw [List.length_append]
  have key : ∀ l : List Edge, (l.filter (fun e => 0 + k < e.dst.fromId ∧ e.dst.fromId ≤ 0 + k + (q - 1))).length +
      (l.filter (fun e => 0 + k + (q - 1) < e.dst.fromId)).length ≤ l.length := by
    intro l
    induction l with
    | nil => simp
    | cons e l ih =>
      rw [List.filter_cons, List.filter_cons]
      by_cases h1 : 0 + k < e.dst.fromId ∧ e.dst.fromId ≤ 0 + k + (q - 1)
      · rw [if_pos (by simpa using h1), if_neg (by simp; omega)]
        simp only [List.length_cons]
        omega
      · rw [if_neg (by simpa using h1)]
        split <;> simp only [List.length_cons] <;> omega
  have := key E
  have := List.length_take_le 1 (E.filter (fun e => 0 + k + (q - 1) < e.dst.fromId))
  have := List.length_take_le' 1 (E.filter (fun e => 0 + k + (q - 1) < e.dst.fromId))
  omega

/-- A sufficient condition: the walk has at most 203 edges. -/
theorem allSmall_of_short {E : List Edge} (h : E.length ≤ 203) (q : Nat) : AllSmall q E := by
  intro k
  have hw := window_length E q k
  refine ⟨?_, le_trans hw (le_trans h (by norm_num))⟩
  have hterm : ∀ x ∈ (Scoring.windowSpec E 0 q k).map (fun e => weightOf E e.edgeKey * (degreeOf E e.src.nodeKey - 1)), x ≤ 203 * 406 := by
    intro x hx
    obtain ⟨e, he, rfl⟩ := List.mem_map.1 hx
    have h1 : weightOf E e.edgeKey ≤ 203 := le_trans List.countP_le_length h
    have h2 : degreeOf E e.src.nodeKey ≤ 406 := by
      have h3 : (distinct E).length ≤ E.length := by
        unfold distinct
        exact le_trans (List.Sublist.length_le (List.dedup_sublist _)) (by simp)
      unfold degreeOf degreeSpec
      have h4 := List.countP_le_length (p := fun k : EdgeKey => decide (k.1 = e.src.nodeKey)) (l := distinct E)
      have h5 := List.countP_le_length (p := fun k : EdgeKey => decide (k.2 = e.src.nodeKey)) (l := distinct E)
      omega
    exact Nat.mul_le_mul h1 (le_trans (Nat.sub_le _ _) h2)
  have := List.sum_le_card_nsmul _ _ hterm
  rw [List.length_map, smul_eq_mul] at this
  unfold total
  calc _ ≤ _ := this
    _ ≤ 203 * (203 * 406) := Nat.mul_le_mul_right _ (le_trans hw h)
    _ ≤ 2 ^ 24 := by norm_num

/-! ### The helpers -/

theorem helper_helps {all : List Edge} {q : Nat} (hq : 1 ≤ q) (hsm : AllSmall q all) :
    Helps helper (raw (weightOf all) (degreeOf all)) all q := by
  intro edges w d start length hs hk hw hd hwin a b hab
  rw [C83_scores hs hk hq hab (fun i _ hi => by
    rw [hw, hd, hwin i (by omega)]
    exact hsm _), hw, hd]
  unfold ParScore.answer
  congr 2
  apply decide_eq_decide.2
  rw [raw_none]

section
variable {clu : List X → Option (List Nat)} {coord : Inter → X} {p : Parameters} {len : Nat} {pts : Nat → List Pt}
    {sg : SegNet} {it : InterNet} {nodes : Nat → List Node} {qn : QNet} {es edges : Nat → List Edge} {tr : TransNet}
    {deg : RingNet (Counts NodeKey)} {wt : RingNet (Counts EdgeKey)} {m : Nat → Nat} {cnt : Nat → List Nat} {ov : OvNet}
    {job : Nat → List Edge × List Nat} {par : Nat → ParScore} {sub : RingNet (List ℚ × Bool)}

/-- A complete run on several nodes in single precision (from the points on): as `Pipeline.Distributed`, with the helpers of single precision. -/
abbrev Distributed := @DistributedBy X helper

/-- C94: what every node of a cluster delivers in single precision, in every schedule of every stage (rotations without the race of C18). -/
theorem C94_distributed (h : Complete clu coord p len pts)
    (hd : Distributed clu coord p len pts sg it nodes qn es edges tr deg wt m cnt ov job par sub)
    (hsm : AllSmall p.queryLength ((List.range p.nClusterNodes).flatMap tr.store)) {i : Nat} (hi : i < p.nClusterNodes) :
    finalize p.nClusterNodes (SubScores.subscores sub i) = normalize
      (vector ((List.range p.nClusterNodes).flatMap tr.store) p.queryLength ((series p.nClusterNodes pts).length - p.queryLength)) := by
  obtain ⟨l, h1, h2⟩ := DistributedBy.parts (F := raw (weightOf ((List.range p.nClusterNodes).flatMap tr.store))
    (degreeOf ((List.range p.nClusterNodes).flatMap tr.store))) (fun win => raw_none) h.oneLabel hd h.borders
    (fun i hi => h.overlapEdge _ hi) (h.innerEdge _) (helper_helps h.query hsm) h.query h.threads h.positions h.lastPart hi
  unfold finalize
  rw [h1]
  simp only [Option.bind_eq_bind, Option.bind_some]
  rw [h2]
  rfl

/-- The edges of the run on one node with the same points, in terms of the clusters of the distributed run. -/
theorem local_edges {P : X → Prop} (hf : OrderFree P clu) (hP : ∀ x, P (coord x)) (hc : OneLabelEach clu)
    (h : Graphed clu coord p len pts sg it nodes qn es edges tr)
    (h40 : ∀ t ∈ (allSteps p pts).head?, ¬ (t.src.seg + 2 = p.rate ∧ t.dst.seg < t.src.seg)) (mirror : Pt → Pt) :
    ∃ lab, localEdges clu coord mirror { p with nClusterNodes := 1, selfCorrection := false } len (series p.nClusterNodes pts) =
        some (pairs (walk p.rate lab (allSteps p pts))) ∧ SameGroups p.rate (allSteps p pts) lab (labels p nodes) := by
  have hlab := h.labelled hc
  have heff' : effective { p with nClusterNodes := 1, selfCorrection := false } mirror (series p.nClusterNodes pts) = series p.nClusterNodes pts := by
    unfold effective
    rw [if_neg]
    simp
  have hwf : ({ p with nClusterNodes := 1, selfCorrection := false } : Parameters).WellFormed := by
    have := h.wf
    unfold Parameters.WellFormed at this ⊢
    dsimp only
    omega
  obtain ⟨n1, n2⟩ := numbered h.ids
  obtain ⟨g1, g2⟩ := C64_graph hc coord mirror hwf rfl (len := len) (pts := series p.nClusterNodes pts) (by
      rw [heff']
      intro x hx
      obtain ⟨j, hj, hx⟩ := List.mem_flatMap.1 hx
      exact h.seg j (List.mem_range.1 hj) x hx) (by rw [heff']; exact n1) (by
      rw [heff']
      intro x hx
      have := n2 x hx
      have := h.bound
      omega)
  rw [heff'] at g1 g2
  cases hes : localEdges clu coord mirror { p with nClusterNodes := 1, selfCorrection := false } len (series p.nClusterNodes pts) with
  | none =>
    exfalso
    rcases g1.1 hes with ⟨s, h1, h2, h3⟩ | ⟨t, h1, h2⟩
    · obtain ⟨xs, hx, hcx⟩ := hlab s h1 h2
      have := (hf (xs.map coord) ((crossings p.rate (allSteps p pts) s).reverse.map coord) (by
        intro x hx
        obtain ⟨y, _, rfl⟩ := List.mem_map.1 hx
        exact hP y) (by rw [List.length_map, hx.length_eq]; exact h2)
        ((hx.trans (List.reverse_perm _).symm).map coord)).1.2 h3
      rw [hcx] at this
      cases this
    · exact h40 t h1 h2
  | some l =>
    obtain ⟨lab, hl, rfl⟩ := g2 l hes
    exact ⟨lab, rfl, sameGroups_of_orderFree hf hP h.points.valid hl.perm hlab⟩

/-- C94: for every cluster of at least two nodes, all points as described by `Complete` and a clustering which does not depend on
the order of its input: if of the edges which end at the same point the first one is fixed (`FirstFixed`), the walk does not begin with the step of
C40, and the sums over the windows of the run on one node are at most 2^24, then there is a complete run in single precision, and every complete
run, in every schedule of every stage (rotations without the race of C18), delivers at every node exactly the vector of single-precision
numbers which a run on one node with the same points delivers in every schedule. -/
theorem C94_same_bits {P : X → Prop} (hf : OrderFree P clu) (hP : ∀ x, P (coord x)) (h : Complete clu coord p len pts)
    (hfirst : ∀ k, p.queryLength ≤ k → FirstFixed p len (pairs (walk p.rate (fun _ _ => 0) (allSteps p pts))) k)
    (h40 : ∀ t ∈ (allSteps p pts).head?, ¬ (t.src.seg + 2 = p.rate ∧ t.dst.seg < t.src.seg)) (mirror : Pt → Pt)
    (hsm : ∀ E, localEdges clu coord mirror { p with nClusterNodes := 1, selfCorrection := false } len (series p.nClusterNodes pts) = some E →
      AllSmall p.queryLength E) :
    (∃ sg it nodes qn es edges tr deg wt m cnt ov job par sub,
      Distributed clu coord p len pts sg it nodes qn es edges tr deg wt m cnt ov job par sub) ∧
    ∀ sg it nodes qn es edges tr deg wt m cnt ov job par sub,
      Distributed clu coord p len pts sg it nodes qn es edges tr deg wt m cnt ov job par sub →
      ∀ i < p.nClusterNodes,
      ∃ s0, run clu coord mirror { p with nClusterNodes := 1, selfCorrection := false } len (series p.nClusterNodes pts) = some s0 ∧
        ∀ s, ParScore.Reachable s0 s → s.pool = [] →
          delivered s = [finalize p.nClusterNodes (SubScores.subscores sub i)] := by
  have hq := h.query
  have hs := h.several
  have key : ∀ {sg it nodes qn es edges tr}, Graphed clu coord p len pts sg it nodes qn es edges tr →
      AllSmall p.queryLength ((List.range p.nClusterNodes).flatMap tr.store) ∧
      SameFirst p.queryLength ((List.range p.nClusterNodes).flatMap tr.store) (pairs (walk p.rate (labels p nodes) (allSteps p pts))) := by
    intro sg it nodes qn es edges tr hg
    obtain ⟨-, g1, g2⟩ := hg.graph h.oneLabel h.borders
    obtain ⟨lab, h1, h2⟩ := local_edges hf hP h.oneLabel hg h40 mirror
    have hsf : SameFirst p.queryLength ((List.range p.nClusterNodes).flatMap tr.store)
        (pairs (walk p.rate (labels p nodes) (allSteps p pts))) :=
      fun k hk => C62_first h.oneLabel hg h.borders (hfirst k hk).relabel
    exact ⟨.congr g1 g2 (pairs_sorted (walk_sorted hg.points.sorted)) hq hsf (.sameGroups h2 (hsm _ h1)), hsf⟩
  constructor
  · obtain ⟨sg, it, nodes, qn, es, edges, tr, hg⟩ := h.graphed
    obtain ⟨deg, wt, m, cnt, ov, job, par, sub, hd⟩ := h.finishBy (F := raw (weightOf ((List.range p.nClusterNodes).flatMap tr.store))
      (degreeOf ((List.range p.nClusterNodes).flatMap tr.store))) (fun win => raw_none) hg (helper_helps hq (key hg).1)
    exact ⟨sg, it, nodes, qn, es, edges, tr, deg, wt, m, cnt, ov, job, par, sub, hd⟩
  · intro sg it nodes qn es edges tr deg wt m cnt ov job par sub hd i hi
    have hg := hd.toGraphed
    obtain ⟨k1, k2⟩ := key hg
    obtain ⟨-, g1, g2⟩ := hg.graph h.oneLabel h.borders
    obtain ⟨lab, h1, h2⟩ := local_edges hf hP h.oneLabel hg h40 mirror
    have htot := hg.total
    have hlast := h.lastPart
    obtain ⟨n1, n2⟩ := numbered hg.ids
    obtain ⟨e0, he0, hpos⟩ := h.overlapEdge lab (i := 0) (by omega)
    have hpl : 1 ≤ len / p.nClusterNodes := le_trans h.threads h.positions
    obtain ⟨s0, h3, h4⟩ := start_scores (p := { p with nClusterNodes := 1, selfCorrection := false })
      (points := (series p.nClusterNodes pts).length) (es := pairs (walk p.rate lab (allSteps p pts)))
      (pairs_sorted (walk_sorted hg.points.sorted)) (by
        intro e he
        obtain ⟨t, ht, he⟩ := toId_walk he
        have hmem := (List.mem_filter.1 ht).1
        have := steps_lt n1 t hmem
        have := n2 _ (mem_steps hmem).2
        omega) ⟨e0, he0, by omega⟩ hq h.threads (by dsimp only; omega) (fun k _ => hsm _ h1 k)
    refine ⟨s0, ?_, fun s hr hp => ?_⟩
    · unfold run
      rw [h1]
      exact h3
    · rw [(h4 s hr).2 hp, C94_distributed h hd k1 hi, vector_congr g1 g2 (pairs_sorted (walk_sorted hg.points.sorted)) hq k2,
        vector_sameGroups h2]

/-- C94 (a condition on the points alone): if the walk of the series crosses at most 204 segments, the sums are small enough. -/
theorem C94_short {P : X → Prop} (hf : OrderFree P clu) (hP : ∀ x, P (coord x)) (h : Complete clu coord p len pts)
    (hfirst : ∀ k, p.queryLength ≤ k → FirstFixed p len (pairs (walk p.rate (fun _ _ => 0) (allSteps p pts))) k)
    (h40 : ∀ t ∈ (allSteps p pts).head?, ¬ (t.src.seg + 2 = p.rate ∧ t.dst.seg < t.src.seg)) (mirror : Pt → Pt)
    (hshort : (keysOf p.rate (allSteps p pts)).length ≤ 204) :
    (∃ sg it nodes qn es edges tr deg wt m cnt ov job par sub,
      Distributed clu coord p len pts sg it nodes qn es edges tr deg wt m cnt ov job par sub) ∧
    ∀ sg it nodes qn es edges tr deg wt m cnt ov job par sub,
      Distributed clu coord p len pts sg it nodes qn es edges tr deg wt m cnt ov job par sub →
      ∀ i < p.nClusterNodes,
      ∃ s0, run clu coord mirror { p with nClusterNodes := 1, selfCorrection := false } len (series p.nClusterNodes pts) = some s0 ∧
        ∀ s, ParScore.Reachable s0 s → s.pool = [] →
          delivered s = [finalize p.nClusterNodes (SubScores.subscores sub i)] := by
  refine C94_same_bits hf hP h hfirst h40 mirror (fun E hE => ?_)
  obtain ⟨sg, it, nodes, qn, es, edges, tr, hg⟩ := h.graphed
  obtain ⟨lab, h1, -⟩ := local_edges hf hP h.oneLabel hg h40 mirror
  obtain rfl : pairs (walk p.rate lab (allSteps p pts)) = E := Option.some.inj (h1.symm.trans hE)
  apply allSmall_of_short
  have hl : (walk p.rate lab (allSteps p pts)).length = (keysOf p.rate (allSteps p pts)).length := by
    unfold walk keysOf
    rw [List.length_flatMap, List.length_flatMap]
    congr 1
    apply List.map_congr_left
    intro t _
    simp [stepWalk, stepKeys]
  have hp : ∀ l : List Node, (pairs l).length = l.length - 1 := by
    intro l
    induction l with
    | nil => rfl
    | cons a l ih =>
      cases l with
      | nil => rfl
      | cons b l =>
        rw [pairs, List.length_cons, ih]
        simp
  rw [hp, hl]
  omega

end

/-! ### Concrete instance -/

/-- The hypotheses hold for a walk around the circle with two nodes. -/
example (mirror : Pt → Pt) := C94_short (P := fun _ => True) (clu := exClu) (coord := fun x => x.1.src.id) (p := exD)
  (len := 8) (pts := exDPts) exClu_orderFree (fun _ => trivial) exD_complete exD_fixed (by decide) mirror (by decide)

end Score
end FloatRun
end S2G
