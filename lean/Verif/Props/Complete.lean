import Verif.Props.Distributed
import Verif.Props.RingExact

/-!
# C62: complete runs exist

For every cluster size and all points as in `C62_distributed`, every stage can be brought to its end, so that the structure
`Distributed` is inhabited.
-/

namespace S2G
namespace Pipeline
open Scoring Weights Edges SegState NodeEst
variable {X : Type}

/-- A system in which every state which is not final has a successor with a smaller measure reaches a final state. -/
theorem run_to_end {S : Type} {R Done : S → Prop} (μ : S → Nat) (h : ∀ s, R s → Done s ∨ ∃ t, R t ∧ μ t < μ s) {s : S}
    (hs : R s) : ∃ t, R t ∧ Done t := by
  induction hk : μ s using Nat.strong_induction_on generalizing s with
  | _ k ih =>
    rcases h s hs with hd | ⟨t, ht, hlt⟩
    · exact ⟨s, hs, hd⟩
    · exact ih (μ t) (hk ▸ hlt) ht rfl

theorem direct_complete {P : Type} (incl : Bool) (n : Nat) (f : Nat → Nat → P) :
    ∃ s, DirectNet.ReachableWith incl n f s ∧ ∀ j < n, s.done j = 1 := by
  refine run_to_end (R := DirectNet.ReachableWith incl n f) (DirectNet.remaining n) (fun s hs => ?_) .init
  have next : ∀ t, DirectNet.StepWith incl n f s t →
      ∃ t, DirectNet.ReachableWith incl n f t ∧ DirectNet.remaining n t < DirectNet.remaining n s :=
    fun t ht => ⟨t, .step hs ht, DirectNet.C17_terminates hs.toReachable ht.toStep⟩
  by_cases hall : ∀ i < n, s.started i = true
  · cases hp : s.pool with
    | nil => exact Or.inl (fun j hj => DirectNet.C17_quiescent_done hs.toReachable hall hp hj)
    | cons m post => exact Or.inr (next _ (.handle s [] post m hp))
  · push Not at hall
    obtain ⟨i, hi, h⟩ := hall
    exact Or.inr (next _ (.start s i hi (by simpa using h)))

theorem questions_complete {n : Nat} (hn : 2 ≤ n) {qs : Nat → NodeQuestions} {nodesOf : Nat → Nat → List Node}
    (hc : ∀ s, QNet.Reachable n qs nodesOf s → s.crashed = false) :
    ∃ s, QNet.Reachable n qs nodesOf s ∧ ∀ j < n, s.fin j = 1 := by
  refine run_to_end (R := QNet.Reachable n qs nodesOf)
    (fun s => DirectNet.remaining n s.ask + DirectNet.remaining n s.ans) (fun s hs => ?_) .init
  by_cases hstep : ∃ t, QNet.Step n qs nodesOf s t
  · obtain ⟨t, ht⟩ := hstep
    exact Or.inr ⟨t, .step hs ht, QNet.C59_terminates hn hs ht⟩
  · exact Or.inl (fun j hj => QNet.C59_stuck_done hn hs (hc s hs) hstep hj)

theorem overlap_complete {n q : Nat} {st m : Nat → Nat} {own : Nat → List Edge} {cnt : Nat → List Nat}
    (h : OvNet.Layout n q st m own cnt) : ∃ s, OvNet.Reachable n q own cnt s ∧ ∀ i < n, s.scored i ≠ [] := by
  refine run_to_end (R := OvNet.Reachable n q own cnt) (OvNet.measure n) (fun s hs => ?_) .init
  obtain ⟨h1, h2⟩ := OvNet.C51_no_crash h hs
  by_cases hall : ∀ i < n, s.started i = true
  · cases hp : s.pool with
    | nil => exact Or.inl (fun j hj => OvNet.C51_quiescent_scored h hs hall hp hj)
    | cons x post =>
      obtain ⟨t, ht, hlt⟩ := h2 [] post x.1 x.2 hp
      exact Or.inr ⟨t, .step hs (.handle s [] post x.1 x.2 hp ht), hlt⟩
  · push Not at hall
    obtain ⟨i, hi, hst⟩ := hall
    have hst : s.started i = false := by simpa using hst
    obtain ⟨t, ht, hlt⟩ := h1 i hi hst
    exact Or.inr ⟨t, .step hs (.start s i hi hst ht), hlt⟩

theorem ring_complete {P : Type} {k : Nat} (hk : 2 ≤ k) (pay : Nat → P) :
    ∃ s : RingNet P, RingNet.Reachable true k s ∧ s.pay = pay ∧ ∀ i < k, s.done i = 1 := by
  have key : ∀ n ≤ k, ∃ s : RingNet P, RingNet.Reachable true k s ∧ (∀ i, s.started i = decide (i < n)) ∧
      (∀ i, (s.proto i).buffer = []) ∧ s.pay = pay := by
    intro n
    induction n with
    | zero => exact fun _ => ⟨_, .init pay, fun i => by simp [RingNet.init], fun i => by simp [RingNet.init], rfl⟩
    | succ n ih =>
      intro hn
      obtain ⟨s, h, hst, hb, hpay⟩ := ih (by omega)
      refine ⟨_, .step h (.start s n (pay n) (by omega) (by rw [hst]; simp) (fun _ => Or.inr (hb n))), ?_, ?_,
        by simp [RingNet.startStep, hpay]⟩
      · intro i
        by_cases hi : i = n
        · subst hi; simp [RingNet.startStep]
        · simp only [RingNet.startStep, Function.update_of_ne hi, hst]
          congr 1; rw [eq_iff_iff]; omega
      · intro i
        by_cases hi : i = n
        · subst hi; simp [RingNet.startStep, Proto.resolveBuffer, Proto.sent, Proto.start]
        · simp only [RingNet.startStep, Function.update_of_ne hi, hb]
  obtain ⟨s0, h0, hst, _, hpay⟩ := key k le_rfl
  obtain ⟨t, ⟨h1, h2, _⟩, h3⟩ := run_to_end
    (R := fun s => RingNet.Reachable true k s ∧ s.pay = pay ∧ ∀ i < k, s.started i = true)
    (Done := fun s => ∀ i < k, s.done i = 1) (RingNet.remaining k) (fun s hs => by
      obtain ⟨h, hp, hall⟩ := hs
      by_cases h2 : ∃ i < k, s.mailbox i ≠ []
      · obtain ⟨i, hi, hne⟩ := h2
        obtain ⟨m, rest, hm⟩ := List.exists_cons_of_ne_nil hne
        exact Or.inr ⟨_, ⟨.step h (.handle s i m rest hi hm), by rw [RingNet.handle_pay, hp], fun j hj => by
          rw [RingNet.handle_started]; exact hall j hj⟩, RingNet.C18_terminates hk h (.handle s i m rest hi hm)⟩
      · by_cases h3 : ∃ i < k, s.net i ≠ []
        · obtain ⟨i, hi, hne⟩ := h3
          obtain ⟨m, rest, hm⟩ := List.exists_cons_of_ne_nil hne
          exact Or.inr ⟨_, ⟨.step h (.arrive s i m rest hi hm), hp, hall⟩,
            RingNet.C18_terminates hk h (.arrive s i m rest hi hm)⟩
        · push Not at h2 h3
          exact Or.inl (fun i hi => RingNet.C18_quiescent_done hk h hall (fun j hj => ⟨h2 j hj, h3 j hj⟩) hi)) 
      ⟨h0, hpay, fun i hi => by rw [hst]; simpa using hi⟩
  exact ⟨t, h1, h2, h3⟩

theorem segmentation_complete {p : Parameters} (hp : p.WellFormed) {pts : Nat → List Pt}
    (hv : ∀ i < p.nClusterNodes, validSteps p.rate (pts i) ≠ []) :
    ∃ s, SegNet.Reachable p pts s ∧ ∀ j < p.nClusterNodes, s.net.done j = 1 := by
  obtain ⟨s, ⟨h1, _⟩, h2⟩ := run_to_end (R := fun s => SegNet.Reachable p pts s ∧ s.crashed = false)
    (Done := fun s => ∀ j < p.nClusterNodes, s.net.done j = 1) (SegNet.remaining p) (fun s hs => by
      obtain ⟨h, hc⟩ := hs
      by_cases hl : ∃ i < p.nClusterNodes, s.loc i = none
      · obtain ⟨i, hi, hn⟩ := hl
        have hst : SegNet.Step p pts s (SegNet.segment p pts s i) := .segment s i hi hn hc
        refine Or.inr ⟨_, ⟨.step h hst, ?_⟩, SegNet.C28_terminates hp h hst⟩
        obtain ⟨l, hl, _⟩ := SegState.buildSegments_built hp i {} (pts i)
        simp only [SegNet.segment, hl]
        split <;> simp [SegNet.distribute, hc]
      · by_cases hstep : ∃ t, SegNet.Step p pts s t
        · obtain ⟨t, ht⟩ := hstep
          refine Or.inr ⟨t, ⟨.step h ht, ?_⟩, SegNet.C28_terminates hp h ht⟩
          by_contra hcr
          obtain ⟨i, hf, hor⟩ := SegNet.C28_crash_cause hp h ht (by simpa using hcr)
          obtain ⟨x, hx⟩ := Option.ne_none_iff_exists'.1 hf
          have hi := ((SegNet.inv_reachable hp h).first i x.1 x.2 hx).1
          rcases hor with h1 | h1
          · exact hl ⟨i, by omega, h1⟩
          · exact hv i (by omega) h1
        · exact Or.inl (SegNet.C28_progress_of_transitions hp hv h hc hstep)) ⟨.init, rfl⟩
  exact ⟨s, h1, h2⟩

theorem choose_fin {α : Type} [Nonempty α] {n : Nat} {R : Nat → α → Prop} (h : ∀ i < n, ∃ a, R i a) :
    ∃ f : Nat → α, ∀ i < n, R i (f i) := by
  classical
  have h : ∀ i, ∃ a, i < n → R i a := fun i => by
    by_cases hi : i < n
    · obtain ⟨a, ha⟩ := h i hi
      exact ⟨a, fun _ => ha⟩
    · exact ⟨Classical.arbitrary α, fun h => absurd h hi⟩
  choose f hf using h
  exact ⟨f, hf⟩

section
variable {clu : List X → Option (List Nat)} {coord : Inter → X} {p : Parameters} {len : Nat} {pts : Nat → List Pt}

/-- Input of a complete run: a property of the points, the parameters and the clustering alone. -/
structure Graphable (clu : List X → Option (List Nat)) (coord : Inter → X) (p : Parameters) (len : Nat)
    (pts : Nat → List Pt) : Prop where
  wf : p.WellFormed
  several : 2 ≤ p.nClusterNodes
  /-- points lie in segments of the circle and are numbered; all parts but the last have `len / n` points (C15) -/
  seg : ∀ i < p.nClusterNodes, ∀ x ∈ pts i, x.seg < p.rate
  ids : (series p.nClusterNodes pts).map Pt.id = List.range (series p.nClusterNodes pts).length
  size : ∀ i, i + 1 < p.nClusterNodes → (pts i).length = len / p.nClusterNodes
  bound : (series p.nClusterNodes pts).length ≤ len
  nodes_len : p.nClusterNodes ≤ len
  /-- every part has a valid step (C28) -/
  valid : ∀ i < p.nClusterNodes, validSteps p.rate (pts i) ≠ []
  /-- the borders are harmless (C43) -/
  borders : ∀ i, i + 1 < p.nClusterNodes → BorderOK p pts i
  /-- the clustering of the crossings of a segment, in any order, does not crash and gives every crossing a label -/
  clusters : ∀ s < p.rate, ∀ xs : List Inter, xs.Perm (crossings p.rate (allSteps p pts) s) → 2 ≤ xs.length →
    clu (xs.map coord) ≠ none
  oneLabel : OneLabelEach clu
  /-- a valid step starts at the last point of every overlap (C51) -/
  overlaps : ∀ i, i + 1 < p.nClusterNodes → ∃ t ∈ allSteps p pts,
    t.src.id = len / p.nClusterNodes * (i + 1) + (p.queryLength - 1)
  /-- a valid step starts at a point of the first node which is not the first point -/
  inner : ∃ t ∈ allSteps p pts, 0 < t.src.id ∧ t.src.id < len / p.nClusterNodes
  query : 1 ≤ p.queryLength

/-- The conditions of C62: there are positions for every thread (C49). -/
structure Complete (clu : List X → Option (List Nat)) (coord : Inter → X) (p : Parameters) (len : Nat)
    (pts : Nat → List Pt) : Prop extends Graphable clu coord p len pts where
  threads : 1 ≤ p.nThreads
  positions : p.nThreads ≤ len / p.nClusterNodes
  lastPart : p.nThreads + p.queryLength ≤ (pts (p.nClusterNodes - 1)).length

theorem Graphable.steps (h : Graphable clu coord p len pts) : Steps p.rate len (allSteps p pts) := by
  obtain ⟨n1, n2⟩ := numbered h.ids
  refine steps_of_points ?_ n1 (fun x hx => by have := n2 x hx; have := h.bound; omega)
  intro x hx
  obtain ⟨i, hi, hx⟩ := List.mem_flatMap.1 hx
  exact h.seg i (List.mem_range.1 hi) x hx

/-- The nodes can be estimated. -/
theorem Graphable.estimated (h : Graphable clu coord p len pts) {sg : SegNet} (g1 : SegNet.Reachable p pts sg)
    (g2 : ∀ i < p.nClusterNodes, sg.net.done i = 1) {it : InterNet} (hit : InterNet.Reachable p sg.store it)
    (g4 : ∀ i < p.nClusterNodes, it.net.done i = 1) :
    ∃ nodes : Nat → List Node, ∀ j < p.nClusterNodes, estimateNodes clu coord p j (it.store p j) = some (nodes j) := by
  have hpt := h.steps
  refine choose_fin (n := p.nClusterNodes) (R := fun j nd => estimateNodes clu coord p j (it.store p j) = some nd) (fun j hj => ?_)
  rw [← Option.ne_none_iff_exists', Ne, C33_crash_iff h.wf hj]
  rintro ⟨seg, -, hlt, h2, h3⟩
  obtain ⟨k1, -⟩ := store_spec h.wf hpt g1 g2 hit g4 hj
  have k2 := k1.filter (fun x => decide (x.2 = seg))
  rw [List.filter_filter] at k2
  by_cases ho : owner p seg = j
  · refine h.clusters seg hlt _ (k2.trans (List.Perm.of_eq ?_)) h2 h3
    rw [← crossings_eq hpt.valid]
    apply List.filter_congr
    intro x _
    by_cases hx : x.2 = seg
    · simp [hx, ho]
    · simp [hx]
  · obtain ⟨x, hx⟩ := List.exists_mem_of_length_pos (l := List.filter (fun x => decide (x.2 = seg)) (it.store p j)) (by omega)
    obtain ⟨-, hx⟩ := List.mem_filter.1 (k2.subset hx)
    simp only [Bool.and_eq_true, decide_eq_true_eq] at hx
    exact ho (hx.1 ▸ hx.2)

/-- Every exchange of successor nodes is one of C43. -/
theorem Graphable.runs (h : Graphable clu coord p len pts) {sg : SegNet} (g1 : SegNet.Reachable p pts sg)
    (g2 : ∀ i < p.nClusterNodes, sg.net.done i = 1) {it : InterNet} (hit : InterNet.Reachable p sg.store it)
    (g4 : ∀ i < p.nClusterNodes, it.net.done i = 1) {nodes : Nat → List Node}
    (hnodes : ∀ j < p.nClusterNodes, estimateNodes clu coord p j (it.store p j) = some (nodes j)) {q : QNet}
    (hq : QNet.Reachable p.nClusterNodes (questionsOf sg) (fun a => nodesOf (nodes a)) q) : Run p pts len sg nodes q := by
  obtain ⟨n1, n2⟩ := numbered h.ids
  have key := fun j (hj : j < p.nClusterNodes) => keys_spec h.oneLabel h.wf h.steps g1 g2 hit g4 hnodes hj
  exact ⟨h.wf, h.several, h.seg, n1, fun x hx => by have := n2 x hx; have := h.bound; omega, g1, g2, fun j hj => (key j hj).1,
    fun j hj => (key j hj).2, hq⟩

/-- The edges can be assigned to the nodes. -/
theorem Graphable.assigned (h : Graphable clu coord p len pts) (es : List Edge) :
    ∃ a, Transposition.assignEdges p.nClusterNodes (len / p.nClusterNodes) (Transposition.sortEdges es) = some a := by
  have := h.several
  rw [← Option.ne_none_iff_exists', Ne, Transposition.assignEdges_none_iff (by omega)]
  rintro ⟨h1, -⟩
  obtain ⟨_, -, -, h2⟩ := h.inner
  omega

theorem Graphable.graphed_of (h : Graphable clu coord p len pts) {sg : SegNet} (g1 : SegNet.Reachable p pts sg)
    (g2 : ∀ i < p.nClusterNodes, sg.net.done i = 1) : ∃ it nodes qn es edges tr,
    Graphed clu coord p len pts sg it nodes qn es edges tr := by
  have hs := h.several
  have hex : ∀ i < p.nClusterNodes, ∃ l, Inter.onResults p i {} (intersectionTasks p.rate (sg.store i)) = some l :=
    fun i _ => (Inter.onResults_spec h.wf i _).imp (fun _ hl => hl.1)
  have : Nonempty Inter.State := ⟨{}⟩
  obtain ⟨loc, hloc⟩ := choose_fin hex
  obtain ⟨net, g3, g4⟩ := direct_complete false p.nClusterNodes (fun i => Inter.outgoing p (loc i))
  have hit : InterNet.Reachable p sg.store ⟨loc, net⟩ := ⟨hloc, g3⟩
  obtain ⟨nodes, hnodes⟩ := h.estimated g1 g2 hit g4
  have hrun := fun q hq => h.runs (q := q) g1 g2 hit g4 hnodes hq
  obtain ⟨qn, g5, g6⟩ := questions_complete hs (fun q hq => C43_no_crash (hrun q hq))
  obtain ⟨es, hes⟩ := choose_fin (n := p.nClusterNodes)
    (R := fun j e => connectNodes len (nodesOf (nodes j)) (qn.nfn j) = some e)
    (fun j hj => ⟨_, C43_edges_of_borders (hrun qn g5) h.borders hj (g6 j hj)⟩)
  obtain ⟨assigned, has⟩ := choose_fin (n := p.nClusterNodes)
    (R := fun j a => Transposition.assignEdges p.nClusterNodes (len / p.nClusterNodes) (Transposition.sortEdges (es j)) = some a)
    (fun j hj => h.assigned (es j))
  obtain ⟨tnet, g7, g8⟩ := direct_complete false p.nClusterNodes assigned
  refine ⟨⟨loc, net⟩, nodes, qn, es, fun j => Transposition.sortEdges (es j), ⟨assigned, tnet⟩, ?_⟩
  exact ⟨h.wf, hs, h.seg, h.ids, h.size, h.bound, h.nodes_len, g1, g2, hit, g4, hnodes, g5, g6, hes,
    fun _ _ => rfl, ⟨len / p.nClusterNodes, by unfold Transposition.partitionLen checkedDiv; rw [if_neg (by omega)], has, g7⟩, g8⟩

theorem Graphable.graphed (h : Graphable clu coord p len pts) : ∃ sg it nodes qn es edges tr,
    Graphed clu coord p len pts sg it nodes qn es edges tr := by
  obtain ⟨sg, g1, g2⟩ := segmentation_complete h.wf h.valid
  exact ⟨sg, h.graphed_of g1 g2⟩

theorem mem_pairs_dst : ∀ {l : List Node} {v : Node}, v ∈ l → l.head? ≠ some v → ∃ e ∈ pairs l, e.dst = v
  | [_], v, h, hh => by
    rw [List.mem_singleton] at h
    exact absurd (by rw [h]; rfl) hh
  | a :: b :: l, v, h, hh => by
    rcases List.mem_cons.1 h with rfl | h
    · exact absurd rfl hh
    · by_cases hb : b = v
      · exact ⟨⟨a, b⟩, by simp [pairs], hb⟩
      · obtain ⟨e, he, hd⟩ := mem_pairs_dst (l := b :: l) h (by simpa using hb)
        exact ⟨e, by simp only [pairs]; exact List.mem_cons_of_mem _ he, hd⟩

/-- Every valid step which is not the first one is the end of an edge. -/
theorem ends_at {rate len : Nat} {ts : List Trans} (hst : Steps rate len ts) (lab : Nat → Nat → Nat) {t u : Trans} (ht : t ∈ ts)
    (hu : u ∈ ts) (hlt : u.src.id < t.src.id) : ∃ e ∈ pairs (walk rate lab ts), e.toId = t.src.id := by
  have hnode : ∀ t ∈ ts, ∃ v ∈ walk rate lab ts, v.fromId = t.src.id := by
    intro t ht
    obtain ⟨hf, hd, hv⟩ := hst.valid t ht
    obtain ⟨k, _, _, _, hl⟩ := Trans.C30_segments t hf hd hv
    exact ⟨node lab t.src.id t.dst.seg, List.mem_flatMap.2 ⟨t, ht, List.mem_map_of_mem (List.mem_of_getLast? hl)⟩, rfl⟩
  obtain ⟨v, hv, hvi⟩ := hnode t ht
  obtain ⟨w, hw, hwi⟩ := hnode u hu
  obtain ⟨e, he, hd⟩ := mem_pairs_dst hv (by
    intro hh
    have hs := walk_sorted (rate := rate) (lab := lab) hst.sorted
    cases hl : walk rate lab ts with
    | nil => rw [hl] at hv; cases hv
    | cons a l =>
      rw [hl] at hh hs hw
      obtain rfl : a = v := Option.some.inj hh
      rcases List.mem_cons.1 hw with rfl | hw
      · omega
      · have := (List.pairwise_cons.1 hs).1 w hw
        omega)
  exact ⟨e, he, by unfold Edge.toId; rw [hd, hvi]⟩

/-- An edge ends at the last point of every overlap. -/
theorem Graphable.overlapEdge (h : Graphable clu coord p len pts) (lab : Nat → Nat → Nat) {i : Nat} (hi : i + 1 < p.nClusterNodes) :
    ∃ e ∈ pairs (walk p.rate lab (allSteps p pts)), e.toId = len / p.nClusterNodes * (i + 1) + (p.queryLength - 1) := by
  obtain ⟨t, ht, hti⟩ := h.overlaps i hi
  obtain ⟨u, hu, _, hu2⟩ := h.inner
  rw [← hti]
  apply ends_at h.steps lab ht hu
  rw [hti, Nat.mul_succ]
  omega

/-- Not only point 0 of the first node is the end of an edge. -/
theorem Graphable.innerEdge (h : Graphable clu coord p len pts) (lab : Nat → Nat → Nat)
    (he : ∃ e ∈ pairs (walk p.rate lab (allSteps p pts)), e.toId = 0) :
    ∃ e ∈ pairs (walk p.rate lab (allSteps p pts)), 0 < e.toId ∧ e.toId < len / p.nClusterNodes := by
  obtain ⟨e, he, h0⟩ := he
  obtain ⟨u, hu, hu'⟩ := toId_walk he
  obtain ⟨t, ht, h1, h2⟩ := h.inner
  obtain ⟨f, hf, hf'⟩ := ends_at h.steps lab ht hu (by omega)
  exact ⟨f, hf, by omega, by omega⟩

/-- C62 (a run can be completed): after any finished run up to the transposition the remaining stages can be completed. -/
theorem Complete.finishBy {help : List Edge → List Nat → Counts EdgeKey → Counts NodeKey → Nat → Nat → Nat → Option (List ℚ × Bool)}
    {F : List Edge → Option ℚ} (hF : ∀ win, F win = none ↔ win = []) (h : Complete clu coord p len pts) {sg : SegNet} {it : InterNet} {nodes : Nat → List Node} {qn : QNet}
    {es edges : Nat → List Edge} {tr : TransNet} (hg : Graphed clu coord p len pts sg it nodes qn es edges tr)
    (hh : Helps help F ((List.range p.nClusterNodes).flatMap tr.store) p.queryLength) :
    ∃ deg wt m cnt ov job par sub, DistributedBy help clu coord p len pts sg it nodes qn es edges tr deg wt m cnt ov job par sub := by
  have hs := h.several
  have ht := h.threads
  have hl := h.lastPart
  obtain ⟨m, cnt, hm, hL⟩ := hg.layout h.oneLabel h.borders (h.innerEdge _) h.query (by omega)
  obtain ⟨deg, d1, d2, d3⟩ := ring_complete hs (fun j => nodeDegrees (edges j))
  obtain ⟨wt, w1, w2, w3⟩ := ring_complete hs (fun j => edgeWeight (tr.store j))
  have d2' : ∀ j < p.nClusterNodes, deg.pay j = nodeDegrees (edges j) := fun j _ => by rw [d2]
  have w2' : ∀ j < p.nClusterNodes, wt.pay j = edgeWeight (tr.store j) := fun j _ => by rw [w2]
  obtain ⟨ov, o1, o2⟩ := overlap_complete hL
  have hpar : ∀ i < p.nClusterNodes, ∃ r : ParScore × (List ℚ × Bool), ∃ sl s0,
      scoreLength (EdgesInTime.spec (Transposition.rangeStart (len / p.nClusterNodes) i)
        (OvNet.extLen p.nClusterNodes p.queryLength m i) ((OvNet.extEdges p.nClusterNodes p.queryLength
        (Transposition.rangeStart (len / p.nClusterNodes)) tr.store i).map Edge.toId)) p.queryLength = some sl ∧
      ParScore.init (help (OvNet.extEdges p.nClusterNodes p.queryLength (Transposition.rangeStart (len / p.nClusterNodes))
        tr.store i) (EdgesInTime.spec (Transposition.rangeStart (len / p.nClusterNodes) i)
        (OvNet.extLen p.nClusterNodes p.queryLength m i) ((OvNet.extEdges p.nClusterNodes p.queryLength
        (Transposition.rangeStart (len / p.nClusterNodes)) tr.store i).map Edge.toId)) (rotated wt i) (rotated deg i)
        p.queryLength) sl p.nThreads = some s0 ∧ ParScore.Reachable s0 r.1 ∧ r.1.final = [r.2] := by
    intro i hi
    obtain ⟨sl, s0, -, h1, h2, h3⟩ := hg.scoredBy hF h.oneLabel h.borders d1 d2' d3 w1 w2' w3 (fun i hi => (hm i hi).1) hL
      (fun i hi => by
        obtain ⟨e, he, h1⟩ := h.overlapEdge (labels p nodes) hi
        exact ⟨e, (hg.graph h.oneLabel h.borders).2.1.mem_iff.2 he, h1⟩) hh h.query ht
      h.positions hl hi
    obtain ⟨s, h4, h5⟩ := run_to_end (R := ParScore.Reachable s0) (Done := fun s => s.pool = [])
      (fun s => s.pool.length + (p.nThreads - s.proto.nReceived)) (fun s hr => by
        cases hp : s.pool with
        | nil => exact Or.inl rfl
        | cons x post =>
          obtain ⟨u, hu, hlt⟩ := (h3 s hr).2.2 [] x post hp
          rw [hp] at hlt
          exact Or.inr ⟨u, .step hr (.handle s [] post x hp hu), hlt⟩) .init
    rcases (h3 s h4).1 with h6 | h6
    · exact absurd h6 ((h3 s h4).2.1 h5)
    · exact ⟨(s, _), sl, s0, h1, h2, h4, h6⟩
  have : Nonempty (ParScore × (List ℚ × Bool)) := ⟨(⟨[], true, fun _ => none, {}, [], []⟩, [], true)⟩
  obtain ⟨r, hr⟩ := choose_fin hpar
  obtain ⟨sub, s1, s2, s3⟩ := ring_complete hs (fun i => (r i).2)
  refine ⟨deg, wt, m, cnt, ov, _, fun i => (r i).1, sub, ⟨hg, d1, d2', d3, w1, w2', w3, fun i hi => (hm i hi).1,
    fun i hi => (hm i hi).2, o1, fun i hi => (OvNet.C51_scored hL o1 hi).resolve_left (o2 i hi), fun i hi => ?_, s1, s3⟩⟩
  obtain ⟨sl, s0, h1, h2, h3, h4⟩ := hr i hi
  exact ⟨sl, s0, h1, h2, h3, by rw [s2]; exact h4⟩

theorem Complete.finish (h : Complete clu coord p len pts) {sg : SegNet} {it : InterNet} {nodes : Nat → List Node} {qn : QNet}
    {es edges : Nat → List Edge} {tr : TransNet} (hg : Graphed clu coord p len pts sg it nodes qn es edges tr) :
    ∃ deg wt m cnt ov job par sub, Distributed clu coord p len pts sg it nodes qn es edges tr deg wt m cnt ov job par sub :=
  h.finishBy (F := rawSpec (weightOf ((List.range p.nClusterNodes).flatMap tr.store)) (degreeOf ((List.range p.nClusterNodes).flatMap tr.store)))
    (fun win => by unfold rawSpec; split <;> simp_all) hg (helper_helps h.query)

/-- C62 (runs exist): for every cluster of at least two nodes and all points as described by `Complete`, a run can be completed. -/
theorem C62_complete (h : Complete clu coord p len pts) :
    ∃ sg it nodes qn es edges tr deg wt m cnt ov job par sub,
      Distributed clu coord p len pts sg it nodes qn es edges tr deg wt m cnt ov job par sub := by
  obtain ⟨sg, it, nodes, qn, es, edges, tr, hg⟩ := h.graphed
  obtain ⟨deg, wt, m, cnt, ov, job, par, sub, hd⟩ := h.finish hg
  exact ⟨sg, it, nodes, qn, es, edges, tr, deg, wt, m, cnt, ov, job, par, sub, hd⟩

end

end Pipeline
end S2G
