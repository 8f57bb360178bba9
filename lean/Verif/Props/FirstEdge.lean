import Verif.Props.Complete

/-!
# C62: which edge comes first

Of the edges which end at the same point only the first one matters to the scores. In a run on one node the first one is the
first in the walk. In a distributed run it is the first one which the node which scores the point already had, and otherwise
the first one which it received.
-/

namespace S2G
namespace Pipeline
open Scoring Weights Edges SegState NodeEst Transposition
variable {X : Type}

/-- Sorting keeps the order of the edges which end at the same point. -/
theorem sortEdges_filter (l : List Edge) (k : Nat) :
    (sortEdges l).filter (fun e => e.toId = k) = l.filter (fun e => e.toId = k) := by
  have h1 : List.Sublist (l.filter (fun e => e.toId = k)) (sortEdges l) := by
    apply List.sublist_mergeSort
    · intro a b c h1 h2; simp at h1 h2 ⊢; omega
    · intro a b; simp; omega
    · refine List.Pairwise.imp_of_mem (R := fun _ _ => True) ?_ (List.pairwise_of_forall (fun _ _ => trivial))
      intro a b ha hb _
      have := (List.mem_filter.1 ha).2
      have := (List.mem_filter.1 hb).2
      simp at *
      omega
    · exact List.filter_sublist
  have h2 := h1.filter (fun e => decide (e.toId = k))
  rw [List.filter_filter] at h2
  simp only [Bool.and_self] at h2
  exact (h2.eq_of_length ((sortEdges_perm l).filter _).length_eq.symm).symm

theorem flatMap_single {α β : Type} {l : List α} {g : α → List β} {a : α} (hn : l.Nodup) (ha : a ∈ l)
    (h : ∀ b ∈ l, b ≠ a → g b = []) : l.flatMap g = g a := by
  induction l with
  | nil => cases ha
  | cons b l ih =>
    obtain ⟨h1, h2⟩ := List.nodup_cons.1 hn
    rw [List.flatMap_cons]
    rcases List.mem_cons.1 ha with rfl | ha
    · have : l.flatMap g = [] := by
        rw [List.flatMap_eq_nil_iff]
        exact fun b hb => h b (List.mem_cons_of_mem _ hb) (fun hba => h1 (hba ▸ hb))
      rw [this, List.append_nil]
    · rw [h b (by simp) (fun hba => h1 (hba ▸ ha)), List.nil_append]
      exact ih h2 ha (fun b hb => h b (List.mem_cons_of_mem _ hb))

section
variable {clu : List X → Option (List Nat)} {coord : Inter → X} {p : Parameters} {len : Nat} {pts : Nat → List Pt}
    {sg : SegNet} {it : InterNet} {nodes : Nat → List Node} {qn : QNet} {es edges : Nat → List Edge} {tr : TransNet}

/-- The edges which end at point `k` in the order of the walk. -/
abbrev into (p : Parameters) (nodes : Nat → List Node) (pts : Nat → List Pt) (k : Nat) : List Edge :=
  (pairs (walk p.rate (labels p nodes) (allSteps p pts))).filter (fun e => e.toId = k)

/-- The node which scores point `k`. -/
def homeOf (n len k : Nat) : Nat := min (k / (len / n)) (n - 1)

/-- After the transposition the edges which end at point `k` are: the own ones of the node which scores the point, then those of
the other nodes in the order in which their messages were processed; those of the same node in the order of the walk. -/
theorem Graphed.order (hc : OneLabelEach clu) (h : Graphed clu coord p len pts sg it nodes qn es edges tr)
    (hb : ∀ i, i + 1 < p.nClusterNodes → BorderOK p pts i) (k : Nat) :
    ((List.range p.nClusterNodes).flatMap tr.store).filter (fun e => e.toId = k) =
      (homeOf p.nClusterNodes len k :: (tr.net.processed (homeOf p.nClusterNodes len k)).map DMsg.src).flatMap
        (fun i => (into p nodes pts k).filter (fun e => owner p e.src.seg = i)) ∧
    ((tr.net.processed (homeOf p.nClusterNodes len k)).map DMsg.src).Perm
      (DirectNet.peers false p.nClusterNodes (homeOf p.nClusterNodes len k)) := by
  have hs := h.several
  have hlt : homeOf p.nClusterNodes len k < p.nClusterNodes := by unfold homeOf; omega
  have hhome : ∀ e : Edge, e.toId = k → home p.nClusterNodes (len / p.nClusterNodes) e = homeOf p.nClusterNodes len k := by
    rintro e rfl; rfl
  have hrange := fun (i : Nat) (hi : i < p.nClusterNodes) =>
    (TransNet.C44_edges_of_range (by omega) h.nodes_len h.transposition hi (h.transposed i hi)).1
  obtain ⟨pl, hpl, has, hnet⟩ := h.transposition
  obtain rfl : pl = len / p.nClusterNodes := by
    unfold partitionLen checkedDiv at hpl
    rw [if_neg (by omega)] at hpl
    exact (Option.some.inj hpl).symm
  have hc' := hnet.done_complete hlt (h.transposed _ hlt)
  have hass : ∀ i < p.nClusterNodes, (tr.assigned i (homeOf p.nClusterNodes len k)).filter (fun e => e.toId = k) =
      (into p nodes pts k).filter (fun e => owner p e.src.seg = i) := by
    intro i hi
    have h1 := has i hi
    rw [assignEdges_eq (by omega) (Nat.div_pos h.nodes_len (by omega))] at h1
    rw [← Option.some.inj h1]
    dsimp only
    rw [if_pos hlt, List.filter_filter, h.sorted i hi]
    have h2 : es i = (pairs (walk p.rate (labels p nodes) (allSteps p pts))).filter (fun e => owner p e.src.seg = i) :=
      Option.some.inj ((h.connect i hi).symm.trans (C43_edges_of_borders (h.run hc) hb hi (h.exchanged i hi)))
    have h3 : ∀ l : List Edge, l.filter (fun e => decide (e.toId = k) &&
        decide (home p.nClusterNodes (len / p.nClusterNodes) e = homeOf p.nClusterNodes len k)) =
        l.filter (fun e => e.toId = k) := by
      intro l
      apply List.filter_congr
      intro e _
      by_cases he : e.toId = k
      · simp [he, hhome e he]
      · simp [he]
    rw [h3, sortEdges_filter, h2, into, List.filter_filter, List.filter_filter]
    apply List.filter_congr
    intro e _
    exact Bool.and_comm _ _
  constructor
  · rw [List.filter_flatMap, flatMap_single (a := homeOf p.nClusterNodes len k) List.nodup_range (List.mem_range.2 hlt)]
    · rw [TransNet.store, sortEdges_filter, TransNet.received, List.filter_append, hass _ hlt, List.flatMap_cons]
      congr 1
      rw [List.filter_flatMap, List.flatMap_map]
      apply List.flatMap_congr
      intro m hm
      obtain ⟨j, hj, rfl⟩ := List.mem_map.1 (hc'.subset hm)
      exact hass j (DirectNet.mem_peers.1 hj).1
    · intro j hj hne
      rw [List.filter_eq_nil_iff]
      intro e he hk
      have h1 := (List.mem_filter.1 ((hrange j (List.mem_range.1 hj)).subset he)).2
      rw [hhome e (by simpa using hk)] at h1
      exact hne (by simpa using h1 : homeOf p.nClusterNodes len k = j).symm
  · have := hc'.map DMsg.src
    rwa [List.map_map, show (DMsg.src ∘ fun j => DMsg.mk j (homeOf p.nClusterNodes len k)
      (tr.assigned j (homeOf p.nClusterNodes len k))) = id from rfl, List.map_id] at this

/-- Specification: the first edge which ends at point `k` is found by the node which scores the point, in every schedule: the node
itself created the edge, or one and the same node created all edges which end at the point. -/
def FirstFixed (p : Parameters) (len : Nat) (E : List Edge) (k : Nat) : Prop :=
  ∀ e ∈ (E.filter (fun e => e.toId = k)).head?, owner p e.src.seg = homeOf p.nClusterNodes len k ∨
    ∀ f ∈ E, f.toId = k → owner p f.src.seg = owner p e.src.seg

theorem head_flatMap {α β : Type} {l : List α} {g : α → List β} {b : β} (h : ∀ a ∈ l, g a = [] ∨ (g a).head? = some b)
    (hex : ∃ a ∈ l, g a ≠ []) : (l.flatMap g).head? = some b := by
  induction l with
  | nil => obtain ⟨a, ha, _⟩ := hex; cases ha
  | cons a l ih =>
    rw [List.flatMap_cons]
    rcases h a (by simp) with ha | ha
    · rw [ha, List.nil_append]
      obtain ⟨c, hc, hne⟩ := hex
      rcases List.mem_cons.1 hc with rfl | hc
      · exact absurd ha hne
      · exact ih (fun a ha => h a (List.mem_cons_of_mem _ ha)) ⟨c, hc, hne⟩
    · rw [List.head?_append, ha]
      rfl

/-- C62 (order): if one of the two cases of `FirstFixed` holds, the first edge is the one of the walk, in every schedule. -/
theorem C62_first (hc : OneLabelEach clu) (h : Graphed clu coord p len pts sg it nodes qn es edges tr)
    (hb : ∀ i, i + 1 < p.nClusterNodes → BorderOK p pts i) {k : Nat}
    (hk : FirstFixed p len (pairs (walk p.rate (labels p nodes) (allSteps p pts))) k) :
    (((List.range p.nClusterNodes).flatMap tr.store).filter (fun e => e.toId = k)).head? = (into p nodes pts k).head? := by
  obtain ⟨h1, h2⟩ := h.order hc hb k
  rw [h1]
  cases hl : into p nodes pts k with
  | nil =>
    simp
  | cons e l =>
    have he : e ∈ ((pairs (walk p.rate (labels p nodes) (allSteps p pts))).filter (fun e => e.toId = k)).head? := by
      show e ∈ (into p nodes pts k).head?
      rw [hl]; rfl
    rw [List.head?_cons]
    rcases hk e he with ho | ho
    · rw [List.flatMap_cons, List.filter_cons_of_pos (by simpa using ho)]
      rfl
    · have hall : ∀ f ∈ e :: l, owner p f.src.seg = owner p e.src.seg := by
        intro f hf
        rw [← hl] at hf
        obtain ⟨hf1, hf2⟩ := List.mem_filter.1 hf
        exact ho f hf1 (by simpa using hf2)
      apply head_flatMap
      · intro i _
        by_cases hi : owner p e.src.seg = i
        · right
          rw [List.filter_cons_of_pos (by simpa using hi)]
          rfl
        · left
          rw [List.filter_eq_nil_iff]
          intro f hf
          rw [hall f hf]
          simpa using hi
      · refine ⟨owner p e.src.seg, ?_, ?_⟩
        · by_cases hh : owner p e.src.seg = homeOf p.nClusterNodes len k
          · rw [hh]; simp
          · refine List.mem_cons_of_mem _ (h2.mem_iff.2 (DirectNet.mem_peers.2 ⟨owner_lt h.wf _, Or.inr hh⟩))
        · rw [List.filter_cons_of_pos (by simp)]
          simp

/-- A schedule in which node `j` processes the message of node `o` first. -/
theorem direct_first {P : Type} {n : Nat} (f : Nat → Nat → P) {j o : Nat} (hj : j < n) (ho : o < n) (hne : o ≠ j) :
    ∃ s, DirectNet.ReachableWith false n f s ∧ (∀ i < n, s.done i = 1) ∧ ((s.processed j).map DMsg.src).head? = some o := by
  have hmem : ⟨o, j, f o j⟩ ∈ (DirectNet.peers false n o).map (fun i => DMsg.mk o i (f o i)) :=
    List.mem_map.2 ⟨j, DirectNet.mem_peers.2 ⟨hj, Or.inr (Ne.symm hne)⟩, rfl⟩
  obtain ⟨pre, post, hp⟩ := List.append_of_mem hmem
  have r1 : DirectNet.ReachableWith false n f _ := .step .init (.start _ o ho rfl)
  have r2 := r1.step (.start _ j hj (by simp [DirectNet.startStep, DirectNet.init, Function.update_of_ne (Ne.symm hne)]))
  have r3 := r2.step (.handle _ pre (post ++ (DirectNet.peers false n j).map (fun i => DMsg.mk j i (f j i))) ⟨o, j, f o j⟩ (by
    simp [DirectNet.startStep, DirectNet.init, Proto.start, Proto.resolveBuffer, Function.update_of_ne (Ne.symm hne), hp]))
  obtain ⟨s, ⟨h1, h2⟩, h3⟩ := run_to_end (R := fun s => DirectNet.ReachableWith false n f s ∧
      ((s.processed j).map DMsg.src).head? = some o) (Done := fun s => ∀ i < n, s.done i = 1) (DirectNet.remaining n)
    (fun s hs => by
      obtain ⟨hr, hh⟩ := hs
      have next : ∀ t, DirectNet.StepWith false n f s t → ∃ t, (DirectNet.ReachableWith false n f t ∧
          ((t.processed j).map DMsg.src).head? = some o) ∧ DirectNet.remaining n t < DirectNet.remaining n s := by
        intro t ht
        refine ⟨t, ⟨.step hr ht, ?_⟩, DirectNet.C17_terminates hr.toReachable ht.toStep⟩
        cases ht with
        | start i hi h => exact hh
        | handle pre post m h =>
          rcases hrc : (s.proto m.dst).received m with ⟨_ | _, q⟩
          · simpa [DirectNet.handleStep, hrc] using hh
          · simp only [DirectNet.handleStep, hrc]
            by_cases hd : m.dst = j
            · subst hd
              rw [Function.update_self, List.map_append, List.head?_append, hh]
              rfl
            · rw [Function.update_of_ne (Ne.symm hd)]
              exact hh
      by_cases hall : ∀ i < n, s.started i = true
      · cases hp : s.pool with
        | nil => exact Or.inl (fun j hj => DirectNet.C17_quiescent_done hr.toReachable hall hp hj)
        | cons m post => exact Or.inr (next _ (.handle s [] post m hp))
      · push Not at hall
        obtain ⟨i, hi, h⟩ := hall
        exact Or.inr (next _ (.start s i hi (by simpa using h)))) ⟨r3, by
      have hrun : ((DirectNet.startStep false n (DirectNet.startStep false n (DirectNet.init f) o (f o)) j (f j)).proto j).isRunning =
          true := by
        simp only [DirectNet.startStep, Function.update_self, Proto.isRunning, Proto.sentN_nReceived, Proto.sentN_nTotal,
          Function.update_of_ne (Ne.symm hne)]
        simp [Proto.start, Proto.resolveBuffer, DirectNet.init, DirectNet.total]
        omega
      simp only [DirectNet.handleStep, Proto.received, hrun, if_true, Function.update_self]
      simp [DirectNet.startStep, DirectNet.init]⟩
  exact ⟨s, h1, h3, h2⟩

/-- C62 (order, exact): if neither case holds, there is a schedule of the transposition after which another edge comes first. -/
theorem C62_first_fails (hc : OneLabelEach clu) (h : Graphed clu coord p len pts sg it nodes qn es edges tr)
    (hb : ∀ i, i + 1 < p.nClusterNodes → BorderOK p pts i) {k : Nat}
    (hk : ¬ FirstFixed p len (pairs (walk p.rate (labels p nodes) (allSteps p pts))) k) :
    ∃ tr', Graphed clu coord p len pts sg it nodes qn es edges tr' ∧
      (((List.range p.nClusterNodes).flatMap tr'.store).filter (fun e => e.toId = k)).head? ≠ (into p nodes pts k).head? := by
  unfold FirstFixed at hk
  push Not at hk
  obtain ⟨e, he, h1, f, hf, hfk, h2⟩ := hk
  have hs := h.several
  have hlt : homeOf p.nClusterNodes len k < p.nClusterNodes := by unfold homeOf; omega
  have hfi : f ∈ into p nodes pts k := List.mem_filter.2 ⟨hf, by simpa using hfk⟩
  have hei : (into p nodes pts k).head? = some e := he
  -- the first of the edges of a node other than the creator of `e` is not `e`
  have hno : ∀ i, i ≠ owner p e.src.seg → ∀ r, (into p nodes pts k).filter (fun x => owner p x.src.seg = i) ≠ [] →
      ((into p nodes pts k).filter (fun x => owner p x.src.seg = i) ++ r).head? ≠ some e := by
    intro i hi r hne hh
    obtain ⟨a, l, hl⟩ := List.exists_cons_of_ne_nil hne
    rw [hl] at hh
    obtain rfl : a = e := Option.some.inj hh
    have : a ∈ (into p nodes pts k).filter (fun x => owner p x.src.seg = i) := by rw [hl]; simp
    exact hi (by simpa using (List.mem_filter.1 this).2 : owner p a.src.seg = i).symm
  have hmem : ∀ g ∈ into p nodes pts k, (into p nodes pts k).filter (fun x => owner p x.src.seg = owner p g.src.seg) ≠ [] :=
    fun g hg hn => by
      have : g ∈ (into p nodes pts k).filter (fun x => owner p x.src.seg = owner p g.src.seg) :=
        List.mem_filter.2 ⟨hg, by simp⟩
      rw [hn] at this
      cases this
  by_cases hown : (into p nodes pts k).filter (fun x => owner p x.src.seg = homeOf p.nClusterNodes len k) = []
  · have hne : owner p f.src.seg ≠ homeOf p.nClusterNodes len k := fun heq => hmem f hfi (by rw [heq]; exact hown)
    obtain ⟨pl, hpl, has, hnet⟩ := h.transposition
    obtain ⟨s, s1, s2, s3⟩ := direct_first tr.assigned hlt (owner_lt h.wf f.src.seg) hne
    have hg : Graphed clu coord p len pts sg it nodes qn es edges ⟨tr.assigned, s⟩ :=
      { h with transposition := ⟨pl, hpl, has, s1⟩, transposed := s2 }
    refine ⟨_, hg, ?_⟩
    rw [(hg.order hc hb k).1, hei, List.flatMap_cons, hown, List.nil_append]
    obtain ⟨l, hl⟩ : ∃ l, (s.processed (homeOf p.nClusterNodes len k)).map DMsg.src = owner p f.src.seg :: l := by
      cases hc : (s.processed (homeOf p.nClusterNodes len k)).map DMsg.src with
      | nil => rw [hc] at s3; cases s3
      | cons a l => rw [hc] at s3; exact ⟨l, by rw [Option.some.inj s3]⟩
    rw [hl, List.flatMap_cons]
    exact hno _ h2 _ (hmem f hfi)
  · refine ⟨tr, h, ?_⟩
    rw [(h.order hc hb k).1, hei, List.flatMap_cons]
    exact hno _ (Ne.symm h1) _ hown

theorem walk_relabel (rate : Nat) (lab lab' : Nat → Nat → Nat) (ts : List Trans) :
    walk rate lab' ts = (walk rate lab ts).map (fun v => node lab' v.fromId v.seg) := by
  unfold walk stepWalk
  rw [List.map_flatMap]
  simp only [List.map_map]
  rfl

/-- The order does not depend on the clusters. -/
theorem FirstFixed.relabel {rate : Nat} {lab lab' : Nat → Nat → Nat} {ts : List Trans} {k : Nat}
    (h : FirstFixed p len (pairs (walk rate lab ts)) k) : FirstFixed p len (pairs (walk rate lab' ts)) k := by
  unfold FirstFixed at h ⊢
  rw [walk_relabel rate lab lab', pairs_map, List.filter_map, List.head?_map]
  intro e he
  obtain ⟨e', he', rfl⟩ := Option.map_eq_some_iff.1 he
  rcases h e' he' with h1 | h1
  · exact Or.inl h1
  · right
    intro f hf hfk
    obtain ⟨f', hf', rfl⟩ := List.mem_map.1 hf
    exact h1 f' hf' hfk

/-- C62: for every cluster of at least two nodes, all points as described by `Complete` and a clustering which does not depend on
the order of its input: if of the edges which end at the same point the first one is fixed (`FirstFixed`), and the walk does not
begin with the step of C40, then there is a complete run, and every complete run, in every schedule of every stage (rotations
without the race of C18), delivers at every node the vector which a run on one node with the same points delivers in every schedule. -/
theorem C62_same_scores {P : X → Prop} (hf : OrderFree P clu) (hP : ∀ x, P (coord x)) (h : Complete clu coord p len pts)
    (hfirst : ∀ k, p.queryLength ≤ k → FirstFixed p len (pairs (walk p.rate (fun _ _ => 0) (allSteps p pts))) k)
    (h40 : ∀ t ∈ (allSteps p pts).head?, ¬ (t.src.seg + 2 = p.rate ∧ t.dst.seg < t.src.seg)) (mirror : Pt → Pt) :
    (∃ sg it nodes qn es edges tr deg wt m cnt ov job par sub,
      Distributed clu coord p len pts sg it nodes qn es edges tr deg wt m cnt ov job par sub) ∧
    ∀ sg it nodes qn es edges tr deg wt m cnt ov job par sub,
      Distributed clu coord p len pts sg it nodes qn es edges tr deg wt m cnt ov job par sub →
      ∀ i < p.nClusterNodes,
      ∃ s0, localRun clu coord mirror { p with nClusterNodes := 1, selfCorrection := false } len (series p.nClusterNodes pts) = some s0 ∧
        ∀ s, ParScore.Reachable s0 s → s.pool = [] →
          delivered s = [SubScores.finalize p.nClusterNodes (SubScores.subscores sub i)] := by
  refine ⟨C62_complete h, fun sg it nodes qn es edges tr deg wt m cnt ov job par sub hd i hi => ?_⟩
  exact C62_equal hf hP h.oneLabel hd h.borders (fun i hi => h.overlapEdge _ hi) (h.innerEdge _) h.query h.threads h.positions
    h.lastPart (fun k hk => C62_first h.oneLabel hd.toGraphed h.borders (hfirst k hk).relabel) h40 hi mirror

end

/-! ### Concrete instance: two nodes, a walk around the circle -/

def exD : Parameters := ⟨4, 1, 2, 8, 2, 2, false⟩

def exDPts : Nat → List Pt
  | 0 => [⟨0, 1⟩, ⟨1, 3⟩, ⟨2, 5⟩, ⟨3, 6⟩]
  | 1 => [⟨4, 6⟩, ⟨5, 7⟩, ⟨6, 1⟩, ⟨7, 3⟩]
  | _ => []

theorem exD_complete : Complete exClu (fun x => x.1.src.id) exD 8 exDPts where
  wf := by decide
  several := by decide
  seg := by decide
  ids := by decide
  size := by
    intro i hi
    obtain rfl : i = 0 := by simp [exD] at hi; omega
    rfl
  bound := by decide
  nodes_len := by decide
  valid := by decide
  borders := by
    intro i hi
    obtain rfl : i = 0 := by simp [exD] at hi; omega
    intro pr hpr f hf
    have h1 : pr = ⟨⟨2, 5⟩, ⟨3, 6⟩⟩ := by
      have : (part exD exDPts 0).getLast? = some ⟨⟨2, 5⟩, ⟨3, 6⟩⟩ := by decide
      rw [this] at hpr
      exact (Option.some.inj hpr).symm
    have h2 : f = ⟨⟨4, 6⟩, ⟨5, 7⟩⟩ := by
      have : (part exD exDPts 1).head? = some ⟨⟨4, 6⟩, ⟨5, 7⟩⟩ := by decide
      rw [this] at hf
      exact (Option.some.inj hf).symm
    subst h1 h2
    exact fun hc => absurd hc (by decide)
  clusters := by intro s _ xs _ _ h; cases h
  oneLabel := exClu_labels
  overlaps := by
    intro i hi
    obtain rfl : i = 0 := by simp [exD] at hi; omega
    decide
  inner := by decide
  query := by decide
  threads := by decide
  positions := by decide
  lastPart := by decide

theorem exD_fixed : ∀ k, exD.queryLength ≤ k →
    FirstFixed exD 8 (pairs (walk exD.rate (fun _ _ => 0) (allSteps exD exDPts))) k := by
  intro k hk e he
  have hE : pairs (walk exD.rate (fun _ _ => 0) (allSteps exD exDPts)) =
      [⟨⟨2, 0, 0⟩, ⟨3, 0, 0⟩⟩, ⟨⟨3, 0, 0⟩, ⟨4, 0, 1⟩⟩, ⟨⟨4, 0, 1⟩, ⟨5, 0, 1⟩⟩, ⟨⟨5, 0, 1⟩, ⟨6, 0, 2⟩⟩, ⟨⟨6, 0, 2⟩, ⟨7, 0, 4⟩⟩,
        ⟨⟨7, 0, 4⟩, ⟨0, 0, 5⟩⟩, ⟨⟨0, 0, 5⟩, ⟨1, 0, 5⟩⟩, ⟨⟨1, 0, 5⟩, ⟨2, 0, 6⟩⟩, ⟨⟨2, 0, 6⟩, ⟨3, 0, 6⟩⟩] := by decide
  rw [hE] at he ⊢
  by_cases h8 : 8 ≤ k
  · exfalso
    rw [List.filter_eq_nil_iff.2] at he
    · cases he
    · intro x hx hk
      have : x.toId < 8 := by
        clear hk
        revert x
        decide
      simp at hk
      omega
  · obtain ⟨j, rfl⟩ : ∃ j : Fin 8, k = j.val := ⟨⟨k, by omega⟩, rfl⟩
    revert e
    revert j
    decide

theorem exClu_orderFree : OrderFree (fun _ => True) exClu := by
  intro xs ys _ _ _
  refine ⟨by simp [exClu], ?_⟩
  rintro ls ls' h h' i j i' j' a b ha hb ha' hb'
  rw [← Option.some.inj h, ← Option.some.inj h']
  rw [List.getElem?_map, List.getElem?_map, List.getElem?_map, List.getElem?_map, ha, hb, ha', hb']

/-- The hypotheses of `C62_same_scores` hold for a walk around the circle. -/
example (mirror : Pt → Pt) := C62_same_scores (P := fun _ => True) (clu := exClu) (coord := fun x => x.1.src.id) (p := exD)
  (len := 8) (pts := exDPts) exClu_orderFree (fun _ => trivial) exD_complete exD_fixed (by decide) mirror

/-! ### The scores differ -/

/-- With a clustering into one group all labels are 0. -/
theorem labels_zero {coord : Inter → Nat} {p : Parameters} {len : Nat} {pts : Nat → List Pt} {sg : SegNet} {it : InterNet}
    {nodes : Nat → List Node} {qn : QNet} {es edges : Nat → List Edge} {tr : TransNet}
    (h : Graphed exClu coord p len pts sg it nodes qn es edges tr) :
    walk p.rate (labels p nodes) (allSteps p pts) = walk p.rate (fun _ _ => 0) (allSteps p pts) := by
  unfold walk
  apply List.flatMap_congr
  intro t ht
  unfold stepWalk
  apply List.map_congr_left
  intro s hs
  have hslt : s < p.rate := by
    obtain ⟨hf, hd, hval⟩ := h.points.valid t ht
    obtain ⟨k, _, he, _⟩ := Trans.C30_segments t hf hd hval
    rw [he] at hs
    obtain ⟨j, _, rfl⟩ := List.mem_map.1 hs
    exact Nat.mod_lt _ (by omega)
  have hj := owner_lt h.wf s
  obtain ⟨g1, -⟩ := h.store hj
  have hmem : (t, s) ∈ (it.store p (owner p s)).filter (fun x => x.2 = s) := by
    refine List.mem_filter.2 ⟨g1.mem_iff.2 (List.mem_filter.2 ⟨?_, by simp⟩), by simp⟩
    exact List.mem_flatMap.2 ⟨t, ht, List.mem_map_of_mem hs⟩
  have hlow : p.rate / p.nClusterNodes * owner p s ≤ s := by
    have : owner p s ≤ s / (p.rate / p.nClusterNodes) := Nat.min_le_left _ _
    calc p.rate / p.nClusterNodes * owner p s ≤ p.rate / p.nClusterNodes * (s / (p.rate / p.nClusterNodes)) :=
          Nat.mul_le_mul_left _ this
      _ ≤ s := Nat.mul_div_le _ _
  have hl := estimateNodes_labels exClu_labels h.wf hj (h.estimate _ hj)
    (cluster_of_localNodes ((h.run exClu_labels).localNodes hj)) hlow hslt
  have : labels p nodes t.src.id s = 0 := by
    have hz : ∀ xs : List Inter, segmentLabels exClu coord xs = some (xs.map (fun _ => 0)) := by
      intro xs
      match xs with
      | [] => rfl
      | [_] => rfl
      | _ :: _ :: _ => simp [segmentLabels, exClu, Function.comp_def]
    rw [hz, Option.some.injEq, List.map_inj_left] at hl
    exact (hl _ hmem).symm
  unfold node
  rw [this]

def exO : Parameters := ⟨4, 1, 2, 8, 1, 2, false⟩

def exOPts : Nat → List Pt
  | 0 => [⟨0, 1⟩, ⟨1, 3⟩, ⟨2, 5⟩, ⟨3, 6⟩]
  | 1 => [⟨4, 1⟩, ⟨5, 1⟩, ⟨6, 5⟩, ⟨7, 4⟩]
  | _ => []

theorem exO_complete : Complete exClu (fun x => x.1.src.id) exO 8 exOPts where
  wf := by decide
  several := by decide
  seg := by decide
  ids := by decide
  size := by
    intro i hi
    obtain rfl : i = 0 := by simp [exO] at hi; omega
    rfl
  bound := by decide
  nodes_len := by decide
  valid := by decide
  borders := by
    intro i hi
    obtain rfl : i = 0 := by simp [exO] at hi; omega
    intro pr hpr f hf
    have h1 : pr = ⟨⟨3, 6⟩, ⟨4, 1⟩⟩ := by
      have : (part exO exOPts 0).getLast? = some ⟨⟨3, 6⟩, ⟨4, 1⟩⟩ := by decide
      rw [this] at hpr
      exact (Option.some.inj hpr).symm
    have h2 : f = ⟨⟨5, 1⟩, ⟨6, 5⟩⟩ := by
      have : (part exO exOPts 1).head? = some ⟨⟨5, 1⟩, ⟨6, 5⟩⟩ := by decide
      rw [this] at hf
      exact (Option.some.inj hf).symm
    subst h1 h2
    exact fun hc => absurd hc (by decide)
  clusters := by intro s _ xs _ _ h; cases h
  oneLabel := exClu_labels
  overlaps := by
    intro i hi
    obtain rfl : i = 0 := by simp [exO] at hi; omega
    decide
  inner := by decide
  query := by decide
  threads := by decide
  positions := by decide
  lastPart := by decide

/-- The edges in the order of the walk. -/
def exWalk : List Edge := pairs (walk exO.rate (fun _ _ => 0) (allSteps exO exOPts))

/-- The edges in the order after the transposition. -/
def exMoved : List Edge := (List.range 8).flatMap (fun k => [homeOf 2 8 k, 1 - homeOf 2 8 k].flatMap
  (fun i => (exWalk.filter (fun e => e.toId = k)).filter (fun e => owner exO e.src.seg = i)))

theorem exMoved_differs : normalize (vector exMoved 2 6) ≠ normalize (vector exWalk 2 6) := by
  decide +kernel

/-- C62 (what fails): there are points and parameters for which everything but `FirstFixed` holds, a run on two nodes can be
completed, and every complete run delivers other scores than the run on one node with the same points. -/
theorem C62_order_counterexample : ∃ (clu : List Nat → Option (List Nat)) (coord : Inter → Nat) (p : Parameters) (len : Nat)
    (pts : Nat → List Pt), Complete clu coord p len pts ∧ OrderFree (fun _ => True) clu ∧
    (∀ t ∈ (allSteps p pts).head?, ¬ (t.src.seg + 2 = p.rate ∧ t.dst.seg < t.src.seg)) ∧
    (∃ sg it nodes qn es edges tr deg wt m cnt ov job par sub,
      Distributed clu coord p len pts sg it nodes qn es edges tr deg wt m cnt ov job par sub) ∧
    ∀ sg it nodes qn es edges tr deg wt m cnt ov job par sub,
      Distributed clu coord p len pts sg it nodes qn es edges tr deg wt m cnt ov job par sub →
      ∀ i < p.nClusterNodes,
      ∃ s0, localRun clu coord id { p with nClusterNodes := 1, selfCorrection := false } len (series p.nClusterNodes pts) = some s0 ∧
        ∀ s, ParScore.Reachable s0 s → s.pool = [] →
          delivered s ≠ [SubScores.finalize p.nClusterNodes (SubScores.subscores sub i)] := by
  have h40 : ∀ t ∈ (allSteps exO exOPts).head?, ¬ (t.src.seg + 2 = exO.rate ∧ t.dst.seg < t.src.seg) := by decide
  refine ⟨exClu, fun x => x.1.src.id, exO, 8, exOPts, exO_complete, exClu_orderFree, h40, C62_complete exO_complete, ?_⟩
  intro sg it nodes qn es edges tr deg wt m cnt ov job par sub hd i hi
  have hc := exO_complete
  have hw := labels_zero hd.toGraphed
  obtain ⟨s0, h1, h2⟩ := hd.toGraphed.local exClu_orderFree (fun _ => trivial) exClu_labels hc.query hc.threads hc.lastPart h40 id
  refine ⟨s0, h1, fun s hr hp heq => ?_⟩
  rw [h2 s hr hp, C62_distributed exClu_labels hd hc.borders (fun i hi => hc.overlapEdge _ hi) (hc.innerEdge _) hc.query hc.threads
    hc.positions hc.lastPart hi, List.singleton_inj, hw] at heq
  obtain ⟨-, g1, g2⟩ := hd.toGraphed.graph exClu_labels hc.borders
  rw [hw] at g1
  have hord : ∀ k, ((List.range exO.nClusterNodes).flatMap tr.store).filter (fun e => e.toId = k) =
      [homeOf 2 8 k, 1 - homeOf 2 8 k].flatMap
        (fun i => (exWalk.filter (fun e => e.toId = k)).filter (fun e => owner exO e.src.seg = i)) := by
    intro k
    obtain ⟨o1, o2⟩ := hd.toGraphed.order exClu_labels hc.borders k
    have hpeer : DirectNet.peers false exO.nClusterNodes (homeOf exO.nClusterNodes 8 k) = [1 - homeOf 2 8 k] := by
      have : homeOf 2 8 k < 2 := by unfold homeOf; omega
      show DirectNet.peers false 2 (homeOf 2 8 k) = _
      generalize homeOf 2 8 k = h at this
      revert this h
      decide
    rw [hpeer] at o2
    rw [o1, List.perm_singleton.1 o2]
    unfold into
    rw [hw]
    rfl
  have hmoved : vector ((List.range exO.nClusterNodes).flatMap tr.store) 2 6 = vector exMoved 2 6 := by
    have hperm : exMoved.Perm exWalk := by decide
    refine vector_congr (g1.trans hperm.symm) g2 (by decide) (by decide) ?_ 6
    intro k _
    rw [hord k]
    by_cases h8 : 8 ≤ k
    · have e1 : exWalk.filter (fun e => e.toId = k) = [] := by
        rw [List.filter_eq_nil_iff]
        intro x hx hk
        have : x.toId < 8 := by clear hk; revert x; decide
        simp at hk
        omega
      have e2 : exMoved.filter (fun e => e.toId = k) = [] := List.perm_nil.1 (by rw [← e1]; exact hperm.filter _)
      rw [e1, e2]
      rfl
    · obtain ⟨j, rfl⟩ : ∃ j : Fin 8, k = j.val := ⟨⟨k, by omega⟩, rfl⟩
      have : ∀ j : Fin 8, ([homeOf 2 8 j, 1 - homeOf 2 8 j].flatMap
          (fun i => (exWalk.filter (fun e => e.toId = j.val)).filter (fun e => owner exO e.src.seg = i))).head? =
          (exMoved.filter (fun e => e.toId = j.val)).head? := by decide
      exact this j
  exact exMoved_differs (by rw [← hmoved]; exact heq.symm)

end Pipeline
end S2G
