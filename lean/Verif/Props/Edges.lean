import Verif.Model.Edges
import Verif.Props.Transition
import Verif.Props.Parameters

/-!
# C39, C40, C41: edges of one step and of the whole series
-/

namespace S2G
namespace Edges

/-- Specification: the edges between consecutive nodes of a walk. -/
def pairs : List Node → List Edge
  | a :: b :: l => ⟨a, b⟩ :: pairs (b :: l)
  | _ => []

theorem pairs_append (l : List Node) (b : Node) (r : List Node) :
    pairs (l ++ b :: r) = pairs (l ++ [b]) ++ pairs (b :: r) := by
  induction l with
  | nil => simp [pairs]
  | cons a l ih =>
    cases l with
    | nil => simp [pairs]
    | cons c l => simp only [List.cons_append, pairs] at ih ⊢; rw [ih]

theorem pairs_head (a : Node) (b : Node) (l : List Node) : pairs (a :: b :: l) = ⟨a, b⟩ :: pairs (b :: l) := rfl

theorem pairs_head?_src (a : Node) (l : List Node) : ((pairs (a :: l)).head?.map Edge.src).getD ((a :: l).getLast (by simp)) = a := by
  cases l with
  | nil => rfl
  | cons b l => rfl

theorem pairs_getLast? (a b : Node) (l : List Node) :
    (pairs (a :: b :: l)).getLast?.map Edge.dst = some ((b :: l).getLast (by simp)) := by
  induction l generalizing a b with
  | nil => rfl
  | cons c l ih =>
    rw [pairs_head, pairs_head, List.getLast?_cons_cons, ← pairs_head, ih b c]
    rfl

theorem pairs_snoc {l : List Node} {e : Edge} (h : (pairs l).getLast? = some e) (v : Node) :
    pairs (l ++ [v]) = pairs l ++ [⟨e.dst, v⟩] := by
  induction l with
  | nil => simp [pairs] at h
  | cons a l ih =>
    cases l with
    | nil => simp [pairs] at h
    | cons b l =>
      cases l with
      | nil =>
        simp only [pairs, List.getLast?_singleton, Option.some.injEq] at h
        subst h
        rfl
      | cons c l =>
        rw [pairs_head, pairs_head, List.getLast?_cons_cons] at h
        have := ih (by rw [pairs_head]; exact h)
        simp only [List.cons_append] at this ⊢
        rw [pairs_head, this]
        rfl

/-- Consecutive segments. -/
def Contig (l : List Node) : Prop := l.IsChain (fun v w => w.seg = v.seg + 1)

theorem addNodes_cons (o : Orderer) (prev : Option Node) (v : Node) (l : List Node) :
    addNodes o prev (v :: l) = addNodes (o.addNode prev v) (some v) l := rfl

theorem addNode_later {o : Orderer} (h : o.first.isSome) (v w : Node) :
    o.addNode (some v) w = if w.seg ≠ v.seg + 1 then (o.checkForGap v w).1 else o.push ⟨v, w⟩ := by
  unfold Orderer.addNode
  have : o.first.isNone = false := by cases hf : o.first <;> simp_all
  rw [this, Bool.and_false]
  simp only [Bool.false_eq_true, if_false, Orderer.checkForGap]
  split <;> simp

theorem addNodes_small {o : Orderer} (h : o.first.isSome) (hl : o.last = none) (v : Node) (l : List Node)
    (hc : Contig (v :: l)) :
    addNodes o (some v) l = ({ o with small := o.small ++ pairs (v :: l) }, some ((v :: l).getLast (by simp))) := by
  induction l generalizing v o with
  | nil => simp [addNodes, pairs]
  | cons w l ih =>
    rw [addNodes_cons, addNode_later h, if_neg (by simpa using (List.isChain_cons_cons.1 hc).1)]
    have hp : o.push ⟨v, w⟩ = { o with small := o.small ++ [⟨v, w⟩] } := by simp [Orderer.push, hl]
    rw [hp, ih (by exact h) (by exact hl) w (List.isChain_cons_cons.1 hc).2]
    simp [pairs]

theorem addNodes_large {o : Orderer} (h : o.first.isSome) (hl : o.last.isSome) (v : Node) (l : List Node)
    (hc : Contig (v :: l)) :
    addNodes o (some v) l = ({ o with large := o.large ++ pairs (v :: l) }, some ((v :: l).getLast (by simp))) := by
  induction l generalizing v o with
  | nil => simp [addNodes, pairs]
  | cons w l ih =>
    rw [addNodes_cons, addNode_later h, if_neg (by simpa using (List.isChain_cons_cons.1 hc).1)]
    have hp : o.push ⟨v, w⟩ = { o with large := o.large ++ [⟨v, w⟩] } := by
      obtain ⟨x, hx⟩ := Option.isSome_iff_exists.1 hl
      simp [Orderer.push, hx]
    rw [hp, ih (by exact h) (by exact hl) w (List.isChain_cons_cons.1 hc).2]
    simp [pairs]

theorem sameOpt_self (p : Option Node) : sameOpt p p = true := by
  cases p <;> simp [sameOpt, sameNode]

theorem addNodes_append (o : Orderer) (prev : Option Node) (l r : List Node) :
    addNodes o prev (l ++ r) = addNodes (addNodes o prev l).1 (addNodes o prev l).2 r := by
  unfold addNodes
  rw [List.foldl_append]

theorem addNodes_first (prev : Option Node) (v : Node) (l : List Node) (hc : Contig (v :: l)) :
    addNodes { prevTrans := prev } prev (v :: l) =
      ({ prevTrans := prev, small := pairs (v :: l), first := some v }, some ((v :: l).getLast (by simp))) := by
  rw [addNodes_cons]
  have : Orderer.addNode { prevTrans := prev } prev v = { prevTrans := prev, first := some v } := by
    simp [Orderer.addNode, sameOpt_self]
  rw [this, addNodes_small rfl rfl v l hc]
  simp

/-- Nodes in consecutive segments: the edges are the path through them, in this order. -/
theorem stepEdges_contig (prev : Option Node) (v : Node) (l : List Node) (hc : Contig (v :: l)) :
    stepEdges prev (v :: l) = some (some ((v :: l).getLast (by simp)), pairs (prev.toList ++ v :: l)) := by
  unfold stepEdges
  rw [addNodes_first prev v l hc]
  cases prev <;> simp [Orderer.intoVec, pairs]

/-- Two blocks of consecutive segments with a gap between them: the second block comes first in the path. -/
theorem stepEdges_gap (prev : Option Node) (v : Node) (l : List Node) (w : Node) (r : List Node)
    (hc : Contig (v :: l)) (hc' : Contig (w :: r)) (hg : w.seg ≠ ((v :: l).getLast (by simp)).seg + 1) :
    stepEdges prev ((v :: l) ++ (w :: r)) =
      if prev = none ∧ r = [] then none
      else some (some ((v :: l).getLast (by simp)), pairs (prev.toList ++ (w :: r) ++ (v :: l))) := by
  unfold stepEdges
  rw [addNodes_append, addNodes_first prev v l hc]
  dsimp only
  rw [addNodes_cons, addNode_later (by rfl), if_pos hg]
  have hgap : (Orderer.checkForGap { prevTrans := prev, small := pairs (v :: l), first := some v }
      ((v :: l).getLast (by simp)) w).1 =
      { prevTrans := prev, small := pairs (v :: l), first := some v, last := some ((v :: l).getLast (by simp)),
        middle := some v, large := (prev.map (fun x => (⟨x, w⟩ : Edge))).toList } := by
    unfold Orderer.checkForGap
    rw [if_pos hg]
    have := pairs_head?_src v l
    simp [this]
  rw [hgap, addNodes_large rfl rfl w r hc']
  have hpairs : pairs (w :: r ++ v :: l) = pairs (w :: r ++ [v]) ++ pairs (v :: l) := pairs_append _ _ _
  cases prev with
  | none =>
    cases r with
    | nil => simp [Orderer.intoVec, pairs]
    | cons x r =>
      obtain ⟨e, he, hd⟩ := Option.map_eq_some_iff.1 (pairs_getLast? w x r)
      have hsnoc := pairs_snoc he v
      simp only [Orderer.intoVec, Orderer.push, Option.map_none, Option.toList_none, List.nil_append, he]
      simp only [Option.bind_eq_bind, Option.bind_some]
      rw [← hsnoc, ← pairs_append]
      simp
  | some p =>
    obtain ⟨e, he, hd⟩ := Option.map_eq_some_iff.1 (pairs_getLast? p w r)
    have hsnoc := pairs_snoc he v
    have h2 : ([(⟨p, w⟩ : Edge)] ++ pairs (w :: r)) = pairs (p :: w :: r) := rfl
    simp only [Orderer.intoVec, Orderer.push, Option.map_some, Option.toList_some, h2, he]
    simp only [Option.bind_eq_bind, Option.bind_some]
    rw [← hsnoc, ← pairs_append]
    simp

theorem stepEdges_contig' (prev : Option Node) {l : List Node} (hl : l ≠ []) (hc : Contig l) :
    stepEdges prev l = some (l.getLast?, pairs (prev.toList ++ l)) := by
  cases l with
  | nil => exact absurd rfl hl
  | cons v l => rw [stepEdges_contig prev v l hc, List.getLast?_eq_some_getLast (by simp)]

theorem stepEdges_gap' (prev : Option Node) {l r : List Node} (hl : l ≠ []) (hr : r ≠ []) (hc : Contig l)
    (hc' : Contig r) (hg : ∀ x ∈ l.getLast?, ∀ y ∈ r.head?, y.seg ≠ x.seg + 1) :
    stepEdges prev (l ++ r) =
      if prev = none ∧ r.length = 1 then none else some (l.getLast?, pairs (prev.toList ++ (r ++ l))) := by
  cases l with
  | nil => exact absurd rfl hl
  | cons v l =>
    cases r with
    | nil => exact absurd rfl hr
    | cons w r =>
      rw [stepEdges_gap prev v l w r hc hc' (hg _ (List.getLast?_eq_some_getLast (by simp)) _ rfl),
        List.getLast?_eq_some_getLast (by simp)]
      by_cases c : prev = none ∧ r = []
      · rw [if_pos c, if_pos ⟨c.1, by rw [c.2]; rfl⟩]
      · rw [if_neg c, if_neg (fun h => c ⟨h.1, by simpa using h.2⟩), List.append_assoc]

/-! ### The nodes of one step -/

/-- The node of step `pid` in segment `s`, with cluster label `lab pid s`. -/
def node (lab : Nat → Nat → Nat) (pid s : Nat) : Node := ⟨s, lab pid s, pid⟩

/-- Specification: the nodes a step visits, in direction of travel. -/
def stepWalk (rate : Nat) (lab : Nat → Nat → Nat) (t : Trans) : List Node :=
  (t.intersectionSegments rate).map (node lab t.src.id)

theorem segs_range {rate : Nat} (t : Trans) (hf : t.src.seg < rate) (ht : t.dst.seg < rate)
    (hv : t.isValid rate = true) :
    (t.src.seg < t.dst.seg ∧
      t.intersectionSegments rate = List.range' (t.src.seg + 1) (t.dst.seg - t.src.seg)) ∨
    (t.dst.seg < t.src.seg ∧ t.intersectionSegments rate =
        List.range' (t.src.seg + 1) (rate - 1 - t.src.seg) ++ List.range' 0 (t.dst.seg + 1) ∧
      2 * (rate - t.src.seg + t.dst.seg) ≤ rate) := by
  obtain ⟨k, ⟨k1, k2, k3⟩, h, -, -⟩ := Trans.C30_segments t hf ht hv
  rw [Trans.mod_cases hf (by omega)] at k3
  have hk : ∀ j < k, (t.src.seg + (j + 1)) % rate =
      if t.src.seg + (j + 1) < rate then t.src.seg + (j + 1) else t.src.seg + (j + 1) - rate := by
    intro j hj
    exact Trans.mod_cases hf (by omega)
  split at k3
  · left
    refine ⟨by omega, ?_⟩
    rw [h, List.range'_eq_map_range, show t.dst.seg - t.src.seg = k by omega]
    apply List.map_congr_left
    intro j hj
    rw [List.mem_range] at hj
    rw [hk j hj, if_pos (by omega)]
    omega
  · right
    refine ⟨by omega, ?_, by omega⟩
    rw [h, show k = (rate - 1 - t.src.seg) + (t.dst.seg + 1) by omega, List.range_add, List.map_append, List.map_map,
      List.range'_eq_map_range, List.range'_eq_map_range]
    congr 1
    · apply List.map_congr_left
      intro j hj
      rw [List.mem_range] at hj
      rw [hk j (by omega), if_pos (by omega)]
      omega
    · apply List.map_congr_left
      intro j hj
      rw [List.mem_range] at hj
      have := hk (rate - 1 - t.src.seg + j) (by omega)
      rw [if_neg (by omega)] at this
      simp only [Function.comp_apply]
      omega

theorem contig_range' (lab : Nat → Nat → Nat) (pid a n : Nat) : Contig ((List.range' a n).map (node lab pid)) := by
  unfold Contig
  rw [List.isChain_map]
  induction n generalizing a with
  | zero => simp
  | succ n ih =>
    cases n with
    | zero => simp
    | succ n =>
      rw [List.range'_succ, List.range'_succ, List.isChain_cons_cons, ← List.range'_succ]
      exact ⟨rfl, ih (a + 1)⟩

theorem sorted_range' (lab : Nat → Nat → Nat) (pid a n : Nat) :
    ((List.range' a n).map (node lab pid)).Pairwise (fun v w => v.seg ≤ w.seg) := by
  rw [List.pairwise_map]
  exact List.pairwise_le_range'

theorem getLast?_nodes (lab : Nat → Nat → Nat) (pid a n : Nat) :
    ((List.range' a n).map (node lab pid)).getLast? = if n = 0 then none else some (node lab pid (a + n - 1)) := by
  cases n with
  | zero => simp
  | succ n =>
    rw [if_neg (by omega), List.range'_concat, List.map_append]
    simp

/-- A list of nodes of one step is determined by its sorting. -/
theorem eq_of_sorted {lab : Nat → Nat → Nat} {pid : Nat} {l : List Node} {segs : List Nat}
    (hp : l.Perm (segs.map (node lab pid))) (hs : l.Pairwise (fun v w => v.seg ≤ w.seg))
    (hs' : (segs.map (node lab pid)).Pairwise (fun v w => v.seg ≤ w.seg)) : l = segs.map (node lab pid) := by
  refine List.Perm.eq_of_pairwise ?_ hs hs' hp
  intro a b ha hb h1 h2
  obtain ⟨x, _, rfl⟩ := List.mem_map.1 (hp.subset ha)
  obtain ⟨y, _, rfl⟩ := List.mem_map.1 hb
  have : x = y := Nat.le_antisymm h1 h2
  rw [this]

/-- C39, C40: the nodes of a whole step, given in the order in which the data store returns them (ascending segments).
With a predecessor, or if the step does not go from the last but one segment over the start of the circle, the edges
are the path through the nodes in direction of travel; otherwise the program crashes. -/
theorem stepEdges_walk {rate : Nat} (t : Trans) (hf : t.src.seg < rate) (ht : t.dst.seg < rate)
    (hv : t.isValid rate = true) (lab : Nat → Nat → Nat) (prev : Option Node) {nodes : List Node}
    (hp : nodes.Perm (stepWalk rate lab t)) (hs : nodes.Pairwise (fun v w => v.seg ≤ w.seg)) :
    stepEdges prev nodes =
      if prev = none ∧ t.src.seg + 2 = rate ∧ t.dst.seg < t.src.seg then none
      else some (some (node lab t.src.id t.dst.seg), pairs (prev.toList ++ stepWalk rate lab t)) := by
  unfold stepWalk at hp ⊢
  rcases segs_range t hf ht hv with ⟨h1, h2⟩ | ⟨h1, h2, h3⟩
  · rw [h2] at hp ⊢
    have := eq_of_sorted hp hs (sorted_range' lab _ _ _)
    rw [this, if_neg (by omega)]
    have hc := contig_range' lab t.src.id (t.src.seg + 1) (t.dst.seg - t.src.seg)
    rw [stepEdges_contig' prev (by rw [Ne, List.map_eq_nil_iff, List.range'_eq_nil_iff]; omega) hc,
      getLast?_nodes, if_neg (by omega), show t.src.seg + 1 + (t.dst.seg - t.src.seg) - 1 = t.dst.seg by omega]
  · rw [h2] at hp ⊢
    rw [List.map_append] at hp
    have hlo := contig_range' lab t.src.id 0 (t.dst.seg + 1)
    have hhi := contig_range' lab t.src.id (t.src.seg + 1) (rate - 1 - t.src.seg)
    have hnodes : nodes = (List.range' 0 (t.dst.seg + 1) ++ List.range' (t.src.seg + 1) (rate - 1 - t.src.seg)).map
        (node lab t.src.id) := by
      apply eq_of_sorted _ hs
      · rw [List.map_append, List.pairwise_append]
        refine ⟨sorted_range' _ _ _ _, sorted_range' _ _ _ _, ?_⟩
        simp only [List.mem_map, List.mem_range'_1]
        rintro _ ⟨x, hx, rfl⟩ _ ⟨y, hy, rfl⟩
        simp only [node]
        omega
      · rw [List.map_append]
        exact hp.trans List.perm_append_comm
    rw [hnodes]
    have hlast : ((List.range' 0 (t.dst.seg + 1)).map (node lab t.src.id)).getLast? =
        some (node lab t.src.id t.dst.seg) := by
      rw [getLast?_nodes, if_neg (by omega)]
      congr 2
      omega
    have hne : (List.range' 0 (t.dst.seg + 1)).map (node lab t.src.id) ≠ [] := by simp
    rcases Nat.eq_zero_or_pos (rate - 1 - t.src.seg) with e | e
    · rw [e, if_neg (by omega)]
      simp only [List.range'_zero, List.append_nil, List.nil_append]
      rw [stepEdges_contig' prev hne hlo, hlast]
    · rw [List.map_append, List.map_append, stepEdges_gap' prev hne
        (by rw [Ne, List.map_eq_nil_iff, List.range'_eq_nil_iff]; omega) hlo hhi (by
          intro x hx y hy
          rw [hlast] at hx
          obtain ⟨m, hm⟩ : ∃ m, rate - 1 - t.src.seg = m + 1 := ⟨rate - 1 - t.src.seg - 1, by omega⟩
          rw [hm, List.range'_succ] at hy
          cases hx
          cases hy
          simp only [node]
          omega), hlast]
      simp only [List.length_map, List.length_range']
      by_cases c : prev = none ∧ t.src.seg + 2 = rate
      · rw [if_pos ⟨c.1, by omega⟩, if_pos ⟨c.1, c.2, h1⟩]
      · rw [if_neg (fun h => c ⟨h.1, by omega⟩), if_neg (fun h => c ⟨h.1, h.2.1⟩)]

end Edges
end S2G
