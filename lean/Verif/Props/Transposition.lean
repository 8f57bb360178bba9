import Verif.Model.Transposition
import Verif.Props.DirectProtocol
import Verif.Props.Intersections
import Mathlib.Data.List.Sort

/-!
# C44: transposition gives every edge to the node of its time range
-/

namespace S2G
namespace Transposition

/-- Specification: the node whose part of the time line contains the end of the edge. -/
def home (n pl : Nat) (e : Edge) : Nat := min (e.dst.fromId / pl) (n - 1)

theorem home_lt {n pl : Nat} (hn : 0 < n) (e : Edge) : home n pl e < n := by unfold home; omega

theorem target_eq {n pl : Nat} (hn : 0 < n) (hpl : 0 < pl) (e : Edge) : target n pl e = some (home n pl e) := by
  unfold target checkedDiv checkedSub home Edge.toId
  rw [if_neg (by omega)]
  simp only [Option.bind_eq_bind, Option.bind_some]
  split
  · rw [if_pos (by omega)]
    congr 1
    omega
  · congr 1
    omega

theorem assignEdges_eq {n pl : Nat} (hn : 0 < n) (hpl : 0 < pl) (edges : List Edge) :
    assignEdges n pl edges = some (fun j => if j < n then edges.filter (fun e => home n pl e = j) else []) := by
  unfold assignEdges
  have key : ∀ as : Nat → List Edge, edges.foldlM (assignEdge n pl) as =
      some (fun j => as j ++ (if j < n then edges.filter (fun e => home n pl e = j) else [])) := by
    induction edges with
    | nil => intro as; simp
    | cons e edges ih =>
      intro as
      have h1 : assignEdge n pl as e = some (Function.update as (home n pl e) (as (home n pl e) ++ [e])) := by
        simp [assignEdge, target_eq hn hpl, home_lt hn]
      rw [List.foldlM_cons, h1]
      simp only [Option.bind_eq_bind, Option.bind_some]
      rw [ih]
      congr 1
      funext j
      by_cases hj : j = home n pl e
      · subst hj
        rw [Function.update_self, if_pos (home_lt hn e), if_pos (home_lt hn e), List.filter_cons_of_pos (by simp)]
        simp
      · rw [Function.update_of_ne hj, List.filter_cons_of_neg (by simpa using fun h => hj h.symm)]
  rw [key]
  simp

/-- The stage crashes iff the series has fewer points than the cluster has nodes and there is an edge. -/
theorem assignEdges_none_iff {n pl : Nat} (hn : 0 < n) (edges : List Edge) :
    assignEdges n pl edges = none ↔ pl = 0 ∧ edges ≠ [] := by
  by_cases hpl : 0 < pl
  · rw [assignEdges_eq hn hpl]
    simp
    omega
  · obtain rfl : pl = 0 := by omega
    cases edges with
    | nil => simp [assignEdges]
    | cons e edges => simp [assignEdges, assignEdge, target, checkedDiv]

theorem sortEdges_perm (edges : List Edge) : (sortEdges edges).Perm edges := List.mergeSort_perm _ _

theorem sortEdges_sorted (edges : List Edge) : (sortEdges edges).Pairwise (fun a b => a.toId ≤ b.toId) := by
  have h := List.pairwise_mergeSort (le := fun a b : Edge => decide (a.toId ≤ b.toId))
    (fun a b c h1 h2 => by simp at h1 h2 ⊢; omega) (fun a b => by simp; omega) edges
  exact h.imp (fun h => by simpa using h)

end Transposition

namespace TransNet
open Transposition

/-- C44 (every schedule): when node `j` is done, its edges are exactly the edges of all nodes that end in its part of the
time line (each as often as before), sorted by their end. -/
theorem C44_edges_of_range {n len : Nat} {edges : Nat → List Edge} {s : TransNet} (hn : 0 < n) (hlen : n ≤ len)
    (h : Reachable n len edges s) {j : Nat} (hj : j < n) (hd : s.net.done j = 1) :
    (s.store j).Perm (((List.range n).flatMap edges).filter (fun e => home n (len / n) e = j)) ∧
    (s.store j).Pairwise (fun a b => a.dst.fromId ≤ b.dst.fromId) := by
  obtain ⟨pl, hpl, ha, hnet⟩ := h
  have hpl' : pl = len / n := by
    unfold partitionLen checkedDiv at hpl
    rw [if_neg (by omega)] at hpl
    exact (Option.some.inj hpl).symm
  have hpos : 0 < pl := by rw [hpl']; exact Nat.div_pos hlen hn
  rw [← hpl']
  refine ⟨?_, sortEdges_sorted _⟩
  refine (sortEdges_perm _).trans ?_
  have hass : ∀ i < n, s.assigned i j = (edges i).filter (fun e => home n pl e = j) := by
    intro i hi
    have := ha i hi
    rw [assignEdges_eq hn hpos] at this
    rw [← Option.some.inj this]
    exact if_pos hj
  have hc := hnet.done_complete hj hd
  rw [List.filter_flatMap]
  refine List.Perm.trans ?_ ((DirectNet.range_perm hj).flatMap_right _)
  rw [List.flatMap_cons, received, hass j hj]
  refine List.Perm.append_left _ ?_
  refine (hc.flatMap_right _).trans ?_
  rw [List.flatMap_map]
  apply List.Perm.flatMap_left
  intro i hi
  exact List.Perm.of_eq (hass i (DirectNet.mem_peers.1 hi).1)

/-- C44: the ends of the edges of node `j` lie in the range of its points: from its start point on, and before the start
point of the next node. -/
theorem C44_range {n len : Nat} {edges : Nat → List Edge} {s : TransNet} (hn : 0 < n) (hlen : n ≤ len)
    (h : Reachable n len edges s) {j : Nat} (hj : j < n) (hd : s.net.done j = 1) {e : Edge} (he : e ∈ s.store j) :
    j * (len / n) ≤ e.dst.fromId ∧ (j + 1 < n → e.dst.fromId < (j + 1) * (len / n)) := by
  have := (C44_edges_of_range hn hlen h hj hd).1.subset he
  have hh : home n (len / n) e = j := by simpa using (List.mem_filter.1 this).2
  have hpos : 0 < len / n := Nat.div_pos hlen hn
  unfold home at hh
  refine ⟨?_, fun hlt => ?_⟩
  · have : j ≤ e.dst.fromId / (len / n) := by omega
    exact (Nat.le_div_iff_mul_le hpos).1 this
  · have : e.dst.fromId / (len / n) < j + 1 := by omega
    exact (Nat.div_lt_iff_lt_mul hpos).1 this

/-- C44: the edge lists of the nodes one after the other are all edges of the graph in temporal order. -/
theorem C44_timeline {n len : Nat} {edges : Nat → List Edge} {s : TransNet} (hn : 0 < n) (hlen : n ≤ len)
    (h : Reachable n len edges s) (hd : ∀ j < n, s.net.done j = 1) :
    ((List.range n).flatMap s.store).Perm ((List.range n).flatMap edges) ∧
    ((List.range n).flatMap s.store).Pairwise (fun a b => a.dst.fromId ≤ b.dst.fromId) := by
  constructor
  · refine List.Perm.trans ?_ (Inter.groupBy_perm (home n (len / n)) ((List.range n).flatMap edges) n
      (fun e _ => home_lt hn e))
    apply List.Perm.flatMap_left
    intro j hj
    rw [List.mem_range] at hj
    exact (C44_edges_of_range hn hlen h hj (hd j hj)).1
  · rw [List.pairwise_flatMap]
    refine ⟨fun j hj => ?_, ?_⟩
    · rw [List.mem_range] at hj
      exact (C44_edges_of_range hn hlen h hj (hd j hj)).2
    · have hlt : (List.range n).Pairwise (· < ·) := List.pairwise_lt_range
      refine hlt.imp_of_mem ?_
      intro i j hi hj hij a ha b hb
      rw [List.mem_range] at hi hj
      have h1 := (C44_range hn hlen h hi (hd i hi) ha).2 (by omega)
      have h2 := (C44_range hn hlen h hj (hd j hj) hb).1
      have : (i + 1) * (len / n) ≤ j * (len / n) := Nat.mul_le_mul_right _ (by omega)
      omega

/-- C44 (progress): when all nodes have entered the stage and no message is in flight, all are done. -/
theorem C44_quiescent_done {n len : Nat} {edges : Nat → List Edge} {s : TransNet} (h : Reachable n len edges s)
    (hall : ∀ i < n, s.net.started i = true) (hq : s.net.pool = []) : ∀ j < n, s.net.done j = 1 := by
  obtain ⟨_, _, _, hnet⟩ := h
  exact fun _ hj => DirectNet.C17_quiescent_done hnet.toReachable hall hq hj

/-- C44 (no crash): with at least as many points as nodes every node can compute its assignments. -/
theorem C44_crash_iff {n len : Nat} (hn : 0 < n) (edges : List Edge) :
    ((partitionLen len n).bind (fun pl => assignEdges n pl edges)) = none ↔ len < n ∧ edges ≠ [] := by
  unfold partitionLen checkedDiv
  rw [if_neg (by omega), Option.bind_some, assignEdges_none_iff hn, Nat.div_eq_zero_iff]
  constructor
  · rintro ⟨h | h, h'⟩
    · omega
    · exact ⟨h, h'⟩
  · rintro ⟨h, h'⟩
    exact ⟨Or.inr h, h'⟩

/-! ### Concrete instance: two nodes, six points -/

private def v (seg id : Nat) : Node := ⟨seg, 0, id⟩
private def exEdges : Nat → List Edge
  | 0 => [⟨v 0 0, v 1 1⟩, ⟨v 1 1, v 2 4⟩, ⟨v 2 4, v 3 7⟩]
  | 1 => [⟨v 4 0, v 5 3⟩, ⟨v 5 3, v 6 2⟩, ⟨v 6 2, v 7 0⟩]
  | _ => []
private def exA (i : Nat) : Nat → List Edge := (assignEdges 2 3 (exEdges i)).getD (fun _ => [])
private def exN0 : DirectNet (List Edge) := DirectNet.init exA
private def exN1 := DirectNet.startStep false 2 exN0 1 (exA 1)
private def exM10 : DMsg (List Edge) := ⟨1, 0, exA 1 0⟩
private def exM01 : DMsg (List Edge) := ⟨0, 1, exA 0 1⟩
private def exN2 := DirectNet.handleStep exN1 exM10 []
private def exN3 := DirectNet.startStep false 2 exN2 0 (exA 0)
private def exN4 := DirectNet.handleStep exN3 exM01 [exM10]
private def exN5 := DirectNet.handleStep exN4 exM10 []
private def exS : TransNet := ⟨exA, exN5⟩

example : Reachable 2 6 exEdges exS := by
  refine ⟨3, rfl, ?_, ?_⟩
  · intro i hi
    have : i = 0 ∨ i = 1 := by omega
    have key : ∀ e : List Edge, (assignEdges 2 3 e) = some ((assignEdges 2 3 e).getD (fun _ => [])) := by
      intro e
      cases he : assignEdges 2 3 e with
      | none => exact absurd ((assignEdges_none_iff (by decide) e).1 he).1 (by decide)
      | some a => rfl
    exact key _
  · have h1 := DirectNet.ReachableWith.step DirectNet.ReachableWith.init
      (DirectNet.StepWith.start (incl := false) (n := 2) (f := exA) exN0 1 (by decide) rfl)
    have h2 := DirectNet.ReachableWith.step h1 (DirectNet.StepWith.handle exN1 [] [] exM10 (by decide))
    have h3 := DirectNet.ReachableWith.step h2 (DirectNet.StepWith.start exN2 0 (by decide) rfl)
    have h4 := DirectNet.ReachableWith.step h3 (DirectNet.StepWith.handle exN3 [exM10] [] exM01 (by decide))
    exact DirectNet.ReachableWith.step h4 (DirectNet.StepWith.handle exN4 [] [] exM10 (by decide))

example : exS.net.done 0 = 1 ∧ exS.net.done 1 = 1 := by decide
example : exS.received 0 = [⟨v 0 0, v 1 1⟩, ⟨v 5 3, v 6 2⟩, ⟨v 6 2, v 7 0⟩] ∧
    exS.received 1 = [⟨v 4 0, v 5 3⟩, ⟨v 1 1, v 2 4⟩, ⟨v 2 4, v 3 7⟩] := by decide

/-! ### The order of edges with the same end depends on the schedule -/

private def rEdges : Nat → List Edge
  | 1 => [⟨v 2 0, v 3 0⟩]
  | 2 => [⟨v 3 0, v 4 0⟩]
  | _ => []
private def rA (i : Nat) : Nat → List Edge := (assignEdges 3 1 (rEdges i)).getD (fun _ => [])
private def rM (i j : Nat) : DMsg (List Edge) := ⟨i, j, rA i j⟩
private def rN0 : DirectNet (List Edge) := DirectNet.init rA
private def rN1 := DirectNet.startStep false 3 rN0 0 (rA 0)
private def rN2 := DirectNet.startStep false 3 rN1 1 (rA 1)
private def rN3 := DirectNet.startStep false 3 rN2 2 (rA 2)
private def rN4 := DirectNet.handleStep rN3 (rM 0 1) [rM 0 2, rM 1 0, rM 1 2, rM 2 0, rM 2 1]
private def rN5 := DirectNet.handleStep rN4 (rM 0 2) [rM 1 0, rM 1 2, rM 2 0, rM 2 1]
private def rN6 := DirectNet.handleStep rN5 (rM 1 2) [rM 1 0, rM 2 0, rM 2 1]
private def rN7 := DirectNet.handleStep rN6 (rM 2 1) [rM 1 0, rM 2 0]
private def rA8 := DirectNet.handleStep rN7 (rM 1 0) [rM 2 0]
private def rA9 := DirectNet.handleStep rA8 (rM 2 0) []
private def rB8 := DirectNet.handleStep rN7 (rM 2 0) [rM 1 0]
private def rB9 := DirectNet.handleStep rB8 (rM 1 0) []

/-- Two schedules of the same cluster in which all nodes finish, but the edges of node 0 are in a different order. -/
theorem C44_order_counterexample : ∃ edges s t, Reachable 3 3 edges s ∧ Reachable 3 3 edges t ∧
    (∀ j < 3, s.net.done j = 1 ∧ t.net.done j = 1) ∧ s.store 0 ≠ t.store 0 := by
  have hr7 : DirectNet.ReachableWith false 3 rA rN7 := by
    have h1 := DirectNet.ReachableWith.step DirectNet.ReachableWith.init
      (DirectNet.StepWith.start (incl := false) (n := 3) (f := rA) rN0 0 (by decide) rfl)
    have h2 := DirectNet.ReachableWith.step h1 (DirectNet.StepWith.start rN1 1 (by decide) rfl)
    have h3 := DirectNet.ReachableWith.step h2 (DirectNet.StepWith.start rN2 2 (by decide) rfl)
    have h4 := DirectNet.ReachableWith.step h3
      (DirectNet.StepWith.handle rN3 [] [rM 0 2, rM 1 0, rM 1 2, rM 2 0, rM 2 1] (rM 0 1) (by decide))
    have h5 := DirectNet.ReachableWith.step h4
      (DirectNet.StepWith.handle rN4 [] [rM 1 0, rM 1 2, rM 2 0, rM 2 1] (rM 0 2) (by decide))
    have h6 := DirectNet.ReachableWith.step h5
      (DirectNet.StepWith.handle rN5 [rM 1 0] [rM 2 0, rM 2 1] (rM 1 2) (by decide))
    exact DirectNet.ReachableWith.step h6 (DirectNet.StepWith.handle rN6 [rM 1 0, rM 2 0] [] (rM 2 1) (by decide))
  have key : ∀ e : List Edge, (assignEdges 3 1 e) = some ((assignEdges 3 1 e).getD (fun _ => [])) := by
    intro e
    cases he : assignEdges 3 1 e with
    | none => exact absurd ((assignEdges_none_iff (by decide) e).1 he).1 (by decide)
    | some a => rfl
  refine ⟨rEdges, ⟨rA, rA9⟩, ⟨rA, rB9⟩, ⟨1, rfl, fun i _ => key _, ?_⟩, ⟨1, rfl, fun i _ => key _, ?_⟩, by decide, ?_⟩
  · have h8 := DirectNet.ReachableWith.step hr7 (DirectNet.StepWith.handle rN7 [] [rM 2 0] (rM 1 0) (by decide))
    exact DirectNet.ReachableWith.step h8 (DirectNet.StepWith.handle rA8 [] [] (rM 2 0) (by decide))
  · have h8 := DirectNet.ReachableWith.step hr7 (DirectNet.StepWith.handle rN7 [rM 1 0] [] (rM 2 0) (by decide))
    exact DirectNet.ReachableWith.step h8 (DirectNet.StepWith.handle rB8 [] [] (rM 1 0) (by decide))
  · have e1 : (⟨rA, rA9⟩ : TransNet).received 0 = [⟨v 2 0, v 3 0⟩, ⟨v 3 0, v 4 0⟩] := by decide
    have e2 : (⟨rA, rB9⟩ : TransNet).received 0 = [⟨v 3 0, v 4 0⟩, ⟨v 2 0, v 3 0⟩] := by decide
    rw [store, store, e1, e2, sortEdges, sortEdges, List.mergeSort_of_pairwise (by decide),
      List.mergeSort_of_pairwise (by decide)]
    decide

end TransNet
end S2G
