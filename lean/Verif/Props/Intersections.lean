import Verif.Model.Intersections
import Verif.Props.Segmentation

/-!
# C32: every intersection reaches the owner of its segment exactly once
-/

namespace S2G
namespace Inter

theorem onResults_spec {p : Parameters} (hp : p.WellFormed) (own : Nat) (xs : List Inter) :
    ∃ s, onResults p own {} xs = some s ∧ s.stored = xs.filter (fun x => owner p x.2 = own) ∧
      ∀ seg, s.foreign seg = xs.filter (fun x => x.2 = seg ∧ owner p x.2 ≠ own) := by
  induction xs using List.reverseRecOn with
  | nil => exact ⟨_, rfl, rfl, fun _ => rfl⟩
  | append_singleton l x ih =>
    obtain ⟨s, hs, h1, h2⟩ := ih
    simp only [onResults] at hs ⊢
    rw [List.foldlM_append, hs]
    by_cases hc : own = owner p x.2
    · refine ⟨{ s with stored := s.stored ++ [x] }, ?_, ?_, ?_⟩
      · simp [assign, assign_owner hp, ← hc]
      · simp [h1, List.filter_append, ← hc]
      · intro seg
        simp [h2, List.filter_append, ← hc]
    · have hc' : ¬ owner p x.2 = own := fun e => hc e.symm
      refine ⟨{ s with foreign := fun a => if a = x.2 then s.foreign a ++ [x] else s.foreign a }, ?_, ?_, ?_⟩
      · simp [assign, assign_owner hp, hc]
      · simp [h1, List.filter_append, hc']
      · intro seg
        by_cases hseg : seg = x.2
        · simp [hseg, h2, List.filter_append, hc']
        · have : ¬ x.2 = seg := fun e => hseg e.symm
          simp [hseg, this, h2, List.filter_append]

/-- Grouping a list by a bounded key and concatenating the groups is a permutation. -/
theorem groupBy_perm {α : Type} (key : α → Nat) (xs : List α) (n : Nat) (h : ∀ x ∈ xs, key x < n) :
    ((List.range n).flatMap (fun a => xs.filter (fun x => key x = a))).Perm xs := by
  induction n generalizing xs with
  | zero =>
    cases xs with
    | nil => simp
    | cons a l => exact absurd (h a (List.mem_cons_self ..)) (by omega)
  | succ n ih =>
    rw [List.range_succ, List.flatMap_append]
    simp only [List.flatMap_cons, List.flatMap_nil, List.append_nil]
    have h1 := ih (xs.filter (fun x => decide (key x ≠ n))) (by
      intro x hx
      rw [List.mem_filter] at hx
      have := h x hx.1
      have : key x ≠ n := by simpa using hx.2
      omega)
    have e : (List.range n).flatMap (fun a => (xs.filter (fun x => decide (key x ≠ n))).filter
        (fun x => decide (key x = a))) = (List.range n).flatMap (fun a => xs.filter (fun x => decide (key x = a))) := by
      apply List.flatMap_congr
      intro a ha
      rw [List.mem_range] at ha
      rw [List.filter_filter]
      apply List.filter_congr
      intro x _
      by_cases hk : key x = a
      · simp [hk]; omega
      · simp [hk]
    rw [e] at h1
    refine (h1.append_right _).trans ?_
    have := List.filter_append_perm (fun x => decide (key x ≠ n)) xs
    refine List.Perm.trans ?_ this
    refine List.Perm.append_left _ (List.Perm.of_eq ?_)
    apply List.filter_congr
    intro x _
    simp

theorem absorbed_outgoing {p : Parameters} (hp : p.WellFormed) {own dst : Nat} (hne : dst ≠ own) {xs : List Inter}
    (hr : ∀ x ∈ xs, x.2 < p.rate) {s : State} (hs : onResults p own {} xs = some s) :
    (absorbed p dst (outgoing p s dst)).Perm (xs.filter (fun x => owner p x.2 = dst)) := by
  obtain ⟨s', hs', h1, h2⟩ := onResults_spec hp own xs
  rw [hs] at hs'
  cases hs'
  have e1 : absorbed p dst (outgoing p s dst)
      = (List.range p.rate).flatMap (fun seg => (xs.filter (fun x => owner p x.2 = dst)).filter (fun x => x.2 = seg)) := by
    unfold absorbed outgoing
    rw [List.flatMap_map]
    have key : ∀ l : List Nat, (l.filter (fun seg => decide (p.segmentIdToAssignment seg = some dst ∧ s.foreign seg ≠ []))).flatMap
        (fun seg => if p.segmentIdToAssignment seg = some dst then s.foreign seg else [])
        = l.flatMap (fun seg => (xs.filter (fun x => decide (owner p x.2 = dst))).filter (fun x => decide (x.2 = seg))) := by
      intro l
      induction l with
      | nil => rfl
      | cons a l ih =>
        rw [List.flatMap_cons, ← ih]
        have ef : (xs.filter (fun x => decide (owner p x.2 = dst))).filter (fun x => decide (x.2 = a))
            = if owner p a = dst then s.foreign a else [] := by
          rw [h2, List.filter_filter]
          split
          · rename_i ha
            apply List.filter_congr
            intro x _
            by_cases hx : x.2 = a
            · simp [hx, ha, hne]
            · simp [hx]
          · rename_i ha
            rw [List.filter_eq_nil_iff]
            intro x _
            simp only [Bool.and_eq_true, decide_eq_true_eq, not_and]
            intro hx; rw [hx]; exact ha
        rw [ef]
        by_cases ha : owner p a = dst
        · by_cases hf : s.foreign a = []
          · rw [List.filter_cons_of_neg (by simp [hf])]; simp [hf]
          · rw [List.filter_cons_of_pos (by simp [hf, assign_owner hp, ha])]
            simp [assign_owner hp, ha]
        · rw [List.filter_cons_of_neg (by simp [assign_owner hp, ha])]; simp [ha]
    exact key _
  rw [e1]
  apply groupBy_perm
  intro x hx
  exact hr x (List.mem_of_mem_filter hx)

end Inter

namespace InterNet

/-- C32 (every schedule): when node `j` is done with the exchange of intersections, its data store contains exactly
the intersections with its own segments, of all transitions of all nodes, each exactly once per
occurrence. -/
theorem C32_stored_at_owner {p : Parameters} (hp : p.WellFormed) {trans : Nat → List Trans} {s : InterNet}
    (h : Reachable p trans s) {j : Nat} (hj : j < p.nClusterNodes) (hd : s.net.done j = 1) :
    (s.store p j).Perm
      (((List.range p.nClusterNodes).flatMap (fun i => intersectionTasks p.rate (trans i))).filter
        (fun x => p.segmentIdToAssignment x.2 = some j)) := by
  obtain ⟨hloc, hnet⟩ := h
  have hc := hnet.done_complete hj hd
  have hr : ∀ i, ∀ x ∈ intersectionTasks p.rate (trans i), x.2 < p.rate := by
    intro i x hx
    simp only [intersectionTasks, List.mem_reverse, List.mem_flatMap, List.mem_map] at hx
    obtain ⟨t, _, seg, hs, rfl⟩ := hx
    exact Trans.intersectionSegments_lt (by have := hp.1; have := hp.2; omega) t seg hs
  have hpart : ∀ i, (intersectionTasks p.rate (trans i)).filter
      (fun x => decide (p.segmentIdToAssignment x.2 = some j))
      = (intersectionTasks p.rate (trans i)).filter (fun x => decide (owner p x.2 = j)) := by
    intro i
    congr 1
    funext x
    rw [assign_owner hp]; simp
  rw [List.filter_flatMap]
  simp only [hpart]
  refine List.Perm.trans ?_ ((DirectNet.range_perm hj).flatMap_right _)
  rw [List.flatMap_cons, store]
  obtain ⟨s', hs', h1, _⟩ := Inter.onResults_spec hp j (intersectionTasks p.rate (trans j))
  rw [hloc j hj] at hs'
  cases hs'
  rw [h1]
  refine List.Perm.append_left _ ?_
  refine (hc.flatMap_right _).trans ?_
  rw [List.flatMap_map]
  apply List.Perm.flatMap_left
  intro i hi
  obtain ⟨hi1, hi2⟩ := DirectNet.mem_peers.1 hi
  have hne : j ≠ i := by
    rcases hi2 with h | h
    · cases h
    · exact fun e => h e.symm
  exact Inter.absorbed_outgoing hp hne (hr i) (hloc i hi1)

/-- The stage does not crash: every node can compute its local part. -/
theorem C32_local_total {p : Parameters} (hp : p.WellFormed) (trans : Nat → List Trans) (i : Nat) :
    ∃ l, Inter.onResults p i {} (intersectionTasks p.rate (trans i)) = some l := by
  obtain ⟨l, hl, _⟩ := Inter.onResults_spec hp i (intersectionTasks p.rate (trans i))
  exact ⟨l, hl⟩

/-- C32 (progress): when all nodes have entered the stage and no message is in flight, all are done. -/
theorem C32_quiescent_done {p : Parameters} {trans : Nat → List Trans} {s : InterNet} (h : Reachable p trans s)
    (hall : ∀ i < p.nClusterNodes, s.net.started i = true) (hq : s.net.pool = []) :
    ∀ j < p.nClusterNodes, s.net.done j = 1 :=
  fun _ hj => DirectNet.C17_quiescent_done h.2.toReachable hall hq hj

/-- C27 + C30 + C32 end to end: if the transitions of the nodes are those left by the segmentation of the series
(`C27_stored_at_owner`), then after the exchange node `j` holds exactly the border crossings of its segments by
the valid steps of the whole series. -/
theorem C32_end_to_end {p : Parameters} (hp : p.WellFormed) {pts : Nat → List Pt} {g : SegNet}
    (hg : SegNet.Reachable p pts g) (hgd : ∀ i < p.nClusterNodes, g.net.done i = 1) {s : InterNet}
    (h : Reachable p g.store s) {j : Nat} (hj : j < p.nClusterNodes) (hd : s.net.done j = 1) :
    (s.store p j).Perm
      (((validSteps p.rate (series p.nClusterNodes pts)).flatMap
        (fun t => (t.intersectionSegments p.rate).map (fun seg => (t, seg)))).filter
        (fun x => p.segmentIdToAssignment x.2 = some j)) := by
  refine (C32_stored_at_owner hp h hj hd).trans ?_
  apply List.Perm.filter
  refine List.Perm.trans (l₂ := ((List.range p.nClusterNodes).flatMap g.store).flatMap
    (fun t => (t.intersectionSegments p.rate).map (fun seg => (t, seg)))) ?_ ?_
  · rw [List.flatMap_assoc]
    apply List.Perm.flatMap_left
    intro i _
    exact List.reverse_perm _
  · exact (SegNet.C27_all_stored hp hg hgd).flatMap_right _

/-! ### Concrete instance: two nodes, eight segments; the step 3 → 5 of node 0 crosses into node 1 -/

def exTrans : Nat → List Trans
  | 0 => [⟨⟨1, 2⟩, ⟨2, 5⟩⟩]
  | 1 => [⟨⟨3, 7⟩, ⟨4, 1⟩⟩]
  | _ => []
def exLoc (i : Nat) : Inter.State :=
  (Inter.onResults SegNet.exP i {} (intersectionTasks 8 (exTrans i))).getD {}
def exN0 : DirectNet (List (Nat × List Inter)) :=
  DirectNet.init (fun i => Inter.outgoing SegNet.exP (exLoc i))
def exN1 := DirectNet.startStep false 2 exN0 0 (Inter.outgoing SegNet.exP (exLoc 0))
def exN2 := DirectNet.startStep false 2 exN1 1 (Inter.outgoing SegNet.exP (exLoc 1))
def exM01 : DMsg (List (Nat × List Inter)) := ⟨0, 1, Inter.outgoing SegNet.exP (exLoc 0) 1⟩
def exM10 : DMsg (List (Nat × List Inter)) := ⟨1, 0, Inter.outgoing SegNet.exP (exLoc 1) 0⟩
def exN3 := DirectNet.handleStep exN2 exM01 [exM10]
def exN4 := DirectNet.handleStep exN3 exM10 []
def exS : InterNet := ⟨exLoc, exN4⟩

theorem ex_reachable : Reachable SegNet.exP exTrans exS := by
  refine ⟨?_, ?_⟩
  · intro i hi
    obtain ⟨l, hl⟩ := C32_local_total (p := SegNet.exP) (by decide) exTrans i
    simp only [exS, exLoc]
    rw [show (8 : Nat) = SegNet.exP.rate from rfl, hl]
    rfl
  · have h1 := DirectNet.ReachableWith.step DirectNet.ReachableWith.init
      (DirectNet.StepWith.start (incl := false) (n := 2) (f := fun i => Inter.outgoing SegNet.exP (exLoc i)) exN0 0
        (by decide) rfl)
    have h2 := DirectNet.ReachableWith.step h1 (DirectNet.StepWith.start exN1 1 (by decide) rfl)
    have h3 := DirectNet.ReachableWith.step h2 (DirectNet.StepWith.handle exN2 [] [exM10] exM01 (by decide))
    exact DirectNet.ReachableWith.step h3 (DirectNet.StepWith.handle exN3 [] [] exM10 (by decide))

example : exS.net.done 0 = 1 ∧ exS.net.done 1 = 1 ∧
    exS.store SegNet.exP 0 = [(⟨⟨1, 2⟩, ⟨2, 5⟩⟩, 3), (⟨⟨3, 7⟩, ⟨4, 1⟩⟩, 0), (⟨⟨3, 7⟩, ⟨4, 1⟩⟩, 1)] ∧
    exS.store SegNet.exP 1 = [(⟨⟨1, 2⟩, ⟨2, 5⟩⟩, 4), (⟨⟨1, 2⟩, ⟨2, 5⟩⟩, 5)] := by decide

end InterNet
end S2G
