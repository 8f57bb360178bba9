import Verif.Model.SelfCorrection
import Verif.Props.SegmentationLocal
import Verif.Props.Ring
import Verif.Props.SegmentId
import Mathlib.Algebra.BigOperators.Group.List.Basic

/-!
# C29: self correction
-/

namespace S2G
namespace SelfCorrection

/-- Specification: steps which cross a border in the invalid direction. -/
def invalidSteps (rate : Nat) (pts : List Pt) : List Trans :=
  (steps pts).filter (fun t => t.crossesSegments && !t.hasValidDirection rate)

/-- The specification of `invalidSteps` in terms of the circle: crossing but not forward by at most half a turn. -/
theorem invalid_iff {rate : Nat} (t : Trans) (hf : t.src.seg < rate) (ht : t.dst.seg < rate) :
    (t.crossesSegments && !t.hasValidDirection rate) = true ↔
      t.src.seg ≠ t.dst.seg ∧ ¬ ∃ k, Trans.ForwardBy rate t.src.seg t.dst.seg k := by
  rw [← Trans.C26_valid_iff t hf ht]
  unfold Trans.isValid Trans.crossesSegments
  cases t.hasValidDirection rate <;> simp

/-- C29 (one node): with self correction on, the points are mirrored iff there are fewer valid than invalid
crossing steps. -/
theorem C29_local_decision {p : Parameters} (hp : p.WellFormed) (h1 : p.nClusterNodes = 1)
    (hsc : p.selfCorrection = true) {pts : List Pt} {l : SegState}
    (hl : SegState.buildSegments p 0 {} pts = some l) :
    mirrors (localCount l) = true ↔ (validSteps p.rate pts).length < (invalidSteps p.rate pts).length := by
  obtain ⟨l', hl', hb⟩ := SegState.buildSegments_built hp 0 {} pts
  rw [hl] at hl'
  cases hl'
  have e1 : l.stored = validSteps p.rate pts := by
    rw [hb.stored]
    simp only [List.nil_append]
    rw [List.filter_eq_self]
    intro t _
    have := owner_lt hp t.src.seg
    simp; omega
  have e2 : l.invalid = (invalidSteps p.rate pts).length := by
    rw [hb.invalid]; simp [hsc, invalidSteps]
  simp [mirrors, localCount, e1, e2]

theorem totals_eq (own : Count) (l : List Count) :
    totals own l = ⟨own.count + (l.map Count.count).sum, own.clockwise + (l.map Count.clockwise).sum⟩ := by
  induction l generalizing own with
  | nil => simp [totals]
  | cons a l ih =>
    have : totals own (a :: l) = totals ⟨own.count + a.count, own.clockwise + a.clockwise⟩ l := rfl
    rw [this, ih]
    simp [Nat.add_assoc]

theorem range_perm {n i : Nat} (hi : i < n) : (i :: DirectNet.peers false n i).Perm (List.range n) := by
  refine (List.perm_ext_iff_of_nodup ?_ List.nodup_range).2 ?_
  · refine List.nodup_cons.2 ⟨?_, DirectNet.nodup_peers⟩
    simp [DirectNet.mem_peers]
  · intro a
    simp only [List.mem_cons, DirectNet.mem_peers, List.mem_range]
    constructor
    · rintro (rfl | h')
      · exact hi
      · exact h'.1
    · intro ha
      by_cases hh : a = i
      · exact Or.inl hh
      · exact Or.inr ⟨ha, Or.inr hh⟩

/-- C29 (agreement): when a node has received all counts, its totals are the sums over all nodes; so all nodes
take the same decision. Same side condition on schedules as C18. -/
theorem C29_totals {n : Nat} (hn : 2 ≤ n) {s : RingNet Count} (h : RingNet.Reachable true n s)
    {i : Nat} (hi : i < n) (hd : s.done i = 1) :
    totals (s.pay i) ((s.processed i).map RMsg.body) =
      ⟨((List.range n).map (fun j => (s.pay j).count)).sum,
       ((List.range n).map (fun j => (s.pay j).clockwise)).sum⟩ := by
  have hc := (RingNet.C18_rotation_complete hn h hi).2 hd
  have hp := range_perm hi
  have e : ∀ f : Count → Nat, f (s.pay i) + (((s.processed i).map RMsg.body).map f).sum
      = ((List.range n).map (fun j => f (s.pay j))).sum := by
    intro f
    rw [← (hp.map (fun j => f (s.pay j))).sum_eq, List.map_cons, List.sum_cons]
    congr 1
    rw [List.map_map, (hc.map (f ∘ RMsg.body)).sum_eq, List.map_map]
    rfl
  rw [totals_eq, e Count.count, e Count.clockwise]

theorem sum_filter_owner (p : Parameters) (ts : List Trans) (n : Nat) (h : ∀ t ∈ ts, owner p t.src.seg < n) :
    ((List.range n).map (fun a => (ts.filter (fun t => decide (owner p t.src.seg = a))).length)).sum = ts.length := by
  induction ts with
  | nil => simp
  | cons t ts ih =>
    have ih := ih (fun u hu => h u (List.mem_cons_of_mem _ hu))
    have ht := h t (List.mem_cons_self ..)
    rw [List.length_cons, ← ih]
    have key := DirectNet.sum_range_update
      (fun a => ((t :: ts).filter (fun t => decide (owner p t.src.seg = a))).length)
      (fun a => (ts.filter (fun t => decide (owner p t.src.seg = a))).length) (owner p t.src.seg)
      (by intro j hj; rw [List.filter_cons_of_neg (by simpa using fun e => hj e.symm)]) n ht
    simp only [decide_true, List.filter_cons_of_pos, List.length_cons] at key
    omega

/-- What a node of a cluster contributes: all valid steps of its part plus *again* those which start in its own
segments, and its invalid steps. The step from its last point to the first point of the next node is not
counted. -/
theorem C29_contribution {p : Parameters} (hp : p.WellFormed) (hsc : p.selfCorrection = true) {i : Nat}
    {pts : List Pt} {l : SegState} (hl : SegState.buildSegments p i {} pts = some l) :
    countMsg p.nClusterNodes l =
      ⟨(validSteps p.rate pts).length +
        ((validSteps p.rate pts).filter (fun t => owner p t.src.seg = i)).length,
       (invalidSteps p.rate pts).length⟩ := by
  obtain ⟨l', hl', hb⟩ := SegState.buildSegments_built hp i {} pts
  rw [hl] at hl'
  cases hl'
  have e1 : ((List.range p.nClusterNodes).map (fun a => (l.forNodes a).length)).sum
      = (validSteps p.rate pts).length := by
    simp only [hb.forNodes]
    exact sum_filter_owner p _ _ (fun t _ => owner_lt hp _)
  have e2 : l.stored.length = ((validSteps p.rate pts).filter (fun t => owner p t.src.seg = i)).length := by
    rw [hb.stored]; simp
  have e3 : l.invalid = (invalidSteps p.rate pts).length := by
    rw [hb.invalid]; simp [hsc, invalidSteps]
  simp only [countMsg, transitionCount, e1, e2, e3, Count.mk.injEq, and_true]
  omega

/-- C29 (several nodes, exact decision; schedules without race): all nodes decide alike, and they mirror iff the number of valid steps
inside the parts, plus again the number of those which start in the segments of the node of the part, is less than the number of
invalid steps inside the parts. -/
theorem C29_distributed_decision {p : Parameters} (hp : p.WellFormed) (hsc : p.selfCorrection = true) (hn : 2 ≤ p.nClusterNodes)
    {pts : Nat → List Pt} {l : Nat → SegState}
    (hl : ∀ j < p.nClusterNodes, SegState.buildSegments p j {} (pts j) = some (l j))
    {s : RingNet Count} (h : RingNet.Reachable true p.nClusterNodes s)
    (hpay : ∀ j < p.nClusterNodes, s.pay j = countMsg p.nClusterNodes (l j)) {i : Nat} (hi : i < p.nClusterNodes)
    (hd : s.done i = 1) :
    mirrors (totals (s.pay i) ((s.processed i).map RMsg.body)) = true ↔
      ((List.range p.nClusterNodes).map (fun j => (validSteps p.rate (pts j)).length +
        ((validSteps p.rate (pts j)).filter (fun t => owner p t.src.seg = j)).length)).sum <
      ((List.range p.nClusterNodes).map (fun j => (invalidSteps p.rate (pts j)).length)).sum := by
  rw [C29_totals hn h hi hd]
  simp only [mirrors, decide_eq_true_eq]
  have e1 : (List.range p.nClusterNodes).map (fun j => (s.pay j).count) = (List.range p.nClusterNodes).map (fun j =>
      (validSteps p.rate (pts j)).length + ((validSteps p.rate (pts j)).filter (fun t => owner p t.src.seg = j)).length) := by
    apply List.map_congr_left
    intro j hj
    rw [List.mem_range] at hj
    rw [hpay j hj, C29_contribution hp hsc (hl j hj)]
  have e2 : (List.range p.nClusterNodes).map (fun j => (s.pay j).clockwise) = (List.range p.nClusterNodes).map (fun j =>
      (invalidSteps p.rate (pts j)).length) := by
    apply List.map_congr_left
    intro j hj
    rw [List.mem_range] at hj
    rw [hpay j hj, C29_contribution hp hsc (hl j hj)]
  rw [e1, e2]

/-- Two nodes, eight segments, self correction on. -/
def exP : Parameters := ⟨4, 1, 2, 8, 1, 2, true⟩
def exPts : Nat → List Pt
  | 0 => [⟨0, 0⟩, ⟨1, 1⟩, ⟨2, 0⟩, ⟨3, 7⟩]
  | 1 => [⟨4, 6⟩, ⟨5, 7⟩, ⟨6, 6⟩, ⟨7, 5⟩]
  | _ => []
/-- the counts sent by the two nodes -/
def exPay (i : Nat) : Count :=
  match SegState.buildSegments exP i {} (exPts i) with
  | some l => countMsg 2 l
  | none => ⟨0, 0⟩

/-- C29 is false for several nodes: there are fewer valid than invalid crossing steps in the whole series (and in
every part), but the nodes decide not to mirror, because the valid steps are counted twice. -/
theorem C29_distributed_counterexample :
    (validSteps exP.rate (exPts 0 ++ exPts 1)).length < (invalidSteps exP.rate (exPts 0 ++ exPts 1)).length ∧
    ∃ s : RingNet Count, RingNet.Reachable false 2 s ∧ s.pay 0 = exPay 0 ∧ s.pay 1 = exPay 1 ∧
      ∀ i < 2, s.done i = 1 ∧ mirrors (totals (s.pay i) ((s.processed i).map RMsg.body)) = false := by
  refine ⟨by decide, ?_⟩
  cases h : RingNet.exec 2 (RingNet.init (fun _ => ⟨0, 0⟩))
      [.start 0 (exPay 0), .start 1 (exPay 1), .arrive 0, .arrive 1, .handle 0, .handle 1] with
  | none => exact absurd (congrArg Option.isSome h) (by decide)
  | some s =>
    have hr := RingNet.exec_reachable _ (RingNet.Reachable.init _) h
    have e : (RingNet.exec 2 (RingNet.init (fun _ => (⟨0, 0⟩ : Count)))
      [.start 0 (exPay 0), .start 1 (exPay 1), .arrive 0, .arrive 1, .handle 0, .handle 1]).map
      (fun s => ((s.pay 0, s.pay 1), (s.done 0, s.done 1),
        (mirrors (totals (s.pay 0) ((s.processed 0).map RMsg.body)),
         mirrors (totals (s.pay 1) ((s.processed 1).map RMsg.body)))))
      = some ((exPay 0, exPay 1), (1, 1), (false, false)) := by decide
    rw [h] at e
    simp only [Option.map_some, Option.some.injEq, Prod.mk.injEq] at e
    obtain ⟨⟨e1, e2⟩, ⟨e3, e4⟩, e5, e6⟩ := e
    refine ⟨s, hr, e1, e2, ?_⟩
    intro i hi
    match i, hi with
    | 0, _ => exact ⟨e3, e5⟩
    | 1, _ => exact ⟨e4, e6⟩

/-! ## Mirroring -/

/-- C29 (mirroring reverses directions, even rate): after mirroring both end points (strictly inside their
sectors) a step is valid iff the reversed step was valid. -/
theorem C29_mirror_reverses {h : Nat} (a b : Pt) (ha : a.seg < 2 * h) (hb : b.seg < 2 * h) :
    (Trans.mk (mirrorPt h a) (mirrorPt h b)).isValid (2 * h) = (Trans.mk b a).isValid (2 * h) := by
  have hm : ∀ s, s < 2 * h → (3 * h - 1 - s) % (2 * h) = if s < h then h - 1 - s else 3 * h - 1 - s := by
    intro s hs
    split
    · rw [show 3 * h - 1 - s = (h - 1 - s) + 2 * h by omega, Nat.add_mod_right, Nat.mod_eq_of_lt (by omega)]
    · exact Nat.mod_eq_of_lt (by omega)
  rw [Bool.eq_iff_iff]
  unfold Trans.isValid Trans.crossesSegments Trans.hasValidDirection Trans.rawDiff mirrorPt
  simp only [Trans.fdiv_two, Bool.and_eq_true, Bool.or_eq_true, decide_eq_true_eq, bne_iff_ne, ne_eq, hm _ ha, hm _ hb]
  split <;> split <;> omega

theorem steps_map (f : Pt → Pt) (pts : List Pt) :
    steps (pts.map f) = (steps pts).map (fun t => ⟨f t.src, f t.dst⟩) := by
  induction pts with
  | nil => rfl
  | cons a l ih =>
    cases l with
    | nil => rfl
    | cons b l =>
      simp only [List.map_cons] at ih ⊢
      simp [steps, ih]

theorem mem_steps {pts : List Pt} {t : Trans} (h : t ∈ steps pts) : t.src ∈ pts ∧ t.dst ∈ pts := by
  induction pts with
  | nil => simp [steps] at h
  | cons a l ih =>
    cases l with
    | nil => simp [steps] at h
    | cons b l =>
      simp only [steps, List.mem_cons] at h
      rcases h with rfl | h
      · simp
      · have := ih h
        exact ⟨List.mem_cons_of_mem _ this.1, List.mem_cons_of_mem _ this.2⟩

/-- C29 (effect of the correction): every invalid crossing step becomes valid, so after mirroring there are at least
as many valid steps as there were invalid ones. In particular, when the (local) decision is to mirror, mirroring
strictly increases the number of valid steps. -/
theorem C29_mirror_improves {h : Nat} (pts : List Pt) (hs : ∀ a ∈ pts, a.seg < 2 * h) :
    (invalidSteps (2 * h) pts).length ≤ (validSteps (2 * h) (pts.map (mirrorPt h))).length := by
  rw [validSteps, steps_map, List.filter_map, List.length_map, invalidSteps]
  rw [← List.countP_eq_length_filter, ← List.countP_eq_length_filter]
  apply List.countP_mono_left
  intro t ht hinv
  obtain ⟨h1, h2⟩ := mem_steps ht
  have h1 := hs _ h1
  have h2 := hs _ h2
  simp only [Function.comp]
  rw [C29_mirror_reverses _ _ h1 h2]
  simp only [Bool.and_eq_true, Bool.not_eq_true'] at hinv
  have hne : t.src.seg ≠ t.dst.seg := by simpa [Trans.crossesSegments] using hinv.1
  rcases Trans.C26_step_or_reverse t.src t.dst h1 h2 hne with h3 | h3
  · simp only [Trans.isValid, Bool.and_eq_true] at h3
    exact absurd (hinv.2.symm.trans h3.2) (by decide)
  · exact h3

example : (invalidSteps 8 (exPts 0)).length = 2 ∧ (validSteps 8 ((exPts 0).map (mirrorPt 4))).length = 2 ∧
    (∀ a ∈ exPts 0, a.seg < 2 * 4) := by decide
example : exP.WellFormed ∧ exP.selfCorrection = true ∧ exPay 0 = ⟨2, 2⟩ ∧ exPay 1 = ⟨2, 2⟩ := by decide

end SelfCorrection
end S2G
