import Verif.Model.Segmentation
import Verif.Props.Parameters
import Verif.Props.Transition
import Verif.Util

/-!
# What one node computes in `build_segments` and in the first-point handler (lemmas for C27-C29, C42, C43)
-/

namespace S2G

/-! ## Specification -/

/-- Specification: the steps between consecutive points. -/
def steps : List Pt → List Trans
  | a :: b :: l => ⟨a, b⟩ :: steps (b :: l)
  | _ => []

/-- Specification: the steps which go forward across at least one segment border (see C26). -/
def validSteps (rate : Nat) (pts : List Pt) : List Trans := (steps pts).filter (fun t => t.isValid rate)

/-- Specification: the node owning a segment. `C01` shows that this is a partition into blocks. -/
def owner (p : Parameters) (seg : Nat) : Nat := min (seg / (p.rate / p.nClusterNodes)) (p.nClusterNodes - 1)

theorem assign_owner {p : Parameters} (h : p.WellFormed) (s : Nat) :
    p.segmentIdToAssignment s = some (owner p s) := Parameters.assignment_eq h s

theorem owner_lt {p : Parameters} (h : p.WellFormed) (s : Nat) : owner p s < p.nClusterNodes := by
  have := h.1; unfold owner; omega

theorem steps_append_singleton (l : List Pt) (b : Pt) :
    steps (l ++ [b]) = steps l ++ (match l.getLast? with | some a => [⟨a, b⟩] | none => []) := by
  induction l with
  | nil => simp [steps]
  | cons a l ih =>
    cases l with
    | nil => simp [steps]
    | cons c l =>
      have : steps (a :: c :: l ++ [b]) = ⟨a, c⟩ :: steps (c :: l ++ [b]) := rfl
      rw [this, ih]
      simp [steps]

theorem validSteps_append_singleton (rate : Nat) (l : List Pt) (b : Pt) :
    validSteps rate (l ++ [b]) = validSteps rate l ++
      (match l.getLast? with | some a => if (Trans.mk a b).isValid rate then [⟨a, b⟩] else [] | none => []) := by
  rw [validSteps, steps_append_singleton, List.filter_append]
  congr 1
  cases l.getLast? with
  | none => rfl
  | some a => by_cases h : (Trans.mk a b).isValid rate <;> simp [h]

theorem steps_append (l l' : List Pt) :
    steps (l ++ l') = steps (l ++ l'.head?.toList) ++ steps l' := by
  cases l' with
  | nil => simp [steps]
  | cons b l' =>
    induction l with
    | nil => simp [steps]
    | cons a l ih =>
      cases l with
      | nil => simp [steps]
      | cons c l =>
        have e1 : steps (a :: c :: l ++ b :: l') = ⟨a, c⟩ :: steps (c :: l ++ b :: l') := rfl
        rw [e1, ih]
        simp [steps]

theorem validSteps_append (rate : Nat) (l l' : List Pt) :
    validSteps rate (l ++ l') = validSteps rate (l ++ l'.head?.toList) ++ validSteps rate l' := by
  simp only [validSteps]; rw [steps_append l l', List.filter_append]

/-! ## Questions -/

/-- The first segment of the block of the `i`-th next node. -/
def wantedSeg (p : Parameters) (t : Trans) (i : Nat) : Nat :=
  ((owner p t.src.seg + (i + 1)) % p.nClusterNodes) * (p.rate / p.nClusterNodes)

/-- The segment before segment `s` on the circle. -/
def segBefore (p : Parameters) (s : Nat) : Nat := (Int.emod ((s : Int) - 1) p.rate).toNat

/-- Questions of one transition about its predecessor node (pure form of `questionsOf … false`). -/
def askBetween (p : Parameters) (prev : Option Trans) (t : Trans) : List NIQ :=
  match prev with
  | some pr =>
    if owner p t.src.seg ≠ owner p pr.dst.seg then
      [⟨pr.src.id, pr.dst.seg, t.src.id, t.firstIntersectionSegment p.rate⟩] else []
  | none => []

/-- One question within a transition. -/
def askWithinOne (p : Parameters) (prev : Option Trans) (t : Trans) (i : Nat) : NIQ :=
  match prev with
  | some pr =>
    if wantedSeg p t i = t.firstIntersectionSegment p.rate ∧ i = 0 then
      ⟨pr.src.id, pr.dst.seg, t.src.id, wantedSeg p t i % p.rate⟩
    else ⟨t.src.id, segBefore p (wantedSeg p t i), t.src.id, wantedSeg p t i % p.rate⟩
  | none => ⟨t.src.id, segBefore p (wantedSeg p t i), t.src.id, wantedSeg p t i % p.rate⟩

/-- Questions within one transition. -/
def askWithin (p : Parameters) (prev : Option Trans) (t : Trans) : List NIQ :=
  if owner p t.src.seg ≠ owner p t.dst.seg then
    (List.range (clusterNodeDiff p (owner p t.src.seg) (owner p t.dst.seg))).map (askWithinOne p prev t)
  else []

/-- All questions asked for transition `t` with previous valid transition `prev`. -/
def asks (p : Parameters) (prev : Option Trans) (t : Trans) : List NIQ :=
  askBetween p prev t ++ askWithin p prev t

/-- Recording one question. -/
def addQ (p : Parameters) (q : NodeQuestions) (n : NIQ) : NodeQuestions :=
  q.addNiq (owner p n.seg) (owner p n.prevSeg) n

/-- Every transition with the one before it. -/
def withPrev (ts : List Trans) : List (Option Trans × Trans) := (none :: ts.map some).zip ts

theorem withPrev_append_singleton (ts : List Trans) (t : Trans) :
    withPrev (ts ++ [t]) = withPrev ts ++ [(ts.getLast?, t)] := by
  have key : ∀ (ts : List Trans) (o : Option Trans),
      (o :: (ts ++ [t]).map some).zip (ts ++ [t])
        = (o :: ts.map some).zip ts ++ [((o :: ts.map some).getLast (by simp), t)] := by
    intro ts
    induction ts with
    | nil => intro o; simp
    | cons a ts ih => intro o; simpa using ih (some a)
  rw [withPrev, key, withPrev]
  congr 2
  cases ts using List.reverseRecOn with
  | nil => simp
  | append_singleton l a => simp

theorem mapM_some {α β : Type} {f : α → Option β} {g : α → β} (h : ∀ a, f a = some (g a)) (l : List α) :
    l.mapM f = some (l.map g) := by
  induction l with
  | nil => rfl
  | cons a l ih => simp [List.mapM_cons, h, ih]

theorem getWanted_eq {p : Parameters} (h : p.WellFormed) (t : Trans) (i : Nat) :
    NodeQuestions.getWantedSegment p t i = some (wantedSeg p t i, segBefore p (wantedSeg p t i)) := by
  have h0 : p.nClusterNodes ≠ 0 := by have := h.1; omega
  simp [NodeQuestions.getWantedSegment, Parameters.firstSegmentOfINextClusterNode, assign_owner h,
    checkedMod, h0, Parameters.spn_eq h, wantedSeg, segBefore]

theorem questionsOf_within {p : Parameters} (h : p.WellFormed) (t : Trans) (prev : Option Trans) (n : Nat) :
    NodeQuestions.questionsOf p t prev true n = some ((List.range n).map (askWithinOne p prev t)) := by
  cases prev with
  | none =>
    simp only [NodeQuestions.questionsOf]
    apply mapM_some
    intro i
    simp [NodeQuestions.niqWithin, getWanted_eq h, askWithinOne]
  | some pr =>
    simp only [NodeQuestions.questionsOf]
    apply mapM_some
    intro i
    by_cases hc : wantedSeg p t i = t.firstIntersectionSegment p.rate ∧ i = 0
    · have hc' : (wantedSeg p t i == t.firstIntersectionSegment p.rate && i == 0) = true := by
        simpa using hc
      simp only [NodeQuestions.niqWithinPrev, getWanted_eq h, askWithinOne, Option.bind_eq_bind, Option.bind_some,
        hc', if_pos hc]
      rfl
    · have hc' : (wantedSeg p t i == t.firstIntersectionSegment p.rate && i == 0) = false := by
        rw [Bool.eq_false_iff]; simpa using hc
      simp only [NodeQuestions.niqWithinPrev, getWanted_eq h, askWithinOne, Option.bind_eq_bind, Option.bind_some,
        hc', if_neg hc]
      rfl

theorem foldlM_addQuestion {p : Parameters} (h : p.WellFormed) (l : List NIQ) (q : NodeQuestions) :
    l.foldlM (NodeQuestions.addQuestion p) q = some (l.foldl (addQ p) q) := by
  induction l generalizing q with
  | nil => rfl
  | cons a l ih =>
    simp [List.foldlM_cons, NodeQuestions.addQuestion, assign_owner h, ih, addQ]

namespace SegState

theorem splitBetween_eq {p : Parameters} (h : p.WellFormed) (s : SegState) (pr t : Trans) :
    s.splitBetween p (some pr) t (owner p t.src.seg) (owner p pr.dst.seg)
      = some { s with questions := (askBetween p (some pr) t).foldl (addQ p) s.questions } := by
  unfold splitBetween askBetween
  by_cases hc : owner p t.src.seg ≠ owner p pr.dst.seg
  · simp [hc, NodeQuestions.ask, NodeQuestions.questionsOf, foldlM_addQuestion h]
  · simp [hc]

theorem splitWithin_eq {p : Parameters} (h : p.WellFormed) (s : SegState) (prev : Option Trans) (t : Trans) :
    s.splitWithin p prev t (owner p t.src.seg) (owner p t.dst.seg)
      = some { s with questions := (askWithin p prev t).foldl (addQ p) s.questions } := by
  unfold splitWithin askWithin
  by_cases hc : owner p t.src.seg ≠ owner p t.dst.seg
  · simp [hc, NodeQuestions.ask, questionsOf_within h, foldlM_addQuestion h]
  · simp [hc]

theorem findSplits_eq {p : Parameters} (h : p.WellFormed) (s : SegState) (prev : Option Trans) (t : Trans) :
    s.findSplits p prev (prev.map (fun pr => owner p pr.dst.seg)) t (owner p t.src.seg) (owner p t.dst.seg)
      = some { s with questions := (asks p prev t).foldl (addQ p) s.questions } := by
  cases prev with
  | none => simp [findSplits, splitWithin_eq h, asks, askBetween]
  | some pr => simp [findSplits, splitBetween_eq h, splitWithin_eq h, asks]

/-- The questions of a list of consecutive valid transitions. -/
def questionsAll (p : Parameters) (ts : List Trans) : List NIQ :=
  (withPrev ts).flatMap (fun x => asks p x.1 x.2)

/-- What `build_segments` has computed after the points `pts`. -/
structure Built (p : Parameters) (own : Nat) (s0 : SegState) (pts : List Pt) (s : SegState) : Prop where
  lastPoint : s.lastPoint = pts.getLast?
  lastTransition : s.lastTransition = (validSteps p.rate pts).getLast?
  lastToNode : s.lastToNode = (validSteps p.rate pts).getLast?.map (fun t => owner p t.dst.seg)
  sendPoint : s.sendPoint = if own ≠ 0 then pts.head?.or s0.sendPoint else s0.sendPoint
  sendTransition : s.sendTransition = s0.sendTransition.or (validSteps p.rate pts).head?
  forNodes : ∀ a, s.forNodes a = (validSteps p.rate pts).filter (fun t => owner p t.src.seg = a)
  stored : s.stored = s0.stored ++ (validSteps p.rate pts).filter (fun t => owner p t.src.seg = own)
  questions : s.questions = (questionsAll p (validSteps p.rate pts)).foldl (addQ p) s0.questions
  invalid : s.invalid = s0.invalid + if p.selfCorrection then
      ((steps pts).filter (fun t => t.crossesSegments && !t.hasValidDirection p.rate)).length else 0

theorem invalid_step (rate : Nat) (pts : List Pt) (b a : Pt) (h : pts.getLast? = some a) :
    ((steps (pts ++ [b])).filter (fun t => t.crossesSegments && !t.hasValidDirection rate)).length
      = ((steps pts).filter (fun t => t.crossesSegments && !t.hasValidDirection rate)).length +
        if (Trans.mk a b).crossesSegments && !(Trans.mk a b).hasValidDirection rate then 1 else 0 := by
  rw [steps_append_singleton, h, List.filter_append, List.length_append]
  congr 1
  cases hc : (Trans.mk a b).crossesSegments && !(Trans.mk a b).hasValidDirection rate <;>
    simp [hc]

theorem onPoint_built {p : Parameters} (h : p.WellFormed) {own : Nat} {s0 s : SegState} {pts : List Pt}
    (hb : Built p own s0 pts s) (b : Pt) :
    ∃ s', onPoint p own s b = some s' ∧ Built p own s0 (pts ++ [b]) s' := by
  obtain ⟨h1, h2, h3, h4, h5, h6, h7, h8, h9⟩ := hb
  cases hl : pts.getLast? with
  | none =>
    have hp : pts = [] := by simpa using hl
    subst hp
    by_cases ho : own ≠ 0
    · refine ⟨_, by
        simp only [onPoint, h1, List.getLast?_nil, Option.bind_eq_bind]
        rw [if_pos ho]
        rfl, ?_⟩
      constructor <;> simp_all [validSteps, steps]
    · refine ⟨_, by
        simp only [onPoint, h1, List.getLast?_nil, Option.bind_eq_bind]
        rw [if_neg ho]
        rfl, ?_⟩
      constructor <;> simp_all [validSteps, steps]
  | some a =>
    have hne : pts ≠ [] := by rintro rfl; simp at hl
    have hhead : (pts ++ [b]).head? = pts.head? := by
      cases pts with
      | nil => exact absurd rfl hne
      | cons c l => rfl
    have hi := invalid_step p.rate pts b a hl
    have hv := validSteps_append_singleton p.rate pts b
    rw [hl] at hv
    simp only at hv
    by_cases hval : (Trans.mk a b).isValid p.rate = true
    · rw [if_pos hval] at hv
      have hcv : ((Trans.mk a b).crossesSegments && !(Trans.mk a b).hasValidDirection p.rate) = false := by
        simp only [Trans.isValid, Bool.and_eq_true] at hval
        simp [hval.1, hval.2]
      rw [hcv] at hi
      refine ⟨_, by
        simp only [onPoint, h1, hl, Option.bind_eq_bind, hval, if_true, onValid]
        rw [assign_owner h, assign_owner h, h2, h3]
        simp only [Option.bind_some]
        rw [findSplits_eq h]
        rfl, ?_⟩
      have hq : questionsAll p (validSteps p.rate (pts ++ [b]))
          = questionsAll p (validSteps p.rate pts) ++ asks p (validSteps p.rate pts).getLast? ⟨a, b⟩ := by
        rw [hv, questionsAll, withPrev_append_singleton, List.flatMap_append]
        simp [questionsAll]
      constructor
      · simp
      · simp [hv]
      · simp [hv]
      · simp only [record, h4, hhead]
      · simp only [record, h5, hv]
        cases s0.sendTransition <;> cases (validSteps p.rate pts) <;> simp
      · intro c
        simp only [record, h6, hv, List.filter_append]
        by_cases hc : c = owner p a.seg
        · simp [hc]
        · have : ¬ owner p a.seg = c := fun e => hc e.symm
          simp [hc, this]
      · simp only [record, h7, hv, List.filter_append]
        by_cases hc : owner p a.seg = own
        · simp [hc]
        · simp [hc]
      · simp only [record, h8, hq, List.foldl_append]
      · simp only [record, h9, hi]; simp
    · have hval' : (Trans.mk a b).isValid p.rate = false := by simpa using hval
      rw [if_neg hval, List.append_nil] at hv
      by_cases hcv : (p.selfCorrection && (Trans.mk a b).crossesSegments && !(Trans.mk a b).hasValidDirection p.rate) = true
      · refine ⟨_, by
          simp only [onPoint, h1, hl, Option.bind_eq_bind, hval', Bool.false_eq_true, if_false]
          rw [if_pos hcv]
          rfl, ?_⟩
        have hsc : p.selfCorrection = true := by
          simp only [Bool.and_eq_true] at hcv; exact hcv.1.1
        have hcv' : ((Trans.mk a b).crossesSegments && !(Trans.mk a b).hasValidDirection p.rate) = true := by
          simp only [Bool.and_eq_true] at hcv ⊢; exact ⟨hcv.1.2, hcv.2⟩
        rw [hcv'] at hi
        constructor <;> simp only [hv, hhead, h2, h3, h4, h5, h6, h7, h8, h9, hi, hsc] <;> simp [Nat.add_assoc]
      · refine ⟨_, by
          simp only [onPoint, h1, hl, Option.bind_eq_bind, hval', Bool.false_eq_true, if_false]
          rw [if_neg hcv]
          rfl, ?_⟩
        have hi' : (if p.selfCorrection then
            ((steps (pts ++ [b])).filter (fun t => t.crossesSegments && !t.hasValidDirection p.rate)).length else 0)
            = (if p.selfCorrection then
            ((steps pts).filter (fun t => t.crossesSegments && !t.hasValidDirection p.rate)).length else 0) := by
          by_cases hsc : p.selfCorrection = true
          · rw [hsc, Bool.true_and] at hcv
            rw [if_neg hcv] at hi
            simp [hsc, hi]
          · simp [hsc]
        constructor <;> simp only [hv, hhead, h2, h3, h4, h5, h6, h7, h8, h9, hi'] <;> simp

/-- `build_segments` never crashes in a well-formed configuration and computes what `Built` says. -/
theorem buildSegments_built {p : Parameters} (h : p.WellFormed) (own : Nat) (s0 : SegState) (pts : List Pt) :
    ∃ s, buildSegments p own s0 pts = some s ∧ Built p own s0 pts s := by
  induction pts using List.reverseRecOn with
  | nil =>
    refine ⟨_, rfl, ?_⟩
    constructor <;> simp [validSteps, steps, questionsAll, withPrev]
  | append_singleton l b ih =>
    obtain ⟨s, hs, hb⟩ := ih
    obtain ⟨s', hs', hb'⟩ := onPoint_built h hb b
    refine ⟨s', ?_, hb'⟩
    simp only [buildSegments] at hs ⊢
    rw [List.foldlM_append, hs]
    simpa using hs'

end SegState
end S2G
