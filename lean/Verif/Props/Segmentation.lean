import Verif.Props.SegmentationLocal
import Verif.Props.DirectProtocol
import Mathlib.Data.List.Flatten

/-!
# C27, C28: the transitions of the whole cluster
-/

namespace S2G

/-- The whole series: the points of the nodes in index order. -/
def series (n : Nat) (pts : Nat → List Pt) : List Pt := (List.range n).flatMap pts

/-- The first point of the next node, if there is one. -/
def nextHead (n : Nat) (pts : Nat → List Pt) (i : Nat) : List Pt :=
  if i + 1 < n then (pts (i + 1)).head?.toList else []

theorem steps_series (n : Nat) (pts : Nat → List Pt) (h : ∀ i, 0 < i → i < n → pts i ≠ []) :
    steps (series n pts) = (List.range n).flatMap (fun i => steps (pts i ++ nextHead n pts i)) := by
  induction n generalizing pts with
  | zero => simp [series, steps]
  | succ n ih =>
    have e : series (n + 1) pts = pts 0 ++ series n (fun i => pts (i + 1)) := by
      simp [series, List.range_succ_eq_map, List.flatMap_map]
    have hh : (series n (fun i => pts (i + 1))).head?.toList = nextHead (n + 1) pts 0 := by
      cases n with
      | zero => simp [series, nextHead]
      | succ m =>
        have hne := h 1 (by omega) (by omega)
        cases h1 : pts 1 with
        | nil => exact absurd h1 hne
        | cons a l => simp [series, List.range_succ_eq_map, nextHead, h1]
    rw [e, steps_append, hh, ih (fun i => pts (i + 1)) (fun i _ hi => h (i + 1) (by omega) (by omega))]
    rw [List.range_succ_eq_map, List.flatMap_cons, List.flatMap_map]
    congr 1
    apply List.flatMap_congr
    intro i _
    simp [nextHead]

theorem validSteps_series (rate n : Nat) (pts : Nat → List Pt) (h : ∀ i, 0 < i → i < n → pts i ≠ []) :
    validSteps rate (series n pts)
      = (List.range n).flatMap (fun i => validSteps rate (pts i ++ nextHead n pts i)) := by
  rw [validSteps, steps_series n pts h, List.filter_flatMap]
  rfl

namespace SegState

theorem onFirstPoint_spec {p : Parameters} (h : p.WellFormed) {own : Nat} {pts : List Pt} {s : SegState}
    (hb : Built p own {} pts s) (x : Option Pt) (y : Option Trans) (pt : Pt) (first : Trans) {l' : SegState}
    (hl : onFirstPoint p own { s with sendPoint := x, sendTransition := y } pt first = some l') :
    (∀ a, l'.forNodes a = (validSteps p.rate (pts ++ [pt])).filter (fun t => owner p t.src.seg = a)) ∧
    l'.stored = (validSteps p.rate (pts ++ [pt])).filter (fun t => owner p t.src.seg = own) ∧
    ∃ lp lt, pts.getLast? = some lp ∧ (validSteps p.rate pts).getLast? = some lt ∧
    l'.questions = (if (Trans.mk lp pt).isValid p.rate then questionsAll p (validSteps p.rate (pts ++ [pt]))
      else questionsAll p (validSteps p.rate pts) ++ askBetween p (some lt) first).foldl (addQ p) NodeQuestions.clear := by
  obtain ⟨h1, h2, h3, h4, h5, h6, h7, h8, h9⟩ := hb
  have h7' : s.stored = (validSteps p.rate pts).filter (fun t => decide (owner p t.src.seg = own)) := by
    rw [h7]; rfl
  have h8' : s.questions = (questionsAll p (validSteps p.rate pts)).foldl (addQ p) NodeQuestions.clear := by
    rw [h8]
  have hv := validSteps_append_singleton p.rate pts pt
  cases hp : pts.getLast? with
  | none => simp [onFirstPoint, h1, hp] at hl
  | some lp =>
    rw [hp] at hv
    simp only at hv
    cases ht : (validSteps p.rate pts).getLast? with
    | none => simp [onFirstPoint, h1, h2, hp, ht] at hl
    | some lt =>
      by_cases hval : (Trans.mk lp pt).isValid p.rate = true
      · rw [if_pos hval] at hv
        simp only [onFirstPoint, h1, h2, hp, ht, Option.bind_eq_bind, Option.bind_some, hval, if_true,
          assign_owner h] at hl
        have hf := findSplits_eq h { s with
          sendPoint := x, sendTransition := y, lastPoint := none, lastTransition := some lt } (some lt) ⟨lp, pt⟩
        simp only [Option.map_some] at hf hl
        rw [hf] at hl
        simp only [Option.bind_some, Option.some.injEq] at hl
        subst hl
        refine ⟨?_, ?_, lp, lt, rfl, rfl, ?_⟩
        · intro c
          simp only [record, h6, hv, List.filter_append]
          by_cases hc : c = owner p lp.seg
          · simp [hc]
          · have : ¬ owner p lp.seg = c := fun e => hc e.symm
            simp [hc, this]
        · simp only [record, h7', hv, List.filter_append]
          by_cases hc : owner p lp.seg = own
          · simp [hc]
          · simp [hc]
        · rw [if_pos hval]
          simp only [record, h8', hv]
          rw [questionsAll, questionsAll, withPrev_append_singleton, List.flatMap_append, ht]
          simp
      · have hval' : (Trans.mk lp pt).isValid p.rate = false := by simpa using hval
        rw [if_neg hval, List.append_nil] at hv
        simp only [onFirstPoint, h1, h2, hp, ht, Option.bind_eq_bind, Option.bind_some, hval', Bool.false_eq_true,
          if_false, assign_owner h] at hl
        rw [splitBetween_eq h] at hl
        simp only [Option.some.injEq] at hl
        subst hl
        refine ⟨?_, ?_, lp, lt, rfl, rfl, ?_⟩
        · intro c; simp only [h6, hv]
        · simp only [h7', hv]
        · rw [if_neg hval]
          simp only [h8', List.foldl_append]

end SegState

namespace SegNet

/-- The transitions of node `i`'s part (including the step to the next node's first point) that start in a
segment of node `a`. -/
def partOf (p : Parameters) (pts : Nat → List Pt) (i a : Nat) : List Trans :=
  (validSteps p.rate (pts i ++ nextHead p.nClusterNodes pts i)).filter (fun t => owner p t.src.seg = a)

/-- Inductive invariant of the segmentation. -/
structure Inv (p : Parameters) (pts : Nat → List Pt) (s : SegNet) : Prop where
  net : DirectNet.Reachable false p.nClusterNodes s.net
  idle : ∀ i < p.nClusterNodes, s.loc i = none → s.net.started i = false
  waiting : ∀ i < p.nClusterNodes, ∀ l, s.loc i = some l → s.net.started i = false →
    i + 1 < p.nClusterNodes ∧ ∃ l0, SegState.Built p i {} (pts i) l0 ∧
      l = { l0 with sendPoint := none, sendTransition := none }
  started : ∀ i < p.nClusterNodes, s.net.started i = true → ∃ l, s.loc i = some l ∧
    l.stored = partOf p pts i i ∧ (∀ a, s.net.pay i a = partOf p pts i a) ∧
    (i + 1 < p.nClusterNodes → (validSteps p.rate (pts (i + 1)) ≠ [] ∧ validSteps p.rate (pts i) ≠ []) ∧
      s.loc (i + 1) ≠ none ∧ s.first i = none)
  first : ∀ i pt t, s.first i = some (pt, t) → i + 1 < p.nClusterNodes ∧ (pts (i + 1)).head? = some pt ∧
    (validSteps p.rate (pts (i + 1))).head? = some t ∧ s.loc (i + 1) ≠ none ∧ s.net.started i = false

theorem inv_init (p : Parameters) (pts : Nat → List Pt) : Inv p pts init where
  net := .init _
  idle := fun _ _ _ => rfl
  waiting := fun _ _ _ h => by simp [init] at h
  started := fun _ _ h => by simp [init, DirectNet.init] at h
  first := fun _ _ _ h => by simp [init] at h

@[simp] theorem startStep_started {P : Type} (n : Nat) (s : DirectNet P) (i : Nat) (f : Nat → P) :
    (DirectNet.startStep false n s i f).started = Function.update s.started i true := rfl
@[simp] theorem startStep_pay {P : Type} (n : Nat) (s : DirectNet P) (i : Nat) (f : Nat → P) :
    (DirectNet.startStep false n s i f).pay = Function.update s.pay i f := rfl
@[simp] theorem handleStep_started {P : Type} (s : DirectNet P) (m : DMsg P) (r : List (DMsg P)) :
    (DirectNet.handleStep s m r).started = s.started := by
  unfold DirectNet.handleStep; rcases h : (s.proto m.dst).received m with ⟨_ | _, q⟩ <;> simp only [h]
@[simp] theorem handleStep_pay {P : Type} (s : DirectNet P) (m : DMsg P) (r : List (DMsg P)) :
    (DirectNet.handleStep s m r).pay = s.pay := by
  unfold DirectNet.handleStep; rcases h : (s.proto m.dst).received m with ⟨_ | _, q⟩ <;> simp only [h]

theorem inv_exchange {p : Parameters} {pts : Nat → List Pt} {s : SegNet} (h : Inv p pts s)
    {pre post : List (DMsg (List Trans))} {m : DMsg (List Trans)} (hm : s.net.pool = pre ++ m :: post) :
    Inv p pts { s with net := DirectNet.handleStep s.net m (pre ++ post) } where
  net := .step h.net (.handle s.net pre post m hm)
  idle := by simpa using h.idle
  waiting := by simpa using h.waiting
  started := by simpa using h.started
  first := by simpa using h.first

theorem inv_crash {p : Parameters} {pts : Nat → List Pt} {s : SegNet} (h : Inv p pts s) :
    Inv p pts { s with crashed := true } := ⟨h.net, h.idle, h.waiting, h.started, h.first⟩

theorem inv_dropFirst {p : Parameters} {pts : Nat → List Pt} {s : SegNet} (h : Inv p pts s) (i : Nat) :
    Inv p pts { s with first := Function.update s.first i none } where
  net := h.net
  idle := h.idle
  waiting := h.waiting
  started := by
    intro j hj hs
    obtain ⟨l, h1, h2, h3, h4⟩ := h.started j hj hs
    refine ⟨l, h1, h2, h3, fun hlt => ?_⟩
    obtain ⟨h5, h6, h7⟩ := h4 hlt
    refine ⟨h5, h6, ?_⟩
    by_cases hji : j = i
    · subst hji; simp
    · simpa [Function.update_of_ne hji] using h7
  first := by
    intro j pt t hf
    by_cases hji : j = i
    · subst hji; simp at hf
    · simp only [Function.update_of_ne hji] at hf
      exact h.first j pt t hf

theorem inv_segment {p : Parameters} (hp : p.WellFormed) {pts : Nat → List Pt} {s : SegNet} (h : Inv p pts s)
    {i : Nat} (hi : i < p.nClusterNodes) (hn : s.loc i = none) : Inv p pts (segment p pts s i) := by
  obtain ⟨l, hl, hb⟩ := SegState.buildSegments_built hp i {} (pts i)
  have hns := h.idle i hi hn
  have hsp : l.sendPoint = if i ≠ 0 then (pts i).head? else none := by
    rw [hb.sendPoint]; split <;> simp
  have hst : l.sendTransition = (validSteps p.rate (pts i)).head? := by rw [hb.sendTransition]; rfl
  -- the state after sending the first point
  let l1 : SegState := { l with sendPoint := none, sendTransition := none }
  let f : Nat → Option (Pt × Trans) := trySend p s.first i l.sendPoint l.sendTransition
  have hf1 : ∀ j pt t, f j = some (pt, t) → s.first j = some (pt, t) ∨
      (j + 1 = i ∧ (pts i).head? = some pt ∧ (validSteps p.rate (pts i)).head? = some t) := by
    intro j pt t hj
    simp only [f] at hj
    cases e1 : l.sendPoint with
    | none => rw [e1] at hj; exact Or.inl hj
    | some pt' =>
      cases e2 : l.sendTransition with
      | none => rw [e1, e2] at hj; exact Or.inl hj
      | some t' =>
        rw [e1, e2] at hj
        simp only [trySend] at hj
        have hi0 : i ≠ 0 := by
          rintro rfl; rw [hsp] at e1; simp at e1
        rw [hsp, if_pos hi0] at e1
        rw [hst] at e2
        rw [if_neg hi0] at hj
        split at hj
        · exact Or.inl hj
        · by_cases hji : j = i - 1
          · subst hji
            simp only [Function.update_self, Option.some.injEq, Prod.mk.injEq] at hj
            obtain ⟨rfl, rfl⟩ := hj
            exact Or.inr ⟨by omega, e1, e2⟩
          · rw [Function.update_of_ne hji] at hj; exact Or.inl hj
  have hf2 : ∀ j, j + 1 ≠ i → f j = s.first j := by
    intro j hj
    simp only [f]
    cases e1 : l.sendPoint with
    | none => rfl
    | some pt' =>
      cases e2 : l.sendTransition with
      | none => rfl
      | some t' =>
        simp only [trySend]
        have hi0 : i ≠ 0 := by
          rintro rfl; rw [hsp] at e1; simp at e1
        rw [if_neg hi0]
        split
        · rfl
        · rw [Function.update_of_ne (by omega)]
  have hnone : ∀ j, j + 1 = i → s.first j = none := by
    intro j hj
    cases hc : s.first j with
    | none => rfl
    | some x =>
      have := (h.first j x.1 x.2 hc).2.2.2.1
      rw [hj] at this; exact absurd hn this
  have hpred : ∀ j < p.nClusterNodes, s.net.started j = true → j + 1 ≠ i := by
    rintro j hj hs rfl
    obtain ⟨_, _, _, _, h4⟩ := h.started j hj hs
    exact (h4 hi).2.1 hn
  have hInvStarted : ∀ j < p.nClusterNodes, s.net.started j = true → ∃ l,
      Function.update s.loc i (some l1) j = some l ∧ l.stored = partOf p pts j j ∧
      (∀ a, s.net.pay j a = partOf p pts j a) ∧
      (j + 1 < p.nClusterNodes → (validSteps p.rate (pts (j + 1)) ≠ [] ∧ validSteps p.rate (pts j) ≠ []) ∧
        Function.update s.loc i (some l1) (j + 1) ≠ none ∧ f j = none) := by
    intro j hj hs
    have hji : j ≠ i := by rintro rfl; rw [hns] at hs; cases hs
    obtain ⟨l2, a1, a2, a3, a4⟩ := h.started j hj hs
    refine ⟨l2, by rw [Function.update_of_ne hji]; exact a1, a2, a3, fun hlt => ?_⟩
    obtain ⟨b1, b2, b3⟩ := a4 hlt
    have hji' := hpred j hj hs
    exact ⟨b1, by rw [Function.update_of_ne hji']; exact b2, by rw [hf2 j hji']; exact b3⟩
  have hInvFirst : ∀ j pt t, f j = some (pt, t) → j + 1 < p.nClusterNodes ∧ (pts (j + 1)).head? = some pt ∧
      (validSteps p.rate (pts (j + 1))).head? = some t ∧ Function.update s.loc i (some l1) (j + 1) ≠ none ∧
      s.net.started j = false := by
    intro j pt t hj
    rcases hf1 j pt t hj with hj | ⟨rfl, e1, e2⟩
    · obtain ⟨a1, a2, a3, a4, a5⟩ := h.first j pt t hj
      refine ⟨a1, a2, a3, ?_, a5⟩
      by_cases hji : j + 1 = i
      · rw [hji]; simp
      · rw [Function.update_of_ne hji]; exact a4
    · refine ⟨hi, e1, e2, by simp, ?_⟩
      cases hc : s.net.started j with
      | false => rfl
      | true => exact absurd rfl (hpred j (by omega) hc)
  have hInvIdle : ∀ j < p.nClusterNodes, Function.update s.loc i (some l1) j = none → s.net.started j = false := by
    intro j hj hj2
    by_cases hji : j = i
    · subst hji; simp at hj2
    · rw [Function.update_of_ne hji] at hj2; exact h.idle j hj hj2
  unfold segment
  rw [hl]
  simp only
  change Inv p pts (if p.nClusterNodes ≥ 2 ∧ i ≠ p.nClusterNodes - 1 then
    { s with loc := Function.update s.loc i (some l1), first := f }
    else distribute p { s with loc := Function.update s.loc i (some l1), first := f } i l)
  by_cases hw : p.nClusterNodes ≥ 2 ∧ i ≠ p.nClusterNodes - 1
  · rw [if_pos hw]
    refine ⟨h.net, hInvIdle, ?_, hInvStarted, hInvFirst⟩
    intro j hj l2 hl2 hs
    by_cases hji : j = i
    · subst hji
      simp only [Function.update_self, Option.some.injEq] at hl2
      exact ⟨by omega, l, hb, hl2.symm⟩
    · simp only [Function.update_of_ne hji] at hl2
      exact h.waiting j hj l2 hl2 hs
  · rw [if_neg hw]
    have hlast : ¬ i + 1 < p.nClusterNodes := by omega
    refine ⟨.step h.net (.start s.net i l.forNodes hi hns), ?_, ?_, ?_, ?_⟩
    · intro j hj hj2
      by_cases hji : j = i
      · subst hji; simp [distribute] at hj2
      · simp only [distribute, startStep_started, Function.update_of_ne hji]
        exact hInvIdle j hj hj2
    · intro j hj l2 hl2 hs
      by_cases hji : j = i
      · subst hji; simp [distribute] at hs
      · simp only [distribute, startStep_started, Function.update_of_ne hji] at hs hl2
        exact h.waiting j hj l2 hl2 hs
    · intro j hj hs
      by_cases hji : j = i
      · subst hji
        refine ⟨l1, by simp [distribute], ?_, ?_, fun hlt => absurd hlt hlast⟩
        · simp only [l1]
          rw [hb.stored, partOf, nextHead, if_neg hlast, List.append_nil]; simp
        · intro a
          simp only [distribute, startStep_pay, Function.update_self]
          rw [hb.forNodes, partOf, nextHead, if_neg hlast, List.append_nil]
      · simp only [distribute, startStep_started, Function.update_of_ne hji, startStep_pay] at hs ⊢
        have := hInvStarted j hj hs
        simpa only [Function.update_of_ne hji] using this
    · intro j pt t hj
      obtain ⟨a1, a2, a3, a4, a5⟩ := hInvFirst j pt t hj
      refine ⟨a1, a2, a3, a4, ?_⟩
      have hji : j ≠ i := by omega
      simp only [distribute, startStep_started, Function.update_of_ne hji]
      exact a5

theorem inv_handleFirst {p : Parameters} (hp : p.WellFormed) {pts : Nat → List Pt} {s : SegNet} (h : Inv p pts s)
    {i : Nat} {pt : Pt} {t : Trans} (hf : s.first i = some (pt, t)) : Inv p pts (handleFirst p s i pt t) := by
  obtain ⟨a1, a2, a3, a4, a5⟩ := h.first i pt t hf
  have h' := inv_dropFirst h i
  unfold handleFirst
  simp only
  cases hloc : s.loc i with
  | none => exact inv_crash h'
  | some l =>
    simp only
    cases hl : l.onFirstPoint p i pt t with
    | none => exact inv_crash h'
    | some l' =>
      simp only
      obtain ⟨_, l0, hb, rfl⟩ := h.waiting i (by omega) l hloc a5
      obtain ⟨e1, e2, lp, lt, _, e3, _⟩ := SegState.onFirstPoint_spec hp hb none none pt t hl
      have hne : validSteps p.rate (pts (i + 1)) ≠ [] ∧ validSteps p.rate (pts i) ≠ [] := by
        constructor
        · intro e; rw [e] at a3; cases a3
        · intro e; rw [e] at e3; cases e3
      have hnh : nextHead p.nClusterNodes pts i = [pt] := by simp [nextHead, a1, a2]
      refine ⟨.step h.net (.start s.net i l'.forNodes (by omega) a5), ?_, ?_, ?_, ?_⟩
      · intro j hj hj2
        by_cases hji : j = i
        · subst hji; simp [distribute] at hj2
        · simp only [distribute, startStep_started, Function.update_of_ne hji] at hj2 ⊢
          exact h.idle j hj hj2
      · intro j hj l2 hl2 hs
        by_cases hji : j = i
        · subst hji; simp [distribute] at hs
        · simp only [distribute, startStep_started, Function.update_of_ne hji] at hs hl2
          exact h.waiting j hj l2 hl2 hs
      · intro j hj hs
        by_cases hji : j = i
        · subst hji
          refine ⟨{ l' with forNodes := fun _ => [] }, by simp [distribute], ?_, ?_, fun _ => ⟨hne, ?_, by simp [distribute]⟩⟩
          · simp only [e2, partOf, hnh]
          · intro a
            simp only [distribute, startStep_pay, Function.update_self, e1, partOf, hnh]
          · simp only [distribute]
            rw [Function.update_of_ne (by omega)]; exact a4
        · simp only [distribute, startStep_started, Function.update_of_ne hji, startStep_pay] at hs ⊢
          obtain ⟨l2, b1, b2, b3, b4⟩ := h'.started j hj hs
          refine ⟨l2, b1, b2, b3, fun hlt => ?_⟩
          obtain ⟨c1, c2, c3⟩ := b4 hlt
          simp only [Function.update_of_ne hji] at c3
          refine ⟨c1, ?_, c3⟩
          by_cases hji' : j + 1 = i
          · rw [hji']; simp
          · rw [Function.update_of_ne hji']; exact c2
      · intro j pt' t' hj
        obtain ⟨b1, b2, b3, b4, b5⟩ := h'.first j pt' t' hj
        have hji : j ≠ i := by rintro rfl; simp [distribute] at hj
        refine ⟨b1, b2, b3, ?_, ?_⟩
        · simp only [distribute]
          by_cases hji' : j + 1 = i
          · rw [hji']; simp
          · rw [Function.update_of_ne hji']; exact b4
        · simp only [distribute, startStep_started, Function.update_of_ne hji]; exact b5

theorem inv_reachable {p : Parameters} (hp : p.WellFormed) {pts : Nat → List Pt} {s : SegNet}
    (h : Reachable p pts s) : Inv p pts s := by
  induction h with
  | init => exact inv_init p pts
  | step _ hs ih =>
    cases hs with
    | segment i hi hn hc => exact inv_segment hp ih hi hn
    | first i pt t hf hc => exact inv_handleFirst hp ih hf
    | exchange pre post m hm hc => exact inv_exchange ih hm

/-! ## Property theorems -/

/-- C27 (every schedule): when node `j` has announced the end of the segmentation, its data store contains
exactly the valid steps of the whole series that start in a segment of node `j`, each exactly as often as it
occurs in the series, including the steps across the borders of the nodes' parts. -/
theorem C27_stored_at_owner {p : Parameters} (hp : p.WellFormed) {pts : Nat → List Pt} {s : SegNet}
    (h : Reachable p pts s) {j : Nat} (hj : j < p.nClusterNodes) (hd : s.net.done j = 1) :
    (s.store j).Perm ((validSteps p.rate (series p.nClusterNodes pts)).filter
      (fun t => p.segmentIdToAssignment t.src.seg = some j)) := by
  have hI := inv_reachable hp h
  obtain ⟨h1, h2, h3⟩ := (DirectNet.C17_done_complete hI.net hj).2 hd
  have hst : ∀ i < p.nClusterNodes, s.net.started i = true := by
    intro i hi
    by_cases hij : i = j
    · rw [hij]; exact h1
    · exact h2 i hi (Or.inr hij)
  have hne : ∀ i, 0 < i → i < p.nClusterNodes → pts i ≠ [] := by
    intro i h0 hi
    obtain ⟨_, _, _, _, h4⟩ := hI.started (i - 1) (by omega) (hst _ (by omega))
    have := (h4 (by omega)).1.1
    rw [Nat.sub_add_cancel (by omega)] at this
    intro e
    exact this (by rw [e]; rfl)
  rw [validSteps_series p.rate p.nClusterNodes pts hne, List.filter_flatMap]
  obtain ⟨l, hl, hstored, hpay, _⟩ := hI.started j hj h1
  have hpart : ∀ i, (validSteps p.rate (pts i ++ nextHead p.nClusterNodes pts i)).filter
      (fun t => decide (p.segmentIdToAssignment t.src.seg = some j)) = partOf p pts i j := by
    intro i
    rw [partOf]
    congr 1
    funext t
    rw [assign_owner hp]; simp
  simp only [hpart]
  have hperm : (j :: DirectNet.peers false p.nClusterNodes j).Perm (List.range p.nClusterNodes) := by
    refine (List.perm_ext_iff_of_nodup ?_ List.nodup_range).2 ?_
    · refine List.nodup_cons.2 ⟨?_, DirectNet.nodup_peers⟩
      simp [DirectNet.mem_peers]
    · intro a
      simp only [List.mem_cons, DirectNet.mem_peers, List.mem_range]
      constructor
      · rintro (rfl | h')
        · exact hj
        · exact h'.1
      · intro ha
        by_cases hh : a = j
        · exact Or.inl hh
        · exact Or.inr ⟨ha, Or.inr hh⟩
  refine List.Perm.trans ?_ (hperm.flatMap_right _)
  rw [List.flatMap_cons, store, hl]
  simp only [Option.map_some, Option.getD_some, hstored]
  refine List.Perm.append_left _ ?_
  refine (h3.flatMap_right _).trans ?_
  rw [List.flatMap_map]
  refine List.Perm.of_eq ?_
  apply List.flatMap_congr
  intro i hi
  have hi' := (DirectNet.mem_peers.1 hi).1
  obtain ⟨_, _, _, hpay', _⟩ := hI.started i hi' (hst i hi')
  exact hpay' j

/-- C27 globally: when all nodes have announced the end, the multiset of all stored transitions is the
multiset of the valid steps of the whole series. -/
theorem C27_all_stored {p : Parameters} (hp : p.WellFormed) {pts : Nat → List Pt} {s : SegNet}
    (h : Reachable p pts s) (hd : ∀ j < p.nClusterNodes, s.net.done j = 1) :
    ((List.range p.nClusterNodes).flatMap s.store).Perm
      (validSteps p.rate (series p.nClusterNodes pts)) := by
  have key : ∀ (ts : List Trans) (n : Nat), (∀ t ∈ ts, owner p t.src.seg < n) →
      ((List.range n).flatMap (fun j => ts.filter (fun t => decide (owner p t.src.seg = j)))).Perm ts := by
    intro ts
    induction ts with
    | nil => intro n _; simp
    | cons t ts ih =>
      intro n hn
      have ht := hn t (List.mem_cons_self ..)
      have ih := ih n (fun u hu => hn u (List.mem_cons_of_mem _ hu))
      refine List.Perm.trans ?_ (ih.cons t)
      have : ∀ m, owner p t.src.seg < m →
          ((List.range m).flatMap (fun j => (t :: ts).filter (fun t => decide (owner p t.src.seg = j)))).Perm
          (t :: (List.range m).flatMap (fun j => ts.filter (fun t => decide (owner p t.src.seg = j)))) := by
        intro m
        induction m with
        | zero => intro h; omega
        | succ m ihm =>
          intro hm
          rw [List.range_succ, List.flatMap_append, List.flatMap_append]
          by_cases hc : owner p t.src.seg = m
          · have e : (List.range m).flatMap (fun j => (t :: ts).filter (fun t => decide (owner p t.src.seg = j)))
                = (List.range m).flatMap (fun j => ts.filter (fun t => decide (owner p t.src.seg = j))) := by
              apply List.flatMap_congr
              intro j hj
              rw [List.mem_range] at hj
              rw [List.filter_cons_of_neg (by simp; omega)]
            rw [e]
            simp only [List.flatMap_cons, List.flatMap_nil, List.append_nil]
            rw [List.filter_cons_of_pos (by simp [hc])]
            exact List.perm_middle
          · have := ihm (by omega)
            simp only [List.flatMap_cons, List.flatMap_nil, List.append_nil]
            rw [List.filter_cons_of_neg (by simp [hc])]
            exact this.append_right _
      exact this n ht
  refine List.Perm.trans ?_ (key _ p.nClusterNodes (fun t _ => owner_lt hp _))
  apply List.Perm.flatMap_left
  intro j hj
  rw [List.mem_range] at hj
  have := C27_stored_at_owner hp h hj (hd j hj)
  simpa [assign_owner hp] using this

/-! ## C28: when does segmentation terminate? -/

/-- C28 (negative part, every schedule): if in a cluster of several nodes some node's part contains no valid
step, then no node ever finishes the segmentation. -/
theorem C28_never_done {p : Parameters} (hp : p.WellFormed) (hn : 2 ≤ p.nClusterNodes) {pts : Nat → List Pt}
    {i : Nat} (hi : i < p.nClusterNodes) (hv : validSteps p.rate (pts i) = []) {s : SegNet}
    (h : Reachable p pts s) : ∀ j < p.nClusterNodes, s.net.done j = 0 := by
  intro j hj
  have hI := inv_reachable hp h
  have hd := DirectNet.C17_done_complete hI.net hj
  by_contra hne
  obtain ⟨h1, h2, _⟩ := hd.2 (by omega)
  have hst : ∀ i < p.nClusterNodes, s.net.started i = true := by
    intro i hi
    by_cases hij : i = j
    · rw [hij]; exact h1
    · exact h2 i hi (Or.inr hij)
  by_cases hlt : i + 1 < p.nClusterNodes
  · obtain ⟨_, _, _, _, h4⟩ := hI.started i hi (hst i hi)
    exact (h4 hlt).1.2 hv
  · obtain ⟨_, _, _, _, h4⟩ := hI.started (i - 1) (by omega) (hst _ (by omega))
    have := (h4 (by omega)).1.1
    rw [Nat.sub_add_cancel (by omega)] at this
    exact this hv

/-- The first point of a node with a valid step was sent to the previous node. -/
theorem sent_reachable {p : Parameters} (hp : p.WellFormed) {pts : Nat → List Pt} {s : SegNet}
    (h : Reachable p pts s) : s.crashed = false → ∀ i, i + 1 < p.nClusterNodes → s.loc (i + 1) ≠ none →
      validSteps p.rate (pts (i + 1)) ≠ [] → s.first i ≠ none ∨ s.net.started i = true := by
  induction h with
  | init => intro _ i _ h; simp [init] at h
  | @step s t hr hs ih =>
    have hI := inv_reachable hp hr
    cases hs with
    | segment k hk hn hc =>
      intro hc' i hi hloc hv
      have ih := ih hc
      obtain ⟨l, hl, hb⟩ := SegState.buildSegments_built hp k {} (pts k)
      have hsp : l.sendPoint = if k ≠ 0 then (pts k).head? else none := by
        rw [hb.sendPoint]; split <;> simp
      have hst : l.sendTransition = (validSteps p.rate (pts k)).head? := by rw [hb.sendTransition]; rfl
      have hmono : s.net.started i = true → (segment p pts s k).net.started i = true := by
        intro h
        simp only [segment, hl]
        split
        · exact h
        · simp only [distribute, startStep_started]
          by_cases hki : i = k
          · subst hki; simp
          · rw [Function.update_of_ne hki]; exact h
      have hfirst : (segment p pts s k).first = trySend p s.first k l.sendPoint l.sendTransition := by
        simp only [segment, hl]
        split <;> rfl
      have hlocEq : (segment p pts s k).loc = Function.update s.loc k
          (some { l with sendPoint := none, sendTransition := none }) := by
        simp only [segment, hl]
        split <;> rfl
      rw [hlocEq] at hloc
      rw [hfirst]
      have hi0 : k ≠ 0 → ∀ pt t, l.sendPoint = some pt → l.sendTransition = some t →
          trySend p s.first k l.sendPoint l.sendTransition = Function.update s.first (k - 1) (some (pt, t)) := by
        intro h0 pt t e1 e2
        rw [e1, e2]
        simp only [trySend]
        rw [if_neg (by omega), if_neg h0]
      by_cases hki : i + 1 = k
      · left
        have h0 : k ≠ 0 := by omega
        rw [hki] at hv
        cases hvs : validSteps p.rate (pts k) with
        | nil => exact absurd hvs hv
        | cons t ts =>
          cases hps : pts k with
          | nil => rw [hps] at hvs; simp [validSteps, steps] at hvs
          | cons a as =>
            rw [hi0 h0 a t (by rw [hsp, if_pos h0, hps]; rfl) (by rw [hst, hvs]; rfl)]
            have : i = k - 1 := by omega
            subst this; simp
      · rw [Function.update_of_ne hki] at hloc
        rcases ih i hi hloc hv with h1 | h1
        · left
          cases e1 : l.sendPoint with
          | none => exact h1
          | some pt =>
            cases e2 : l.sendTransition with
            | none => exact h1
            | some t =>
              have h0 : k ≠ 0 := by rintro rfl; rw [hsp] at e1; simp at e1
              rw [← e1, ← e2, hi0 h0 pt t e1 e2, Function.update_of_ne (by omega)]
              exact h1
        · right; exact hmono h1
    | first k pt t hf hc =>
      intro hc' i hi hloc hv
      have ih := ih hc
      unfold handleFirst at hc' hloc ⊢
      simp only at hc' hloc ⊢
      cases hlk : s.loc k with
      | none => rw [hlk] at hc'; simp at hc'
      | some l =>
        rw [hlk] at hc' hloc
        simp only at hc' hloc ⊢
        cases hlo : l.onFirstPoint p k pt t with
        | none => rw [hlo] at hc'; simp at hc'
        | some l' =>
          rw [hlo] at hloc
          simp only [distribute, startStep_started] at hloc ⊢
          by_cases hik : i = k
          · subst hik; right; simp
          · rw [Function.update_of_ne hik, Function.update_of_ne hik]
            have hloc' : s.loc (i + 1) ≠ none := by
              by_cases hik' : i + 1 = k
              · rw [hik', hlk]; simp
              · rwa [Function.update_of_ne hik'] at hloc
            exact ih i hi hloc' hv
    | exchange pre post m hm hc =>
      intro hc' i hi hloc hv
      simpa using ih hc i hi hloc hv

/-- C28 (positive part): if every node's part contains a valid step, then a schedule can only get stuck when
all nodes have finished (or an actor has crashed). Missing for the full property: parts without valid steps
(see `C28_never_done`) and the race of `C28_crash_cause`. -/
theorem C28_progress_of_transitions {p : Parameters} (hp : p.WellFormed) {pts : Nat → List Pt}
    (hv : ∀ i < p.nClusterNodes, validSteps p.rate (pts i) ≠ []) {s : SegNet} (h : Reachable p pts s)
    (hc : s.crashed = false) (hstuck : ¬ ∃ t, Step p pts s t) : ∀ j < p.nClusterNodes, s.net.done j = 1 := by
  have hI := inv_reachable hp h
  have hloc : ∀ i < p.nClusterNodes, s.loc i ≠ none := fun i hi hn =>
    hstuck ⟨_, .segment s i hi hn hc⟩
  have hfirst : ∀ i, s.first i = none := by
    intro i
    cases hf : s.first i with
    | none => rfl
    | some x => exact absurd ⟨_, .first s i x.1 x.2 hf hc⟩ hstuck
  have hpool : s.net.pool = [] := by
    cases hq : s.net.pool with
    | nil => rfl
    | cons m rest => exact absurd ⟨_, .exchange s [] rest m (by simpa using hq) hc⟩ hstuck
  have hst : ∀ i < p.nClusterNodes, s.net.started i = true := by
    intro i hi
    by_cases hlt : i + 1 < p.nClusterNodes
    · rcases sent_reachable hp h hc i hlt (hloc _ hlt) (hv _ hlt) with h1 | h1
      · exact absurd (hfirst i) h1
      · exact h1
    · cases hs : s.net.started i with
      | true => rfl
      | false =>
        cases hl : s.loc i with
        | none => exact absurd hl (hloc i hi)
        | some l => exact absurd (hI.waiting i hi l hl hs).1 hlt
  intro j hj
  exact DirectNet.C17_quiescent_done hI.net hst hpool hj

theorem onFirstPoint_some {p : Parameters} (hp : p.WellFormed) {own : Nat} {pts : List Pt} {l0 : SegState}
    (hb : SegState.Built p own {} pts l0) (hv : validSteps p.rate pts ≠ []) (pt : Pt) (t : Trans) :
    ∃ l', SegState.onFirstPoint p own { l0 with sendPoint := none, sendTransition := none } pt t = some l' := by
  have h1 := hb.lastPoint
  have h2 := hb.lastTransition
  cases hlt : (validSteps p.rate pts).getLast? with
  | none => exact absurd (by simpa using hlt) hv
  | some lt =>
    cases hlp : pts.getLast? with
    | none =>
      have : pts = [] := by simpa using hlp
      subst this; exact absurd rfl hv
    | some lp =>
      simp only [SegState.onFirstPoint, h1, h2, hlp, hlt, Option.bind_eq_bind, Option.bind_some, assign_owner hp]
      split
      · have := SegState.findSplits_eq hp { l0 with
          sendPoint := none, sendTransition := none, lastPoint := none } (some lt) ⟨lp, pt⟩
        simp only [Option.map_some, h2, hlt] at this
        rw [this]
        exact ⟨_, rfl⟩
      · rw [SegState.splitBetween_eq hp]
        exact ⟨_, rfl⟩

/-- C28 (crashes, every schedule): an actor crashes only when a first point reaches a node that has not yet
segmented its own points, or whose part contains no valid step. -/
theorem C28_crash_cause {p : Parameters} (hp : p.WellFormed) {pts : Nat → List Pt} {s t : SegNet}
    (h : Reachable p pts s) (hst : Step p pts s t) (hc : t.crashed = true) :
    ∃ i, s.first i ≠ none ∧ (s.loc i = none ∨ validSteps p.rate (pts i) = []) := by
  have hI := inv_reachable hp h
  cases hst with
  | segment i hi hn hcs =>
    obtain ⟨l, hl, _⟩ := SegState.buildSegments_built hp i {} (pts i)
    exfalso
    simp only [segment, hl] at hc
    split at hc <;> simp [distribute, hcs] at hc
  | first i pt tr hf hcs =>
    refine ⟨i, by simp [hf], ?_⟩
    by_contra hcon
    push Not at hcon
    obtain ⟨c1, c2⟩ := hcon
    obtain ⟨a1, _, _, _, a5⟩ := hI.first i pt tr hf
    cases hl : s.loc i with
    | none => exact c1 hl
    | some l =>
      obtain ⟨_, l0, hb, rfl⟩ := hI.waiting i (by omega) l hl a5
      obtain ⟨l', hl'⟩ := onFirstPoint_some hp hb c2 pt tr
      simp [handleFirst, hl, hl', distribute, hcs] at hc
  | exchange pre post m hm hcs => rw [hcs] at hc; cases hc

/-- Nodes that have not segmented yet (twice) and first points in flight. -/
def pend (n : Nat) (loc : Nat → Option SegState) (first : Nat → Option (Pt × Trans)) : Nat :=
  ((List.range n).map (fun i => (if (loc i).isNone then 2 else 0) + (if (first i).isSome then 1 else 0))).sum

theorem pend_loc_none {n i : Nat} {loc : Nat → Option SegState} (hi : i < n) (hn : loc i = none)
    (l : SegState) (first : Nat → Option (Pt × Trans)) :
    pend n (Function.update loc i (some l)) first + 2 = pend n loc first := by
  have := DirectNet.sum_range_update
    (fun j => (if (Function.update loc i (some l) j).isNone then 2 else 0) + (if (first j).isSome then 1 else 0))
    (fun j => (if (loc j).isNone then 2 else 0) + (if (first j).isSome then 1 else 0)) i
    (by intro j hj; simp only [Function.update_of_ne hj]) n hi
  simp only [Function.update_self, hn, Option.isNone_none, Option.isNone_some, if_true, Bool.false_eq_true,
    if_false] at this
  unfold pend
  omega

theorem pend_loc_some {n i : Nat} {loc : Nat → Option SegState} {l0 : SegState} (hn : loc i = some l0)
    (l : SegState) (first : Nat → Option (Pt × Trans)) :
    pend n (Function.update loc i (some l)) first = pend n loc first := by
  unfold pend
  congr 1
  apply List.map_congr_left
  intro j _
  by_cases hji : j = i
  · subst hji; simp [hn]
  · simp only [Function.update_of_ne hji]

theorem pend_first_none {n i : Nat} (loc : Nat → Option SegState) {first : Nat → Option (Pt × Trans)} (hi : i < n)
    {x : Pt × Trans} (hf : first i = some x) : pend n loc (Function.update first i none) + 1 = pend n loc first := by
  have := DirectNet.sum_range_update
    (fun j => (if (loc j).isNone then 2 else 0) + (if (Function.update first i none j).isSome then 1 else 0))
    (fun j => (if (loc j).isNone then 2 else 0) + (if (first j).isSome then 1 else 0)) i
    (by intro j hj; simp only [Function.update_of_ne hj]) n hi
  simp only [Function.update_self, hf, Option.isSome_none, Option.isSome_some, if_true, Bool.false_eq_true,
    if_false] at this
  unfold pend
  omega

theorem pend_first_le {n i : Nat} (loc : Nat → Option SegState) (first : Nat → Option (Pt × Trans)) (hi : i < n)
    (x : Option (Pt × Trans)) : pend n loc (Function.update first i x) ≤ pend n loc first + 1 := by
  have := DirectNet.sum_range_update
    (fun j => (if (loc j).isNone then 2 else 0) + (if (Function.update first i x j).isSome then 1 else 0))
    (fun j => (if (loc j).isNone then 2 else 0) + (if (first j).isSome then 1 else 0)) i
    (by intro j hj; simp only [Function.update_of_ne hj]) n hi
  simp only [Function.update_self] at this
  have hx : (if x.isSome = true then 1 else 0) ≤ 1 := by split <;> omega
  unfold pend
  omega

theorem pend_trySend_le {p : Parameters} {i : Nat} (hi : i < p.nClusterNodes) (loc : Nat → Option SegState)
    (first : Nat → Option (Pt × Trans)) (a : Option Pt) (b : Option Trans) :
    pend p.nClusterNodes loc (trySend p first i a b) ≤ pend p.nClusterNodes loc first + 1 := by
  unfold trySend
  split
  · split
    · omega
    · exact pend_first_le _ _ (by split <;> omega) _
  · omega

/-- Work left. -/
def remaining (p : Parameters) (s : SegNet) : Nat :=
  pend p.nClusterNodes s.loc s.first + DirectNet.remaining p.nClusterNodes s.net

/-- C28 (termination, every schedule): every step decreases the work left, so no schedule is infinite. -/
theorem C28_terminates {p : Parameters} (hp : p.WellFormed) {pts : Nat → List Pt} {s t : SegNet}
    (h : Reachable p pts s) (hst : Step p pts s t) : remaining p t < remaining p s := by
  have hI := inv_reachable hp h
  cases hst with
  | segment i hi hn hc =>
    obtain ⟨l, hl, hb⟩ := SegState.buildSegments_built hp i {} (pts i)
    have hns := hI.idle i hi hn
    have e1 := pend_trySend_le hi (Function.update s.loc i
        (some { l with sendPoint := none, sendTransition := none })) s.first l.sendPoint l.sendTransition
    have e2 := pend_loc_none hi hn { l with sendPoint := none, sendTransition := none } s.first
    unfold segment
    rw [hl]
    simp only
    split
    · simp only [remaining]; omega
    · have := DirectNet.C17_terminates hI.net (.start s.net i l.forNodes hi hns)
      simp only [remaining, distribute]; omega
  | first i pt tr hf hc =>
    obtain ⟨a1, _, _, _, a5⟩ := hI.first i pt tr hf
    have e1 := pend_first_none s.loc (by omega : i < p.nClusterNodes) hf
    unfold handleFirst
    simp only
    cases hl : s.loc i with
    | none => simp only [remaining]; omega
    | some l =>
      simp only
      cases hl' : l.onFirstPoint p i pt tr with
      | none => simp only [remaining]; omega
      | some l' =>
        have hnet := DirectNet.C17_terminates hI.net (.start s.net i l'.forNodes (by omega) a5)
        have e2 := pend_loc_some (n := p.nClusterNodes) hl { l' with forNodes := fun _ => [] }
          (Function.update s.first i none)
        simp only [remaining, distribute]
        omega
  | exchange pre post m hm hc =>
    have := DirectNet.C17_terminates hI.net (.handle s.net pre post m hm)
    simp only [remaining]
    omega

/-! ### Concrete executions -/

/-- An executable schedule. -/
inductive Act | segment (i : Nat) | first (i : Nat) | exchange (k : Nat)
  deriving Repr

/-- Performs one action, if it is enabled. -/
def act (p : Parameters) (pts : Nat → List Pt) (s : SegNet) : Act → Option SegNet
  | .segment i => if i < p.nClusterNodes ∧ (s.loc i).isNone ∧ s.crashed = false then some (segment p pts s i) else none
  | .first i => match s.first i with
    | some (pt, t) => if s.crashed = false then some (handleFirst p s i pt t) else none
    | none => none
  | .exchange k => match s.net.pool.drop k with
    | m :: post => if s.crashed = false then
        some { s with net := DirectNet.handleStep s.net m (s.net.pool.take k ++ post) } else none
    | [] => none

/-- Performs a schedule. -/
def exec (p : Parameters) (pts : Nat → List Pt) (s : SegNet) : List Act → Option SegNet
  | [] => some s
  | a :: as => do exec p pts (← act p pts s a) as

theorem act_step {p : Parameters} {pts : Nat → List Pt} {s t : SegNet} {a : Act} (h : act p pts s a = some t) :
    Step p pts s t := by
  cases a with
  | segment i =>
    simp only [act] at h
    split at h
    · rename_i hc
      cases h
      exact .segment s i hc.1 (by simpa using hc.2.1) hc.2.2
    · cases h
  | first i =>
    simp only [act] at h
    split at h
    · rename_i pt t' hf
      split at h
      · rename_i hc; cases h; exact .first s i pt t' hf hc
      · cases h
    · cases h
  | exchange k =>
    simp only [act] at h
    split at h
    · rename_i m post hd
      split at h
      · rename_i hc
        cases h
        refine .exchange s _ post m ?_ hc
        rw [← hd, List.take_append_drop]
      · cases h
    · cases h

theorem exec_reachable {p : Parameters} {pts : Nat → List Pt} {s t : SegNet} (as : List Act)
    (h : Reachable p pts s) (he : exec p pts s as = some t) : Reachable p pts t := by
  induction as generalizing s with
  | nil => simp only [exec, Option.some.injEq] at he; subst he; exact h
  | cons a as ih =>
    simp only [exec] at he
    cases ha : act p pts s a with
    | none => rw [ha] at he; simp at he
    | some s' => rw [ha] at he; exact ih (.step h (act_step ha)) (by simpa using he)

/-- Two nodes, eight segments: node 0 owns 0-3, node 1 owns 4-7. -/
def exP : Parameters := ⟨4, 1, 2, 8, 1, 2, false⟩
/-- The points of both nodes; the step from point 2 to point 3 crosses the border of the parts. -/
def exPts : Nat → List Pt
  | 0 => [⟨0, 1⟩, ⟨1, 3⟩, ⟨2, 5⟩]
  | 1 => [⟨3, 7⟩, ⟨4, 1⟩, ⟨5, 3⟩]
  | _ => []
/-- a schedule that finishes -/
def exRun : List Act := [.segment 0, .segment 1, .exchange 0, .first 0, .exchange 0, .exchange 0]

example : exP.WellFormed := by decide
/-- The schedule ends with both nodes done and every valid step at its owner. -/
example : (exec exP exPts init exRun).map (fun s => (s.net.done 0, s.net.done 1, s.crashed, s.store 0, s.store 1)) =
    some (1, 1, false, [⟨⟨0, 1⟩, ⟨1, 3⟩⟩, ⟨⟨1, 3⟩, ⟨2, 5⟩⟩, ⟨⟨4, 1⟩, ⟨5, 3⟩⟩],
      [⟨⟨3, 7⟩, ⟨4, 1⟩⟩, ⟨⟨2, 5⟩, ⟨3, 7⟩⟩]) := by decide
example : ∀ i < exP.nClusterNodes, validSteps exP.rate (exPts i) ≠ [] := by decide

/-- C28 is false: node 0 handles the first point of node 1 before it has segmented its own points and crashes. -/
theorem C28_race_counterexample : ∃ s, Reachable exP exPts s ∧ s.crashed = true := by
  cases h : exec exP exPts init [.segment 1, .first 0] with
  | none => exact absurd h (by decide)
  | some s =>
    refine ⟨s, exec_reachable _ .init h, ?_⟩
    have : (exec exP exPts init [.segment 1, .first 0]).map SegNet.crashed = some true := by decide
    rw [h] at this
    simpa using this

/-- Points without a valid step at node 1. -/
def exHang : Nat → List Pt
  | 0 => [⟨0, 1⟩, ⟨1, 3⟩, ⟨2, 5⟩]
  | 1 => [⟨3, 5⟩, ⟨4, 5⟩, ⟨5, 4⟩]
  | _ => []

/-- C28 is false: with a part without valid steps the cluster reaches a state without crash in which nothing
can happen any more, and neither node is done. -/
theorem C28_hang_counterexample : ∃ s, Reachable exP exHang s ∧ s.crashed = false ∧
    (¬ ∃ t, Step exP exHang s t) ∧ s.net.done 0 = 0 ∧ s.net.done 1 = 0 := by
  cases h : exec exP exHang init [.segment 0, .segment 1, .exchange 0] with
  | none => exact absurd h (by decide)
  | some s =>
    have hr := exec_reachable _ .init h
    have e : (exec exP exHang init [.segment 0, .segment 1, .exchange 0]).map
        (fun s => (s.crashed, s.net.pool.length, s.first 0, s.first 1, (s.loc 0).isSome, (s.loc 1).isSome))
        = some (false, 0, none, none, true, true) := rfl
    rw [h] at e
    simp only [Option.map_some, Option.some.injEq, Prod.mk.injEq] at e
    obtain ⟨e1, e2, e3, e4, e5, e6⟩ := e
    have hp : exP.WellFormed := by decide
    have hd := C28_never_done hp (by decide) (i := 1) (by decide) (by decide) hr
    refine ⟨s, hr, e1, ?_, hd 0 (by decide), hd 1 (by decide)⟩
    rintro ⟨t, ht⟩
    cases ht with
    | segment i hi hn hc =>
      have hi : i < 2 := hi
      have : i = 0 ∨ i = 1 := by omega
      rcases this with rfl | rfl
      · rw [hn] at e5; cases e5
      · rw [hn] at e6; cases e6
    | first i pt t hf hc =>
      have := ((inv_reachable hp hr).first i pt t hf).1
      have hi : i + 1 < 2 := this
      have : i = 0 := by omega
      subst this
      rw [hf] at e3; cases e3
    | exchange pre post m hm hc => rw [hm] at e2; simp at e2

end SegNet
end S2G
