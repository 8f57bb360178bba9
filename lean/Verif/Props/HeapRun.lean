import Verif.Props.HeapNet
import Verif.Props.CorrRace
import Verif.Props.ClusterRunExample

/-!
# C99: the coordinates of the steps in a run on several nodes, and examples
-/

namespace S2G
namespace Store
namespace HeapNet

open Points Whole SelfCorrection

variable {p : Parameters} {e : Nat}

theorem flatMap_inj {α β : Type} {f g : α → List β} {l : List α} (h : l.flatMap f = l.flatMap g)
    (hl : ∀ i ∈ l, (f i).length = (g i).length) : ∀ i ∈ l, f i = g i := by
  induction l with
  | nil => simp
  | cons a l ih =>
    simp only [List.flatMap_cons] at h
    obtain ⟨h1, h2⟩ := List.append_inj h (hl a (by simp))
    intro i hi
    rcases List.mem_cons.1 hi with rfl | hi
    · exact h1
    · exact ih h2 (fun j hj => hl j (List.mem_cons_of_mem _ hj)) i hi

/-- The points of the nodes, mirrored. -/
theorem mirrored_parts (hp : p.WellFormed) {pts : Nat → List Point} (hq : Numbered p.rate e ((List.range p.nClusterNodes).flatMap pts)) :
    ∃ ms : Nat → List Point, (∀ i < p.nClusterNodes, (pts i).mapM (mirrorPoint p.rate) = some (ms i)) ∧
      (∀ i < p.nClusterNodes, (ms i).map (real p.rate).pt =
        ((pts i).map (real p.rate).pt).map (mirrorPt ((List.range p.nClusterNodes).flatMap ms))) ∧
      Numbered p.rate e ((List.range p.nClusterNodes).flatMap ms) := by
  have hrate : 0 < p.rate := by have := hp.1; have := hp.2; omega
  have hmir : ∀ i, ∃ ms, i < p.nClusterNodes → (pts i).mapM (mirrorPoint p.rate) = some ms := by
    intro i
    by_cases hi : i < p.nClusterNodes
    · obtain ⟨ms, h1, -⟩ := mirrored_some (e := e) hrate (pts := pts i)
        (fun x hx => hq.coords x (List.mem_flatMap.2 ⟨i, List.mem_range.2 hi, hx⟩))
      exact ⟨ms, fun _ => h1⟩
    · exact ⟨[], fun hi' => absurd hi' hi⟩
  choose ms hms using hmir
  have hM := Cluster.mapM_flatMap (l := List.range p.nClusterNodes) (fun i hi => hms i (List.mem_range.1 hi))
  obtain ⟨g1, -, g3⟩ := Cluster.mirrorPt_map hrate hq hM
  have hlen : ∀ i < p.nClusterNodes, (ms i).length = (pts i).length := by
    intro i hi
    obtain ⟨ms', h1, h2, -⟩ := mirrored_some (e := e) hrate (pts := pts i)
      (fun x hx => hq.coords x (List.mem_flatMap.2 ⟨i, List.mem_range.2 hi, hx⟩))
    rw [hms i hi] at h1
    cases h1
    simpa using congrArg List.length h2
  refine ⟨ms, hms, fun i hi => ?_, g3⟩
  refine flatMap_inj (l := List.range p.nClusterNodes) (f := fun i => (ms i).map toPt)
    (g := fun i => ((pts i).map toPt).map (mirrorPt ((List.range p.nClusterNodes).flatMap ms))) ?_ (fun j hj => ?_) i (List.mem_range.2 hi)
  · rw [← List.map_flatMap, ← List.map_flatMap, ← List.map_flatMap, g1]
  · simp [hlen j (List.mem_range.1 hj)]

/-- **C99.** Several nodes with real points: when all nodes are done, the data stores hold the points and steps of the model by value
(`Cluster.Segmented`), and every endpoint of a step in a data store has the coordinates which the model reads by its id. -/
theorem C99_segmented (hp : p.WellFormed) (hsc : p.selfCorrection = true) (hn : 2 ≤ p.nClusterNodes) {offset : Nat → Nat}
    {cs : Nat → List (List ℝ)} {pts : Nat → List Point} {st : Nat → DataStore Point}
    (ha : ∀ i < p.nClusterNodes, addPoints (offset i) p.rate (cs i) = some (pts i))
    (hq : Numbered p.rate e ((List.range p.nClusterNodes).flatMap pts))
    (hst : ∀ i < p.nClusterNodes,
      DataStore.addPointsWithOffset (real p.rate) (fun i c => newPoint i c p.rate) (offset i) {} (cs i) = some (st i))
    {h : HeapNet Point} (hR : Reachable true true (real p.rate) p st h) (hd : ∀ j < p.nClusterNodes, h.done j = 1) :
    ∃ eff stores qs, Cluster.Segmented p pts eff stores qs ∧ ∀ j < p.nClusterNodes, ∃ steps,
      (h.node j).store.getTransitions = some steps ∧ (steps.map (real p.rate).trans).Perm (stores j) ∧ (h.node j).questions = qs j ∧
      ∀ m ∈ steps, m.1.coordinates = coordsOf ((List.range p.nClusterNodes).flatMap eff) m.1.id ∧
        m.2.coordinates = coordsOf ((List.range p.nClusterNodes).flatMap eff) m.2.id := by
  obtain ⟨ms, hms, hagree, g3⟩ := mirrored_parts hp hq
  have hS := start_of (k := real p.rate) (make := fun i c => newPoint i c p.rate) hst hms
    (fun i hi => (zipIdx_addPoints _ _ _).trans (ha i hi)) hagree
  obtain ⟨loc, got, h1, h2⟩ := sim hp hsc hn (.inl rfl) (fun _ => .inl rfl) hS hR
  have hdec : ∀ j < p.nClusterNodes, (proj (real p.rate) h loc got).decided j = some true ↔
      CorrNet.Wanted p (fun i => (pts i).map (real p.rate).pt) := by
    obtain ⟨-, -, -, -, -, a5⟩ := CorrNet.C73_inside hp hsc hn h1 hd
    exact a5
  let eff : Nat → List Point := fun i => if (proj (real p.rate) h loc got).decided i = some true then ms i else pts i
  have heff : (List.range p.nClusterNodes).flatMap eff = keptAll (real p.rate) p pts ms := by
    refine List.flatMap_congr (fun i hi => ?_)
    have hdi := hdec i (List.mem_range.1 hi)
    unfold kept
    by_cases hw : CorrNet.Wanted p (fun i => (pts i).map (real p.rate).pt)
    · rw [if_pos hw]; exact if_pos (hdi.2 hw)
    · rw [if_neg hw]; exact if_neg (fun hh => hw (hdi.1 hh))
  have hids : (keptAll (real p.rate) p pts ms).map Point.id = List.range (keptAll (real p.rate) p pts ms).length := by
    by_cases hw : CorrNet.Wanted p (fun i => (pts i).map (real p.rate).pt)
    · have : keptAll (real p.rate) p pts ms = (List.range p.nClusterNodes).flatMap ms := by
        unfold keptAll kept; simp only [if_pos hw]
      rw [this]; exact g3.ids
    · have : keptAll (real p.rate) p pts ms = (List.range p.nClusterNodes).flatMap pts := by
        unfold keptAll kept; simp only [if_neg hw]
      rw [this]; exact hq.ids
  refine ⟨eff, (proj (real p.rate) h loc got).store,
    fun i => (((proj (real p.rate) h loc got).loc i).map SegState.questions).getD NodeQuestions.clear, ?_, fun j hj => ?_⟩
  · unfold Cluster.Segmented
    rw [if_pos hsc]
    exact ⟨ms, proj (real p.rate) h loc got, hms, h1, hd, fun _ => rfl, rfl, rfl⟩
  · obtain ⟨steps, e1, e2, e3, e4⟩ := done_node hp hsc hn (.inl rfl) (fun _ => .inl rfl) h1 h2 hj (hd j hj)
    refine ⟨steps, e1, e2, e4, fun m hm => ?_⟩
    rw [heff]
    exact ⟨coords_of_mem hids (e3 m hm).1, coords_of_mem hids (e3 m hm).2⟩

/-! ## Schedules -/

variable {P : Type} {k : Kind P} {st : Nat → DataStore P}

/-- The message is not a first point. -/
def HMsg.notFirst : HMsg P → Bool
  | .first _ _ => false
  | _ => true

/-- Execute an action if it is enabled, see `CorrNet.act`. -/
def act (it : Bool) (k : Kind P) (p : Parameters) (s : HeapNet P) : CorrNet.Act → Option (HeapNet P)
  | .enter i => if i < p.nClusterNodes ∧ s.entered i = false ∧ s.crashed = false ∧
      ((counts (s.mailbox i)).isEmpty ∨ (s.cproto i).buffer.isEmpty) then some (enter k p s i) else none
  | .arrive j i => if j < p.nClusterNodes ∧ i < p.nClusterNodes ∧ s.crashed = false then
      match s.link j i with
      | m :: rest => some { s with
          link := Function.update s.link j (Function.update (s.link j) i rest)
          mailbox := Function.update s.mailbox i (s.mailbox i ++ [m]) }
      | [] => none
    else none
  | .handle i => if i < p.nClusterNodes ∧ s.crashed = false then
      match s.mailbox i with
      | m :: rest => if it = false ∨ HMsg.notFirst m ∨ (s.decided i).isSome then
          some (handle k p { s with mailbox := Function.update s.mailbox i rest } i m) else none
      | [] => none
    else none

def exec (it : Bool) (k : Kind P) (p : Parameters) (s : HeapNet P) : List CorrNet.Act → Option (HeapNet P)
  | [] => some s
  | a :: as => (act it k p s a).bind (fun t => exec it k p t as)

theorem exec_reachable {it : Bool} {s t : HeapNet P} (as : List CorrNet.Act) (h : Reachable true it k p st s)
    (he : exec it k p s as = some t) : Reachable true it k p st t := by
  induction as generalizing s with
  | nil => simp [exec] at he; subst he; exact h
  | cons a as ih =>
    simp only [exec] at he
    cases ha : act it k p s a with
    | none => simp [ha] at he
    | some u =>
      rw [ha] at he
      refine ih (.step h ?_) he
      cases a with
      | enter i =>
        simp only [act] at ha
        split at ha
        · next hc =>
          simp only [Option.some.injEq] at ha; subst ha
          refine .enter s i hc.1 hc.2.1 hc.2.2.1 (fun _ => ?_)
          rcases hc.2.2.2 with h | h
          · exact .inl (by simpa using h)
          · exact .inr (by simpa using h)
        · simp at ha
      | arrive j i =>
        simp only [act] at ha
        split at ha
        · next hc =>
          split at ha
          · next m rest hm =>
            simp only [Option.some.injEq] at ha; subst ha
            exact .arrive s j i m rest hc.1 hc.2.1 hm hc.2.2
          · simp at ha
        · simp at ha
      | handle i =>
        simp only [act] at ha
        split at ha
        · next hc =>
          split at ha
          · next m rest hm =>
            split at ha
            · next hg =>
              simp only [Option.some.injEq] at ha; subst ha
              refine .handle s i m rest hc.1 hm hc.2 (fun hit x t hmf => ?_)
              subst hmf hit
              rcases hg with hg | hg | hg
              · cases hg
              · cases hg
              · exact Option.isSome_iff_ne_none.1 hg
            · simp at ha
          · simp at ha
        · simp at ha

/-! ## Examples -/

/-- Points with id, segment and the number of times they were mirrored, on a circle of 12 segments. -/
def tagged : Kind (Nat × Nat × Nat) := ⟨fun x => x.1, fun x => x.2.1, fun x => some (x.1, (17 - x.2.1) % 12, x.2.2 + 1)⟩

/-- The data stores of the nodes of `CorrNet.racePts`. -/
def exStore (i : Nat) : DataStore (Nat × Nat × Nat) :=
  (DataStore.addPointsWithOffset tagged (fun i c => some (i, c, 0)) (5 * i) {} ((CorrNet.racePts i).map Pt.seg)).getD {}

/-- A run in time meets the hypotheses of `C99_stored`: the cluster mirrors, all nodes are done, and all points of stored steps are mirrored
once. -/
example : CorrNet.raceP.WellFormed ∧
    (∀ i < 3, DataStore.addPointsWithOffset tagged (fun i c => some (i, c, 0)) (5 * i) {} ((CorrNet.racePts i).map Pt.seg) =
      some (exStore i)) ∧
    ∃ h, Reachable true true tagged CorrNet.raceP exStore h ∧ (∀ i < 3, h.done i = 1) ∧
      ∀ i < 3, (h.node i).store.transitions ≠ [] ∧
        ((h.node i).store.getTransitions.map (fun l => l.all (fun m => m.1.2.2 = 1 ∧ m.2.2.2 = 1))) = some true := by
  refine ⟨by decide, fun i hi => ?_, ?_⟩
  · interval_cases i <;> rfl
  cases h : exec true tagged CorrNet.raceP (init exStore) CorrNet.inTimeRun with
  | none => exact absurd (congrArg Option.isSome h) (by decide +kernel)
  | some s =>
    refine ⟨s, exec_reachable _ .init h, ?_⟩
    have e : (exec true tagged CorrNet.raceP (init exStore) CorrNet.inTimeRun).map (fun h => decide ((∀ i : Nat, i < 3 → h.done i = 1) ∧
        ∀ i : Nat, i < 3 → (h.node i).store.transitions ≠ [] ∧
          ((h.node i).store.getTransitions.map (fun l => l.all (fun m => m.1.2.2 = 1 ∧ m.2.2.2 = 1))) = some true)) = some true := by
      decide +kernel
    rw [h] at e
    simpa using e

/-- **C99** (three nodes, the race of C73): all nodes decide to mirror and all are done, but a data store holds a step between points which
are not mirrored. -/
theorem C99_race : ∃ h, Reachable true false tagged CorrNet.raceP exStore h ∧ h.crashed = false ∧
    (∀ i < 3, h.done i = 1 ∧ h.decided i = some true ∧ h.mailbox i = [] ∧ ∀ j < 3, h.link j i = []) ∧
    ∃ steps, (h.node 1).store.getTransitions = some steps ∧ ((2, 6, 0), (3, 7, 0)) ∈ steps := by
  cases h : exec false tagged CorrNet.raceP (init exStore) (CorrNet.early ++ CorrNet.late) with
  | none => exact absurd (congrArg Option.isSome h) (by decide +kernel)
  | some s =>
    refine ⟨s, exec_reachable _ .init h, ?_⟩
    have e : (exec false tagged CorrNet.raceP (init exStore) (CorrNet.early ++ CorrNet.late)).map (fun h => decide (h.crashed = false ∧
        (∀ i : Nat, i < 3 → h.done i = 1 ∧ h.decided i = some true ∧ (h.mailbox i).isEmpty ∧ ∀ j : Nat, j < 3 → (h.link j i).isEmpty) ∧
        (((h.node 1).store.getTransitions.map (fun l => decide (((2, 6, 0), (3, 7, 0)) ∈ l))) = some true))) = some true := by
      decide +kernel
    rw [h] at e
    simp only [Option.map_some, Option.some.injEq, decide_eq_true_eq, List.isEmpty_iff] at e
    refine ⟨e.1, e.2.1, ?_⟩
    obtain ⟨steps, h1, h2⟩ := Option.map_eq_some_iff.1 e.2.2
    exact ⟨steps, h1, by simpa using h2⟩

/-- Two nodes with real points on a circle. -/
noncomputable def exCoords : Nat → List (List ℝ)
  | 0 => [[1, 1], [-1, 1], [-1, -1]]
  | 1 => [[1, -1], [1, 1], [-1, 1]]
  | _ => []

/-- Their points. -/
noncomputable def exPoints : Nat → List Point
  | 0 => [⟨0, [1, 1], 0⟩, ⟨1, [-1, 1], 1⟩, ⟨2, [-1, -1], 2⟩]
  | 1 => [⟨3, [1, -1], 3⟩, ⟨4, [1, 1], 0⟩, ⟨5, [-1, 1], 1⟩]
  | _ => []

/-- They meet the hypotheses of `C99_segmented`. -/
example : ∃ (st : Nat → DataStore Point) (h : HeapNet Point), (⟨4, 1, 2, 4, 1, 2, true⟩ : Parameters).WellFormed ∧
    (∀ i < 2, addPoints (3 * i) 4 (exCoords i) = some (exPoints i)) ∧
    Numbered 4 0 ((List.range 2).flatMap exPoints) ∧
    (∀ i < 2, DataStore.addPointsWithOffset (real 4) (fun i c => newPoint i c 4) (3 * i) {} (exCoords i) = some (st i)) ∧
    Reachable true true (real 4) ⟨4, 1, 2, 4, 1, 2, true⟩ st h ∧ ∀ j < 2, h.done j = 1 := by
  obtain ⟨q1, q2, q3, q4⟩ := Cluster.quadrants (a := 1) (b := 1) one_pos one_pos
  have ha : ∀ i < 2, addPoints (3 * i) 4 (exCoords i) = some (exPoints i) := by
    intro i hi
    interval_cases i <;> simp [addPoints, newPoint, exCoords, exPoints, q1, q2, q3, q4]
  have hq : Numbered 4 0 ((List.range 2).flatMap exPoints) := by
    refine ⟨rfl, ?_, ?_⟩ <;> simp [List.range_succ, exPoints]
  have hp : (⟨4, 1, 2, 4, 1, 2, true⟩ : Parameters).WellFormed := by decide
  obtain ⟨ms, hms, hagree, -⟩ := mirrored_parts (p := ⟨4, 1, 2, 4, 1, 2, true⟩) hp hq
  have hst : ∀ i, ∃ st, i < 2 → DataStore.addPointsWithOffset (real 4) (fun i c => newPoint i c 4) (3 * i) {} (exCoords i) = some st := by
    intro i
    by_cases hi : i < 2
    · have h0 := add_rel (k := real 4) (fun i c => newPoint i c 4) (3 * i) (exCoords i) (s := {}) (l := []) ⟨by simp, by simp⟩ .nil rfl
      rw [show List.mapM (fun c : List ℝ × ℕ => newPoint c.2 c.1 4) ((exCoords i).zipIdx (3 * i)) = some (exPoints i) from
        (zipIdx_addPoints _ _ _).trans (ha i hi)] at h0
      cases hx : DataStore.addPointsWithOffset (real 4) (fun i c => newPoint i c 4) (3 * i) {} (exCoords i) with
      | none => rw [hx] at h0; cases h0
      | some st => exact ⟨st, fun _ => rfl⟩
    · exact ⟨{}, fun h => absurd h hi⟩
  choose st hst using hst
  let segs : Nat → List Pt := fun | 0 => [⟨0, 0⟩, ⟨1, 1⟩, ⟨2, 2⟩] | 1 => [⟨3, 3⟩, ⟨4, 0⟩, ⟨5, 1⟩] | _ => []
  have hsegs : (fun i => (exPoints i).map (real 4).pt) = segs := by
    funext i
    match i with
    | 0 => rfl
    | 1 => rfl
    | _ + 2 => rfl
  have hw : ¬ CorrNet.Wanted ⟨4, 1, 2, 4, 1, 2, true⟩ segs := by decide
  have hval : ∀ i < 2, validSteps (4 : Nat) (segs i) ≠ [] := by decide
  obtain ⟨h, h1, h2⟩ := C99_complete (p := ⟨4, 1, 2, 4, 1, 2, true⟩) (k := real 4) (st := st) (pts := exPoints) (ms := ms)
    (mir := mirrorPt ((List.range 2).flatMap ms)) (make := fun i c => newPoint i c 4) (offset := fun i => 3 * i) (cs := exCoords)
    (b := true) (it := true) hp rfl le_rfl (.inl rfl) (fun _ => .inl rfl) hst (fun i hi => (zipIdx_addPoints _ _ _).trans (ha i hi)) hms hagree rfl
    rfl (fun i hi => by
      unfold CorrNet.corrected
      rw [hsegs, if_neg hw]
      exact hval i hi)
  exact ⟨st, h, hp, ha, hq, hst, h1, h2⟩

end HeapNet
end Store
end S2G
