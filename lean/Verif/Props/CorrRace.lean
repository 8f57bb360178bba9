import Verif.Props.CorrRun

/-!
# Self correction on three nodes: a first point which arrives too early (C73)
-/

namespace S2G
namespace CorrNet

open SelfCorrection

variable {p : Parameters} {pts : Nat → List Pt} {mir : Pt → Pt}

/-- Actions of a concrete schedule. -/
inductive Act | enter (i : Nat) | arrive (j i : Nat) | handle (i : Nat)
  deriving Repr

/-- The message is not a first point. -/
def CMsg.notFirst : CMsg → Bool
  | .first _ _ => false
  | _ => true

/-- Execute an action if it is enabled; `enter` only if the ring of the counts keeps its order (see `Step`), and with `it` a first
point only after the decision. -/
def act (it : Bool) (p : Parameters) (pts : Nat → List Pt) (mir : Pt → Pt) (s : CorrNet) : Act → Option CorrNet
  | .enter i => if i < p.nClusterNodes ∧ (s.loc i).isNone ∧ s.crashed = false ∧
      ((counts (s.mailbox i)).isEmpty ∨ (s.cproto i).buffer.isEmpty) then some (enter p pts s i) else none
  | .arrive j i => if j < p.nClusterNodes ∧ i < p.nClusterNodes ∧ s.crashed = false then
      match s.link j i with
      | m :: rest => some { s with
          link := Function.update s.link j (Function.update (s.link j) i rest)
          mailbox := Function.update s.mailbox i (s.mailbox i ++ [m]) }
      | [] => none
    else none
  | .handle i => if i < p.nClusterNodes ∧ s.crashed = false then
      match s.mailbox i with
      | m :: rest => if it = false ∨ CMsg.notFirst m ∨ (s.decided i).isSome then
          some (handle p pts mir { s with mailbox := Function.update s.mailbox i rest } i m) else none
      | [] => none
    else none

def exec (it : Bool) (p : Parameters) (pts : Nat → List Pt) (mir : Pt → Pt) (s : CorrNet) : List Act → Option CorrNet
  | [] => some s
  | a :: as => (act it p pts mir s a).bind (fun t => exec it p pts mir t as)

theorem exec_reachable {it : Bool} {s t : CorrNet} (as : List Act) (h : Reachable true it p pts mir s)
    (he : exec it p pts mir s as = some t) : Reachable true it p pts mir t := by
  induction as generalizing s with
  | nil => simp [exec] at he; subst he; exact h
  | cons a as ih =>
    simp only [exec] at he
    cases ha : act it p pts mir s a with
    | none => simp [ha] at he
    | some u =>
      rw [ha] at he
      refine ih (.step h ?_) he
      cases a with
      | enter i =>
        simp only [act] at ha
        split at ha
        · next hc =>
          simp only [Option.some.injEq] at ha; subst ha
          refine .enter s i hc.1 (by simpa using hc.2.1) hc.2.2.1 (fun _ => ?_)
          rcases hc.2.2.2 with h | h
          · exact .inl (by simpa using h)
          · exact .inr (by simpa using h)
        · simp at ha
      | arrive j i =>
        simp only [act] at ha
        split at ha
        · next hc =>
          split at ha
          · next m rest hm =>
            simp only [Option.some.injEq] at ha; subst ha
            exact .arrive s j i m rest hc.1 hc.2.1 hm hc.2.2
          · simp at ha
        · simp at ha
      | handle i =>
        simp only [act] at ha
        split at ha
        · next hc =>
          split at ha
          · next m rest hm =>
            split at ha
            · next hg =>
              simp only [Option.some.injEq] at ha; subst ha
              refine .handle s i m rest hc.1 hm hc.2 (fun hit pt t hmf => ?_)
              subst hmf hit
              rcases hg with hg | hg | hg
              · cases hg
              · cases hg
              · exact Option.isSome_iff_ne_none.1 hg
            · simp at ha
          · simp at ha
        · simp at ha

/-- Three nodes. -/
def raceP : Parameters := ⟨4, 1, 2, 12, 1, 3, true⟩

/-- Mostly invalid steps. -/
def racePts : Nat → List Pt
  | 0 => [⟨0, 10⟩, ⟨1, 8⟩, ⟨2, 6⟩, ⟨3, 7⟩, ⟨4, 5⟩]
  | 1 => [⟨5, 4⟩, ⟨6, 2⟩, ⟨7, 3⟩, ⟨8, 1⟩, ⟨9, 0⟩]
  | 2 => [⟨10, 11⟩, ⟨11, 9⟩, ⟨12, 10⟩, ⟨13, 8⟩, ⟨14, 7⟩]
  | _ => []

/-- Node 1 decides and sends its first mirrored point, node 0 handles it before it has decided. -/
def early : List Act := [.enter 0, .enter 1, .enter 2, .arrive 0 1, .handle 1, .arrive 1 2, .handle 2, .arrive 2 0, .handle 0,
  .arrive 0 1, .handle 1, .arrive 1 0, .handle 0]

/-- The rest of this run. -/
def late : List Act := [.arrive 0 1, .arrive 0 2, .arrive 1 2, .arrive 2 0, .handle 0, .handle 1, .handle 2, .handle 2, .arrive 2 0,
  .arrive 2 1, .arrive 2 1, .handle 0, .handle 1, .arrive 1 0, .arrive 1 2, .handle 0, .handle 1, .handle 1, .handle 2, .handle 2]

/-- C73 (three nodes, the race): every node decides to mirror, all nodes are done, nothing is on its way; but the first step of the
mirrored series is in no store, and node 1 has stored a step of the series before the correction. -/
theorem C73_race : ∃ s, Reachable true false raceP racePts (mirrorPt 6) s ∧ s.crashed = false ∧
    (∀ i < 3, s.done i = 1 ∧ s.decided i = some true ∧ s.mailbox i = [] ∧ ∀ j < 3, s.link j i = []) ∧
    (validSteps raceP.rate (series 3 (corrected raceP racePts (mirrorPt 6))))[0]? = some ⟨⟨0, 7⟩, ⟨1, 9⟩⟩ ∧
    (∀ i < 3, ⟨⟨0, 7⟩, ⟨1, 9⟩⟩ ∉ s.store i) ∧
    (⟨⟨2, 6⟩, ⟨3, 7⟩⟩ ∈ s.store 1 ∧ ⟨⟨2, 6⟩, ⟨3, 7⟩⟩ ∉ validSteps raceP.rate (series 3 (corrected raceP racePts (mirrorPt 6)))) := by
  cases h : exec false raceP racePts (mirrorPt 6) {} (early ++ late) with
  | none => exact absurd (congrArg Option.isSome h) (by decide +kernel)
  | some s =>
    have hr := exec_reachable _ .init h
    have e : (exec false raceP racePts (mirrorPt 6) {} (early ++ late)).map (fun s : CorrNet => decide (s.crashed = false ∧
      (∀ i : Nat, i < 3 → s.done i = 1 ∧ s.decided i = some true ∧ s.mailbox i = [] ∧ ∀ j : Nat, j < 3 → s.link j i = []) ∧
      (∀ i : Nat, i < 3 → (⟨⟨0, 7⟩, ⟨1, 9⟩⟩ : Trans) ∉ s.store i) ∧ (⟨⟨2, 6⟩, ⟨3, 7⟩⟩ : Trans) ∈ s.store 1)) = some true := by decide +kernel
    rw [h] at e
    simp only [Option.map_some, Option.some.injEq, decide_eq_true_eq] at e
    exact ⟨s, hr, e.1, e.2.1, by decide +kernel, e.2.2.1, e.2.2.2, by decide +kernel⟩

/-- The same with parts without a valid step before the correction. -/
def crashPts : Nat → List Pt
  | 0 => [⟨0, 10⟩, ⟨1, 8⟩, ⟨2, 6⟩]
  | 1 => [⟨3, 5⟩, ⟨4, 3⟩, ⟨5, 1⟩]
  | 2 => [⟨6, 11⟩, ⟨7, 9⟩, ⟨8, 7⟩]
  | _ => []

/-- C73 (three nodes, the race): a node crashes, although every part has valid steps after the correction. -/
theorem C73_race_crash : (∀ i < 3, validSteps raceP.rate (corrected raceP crashPts (mirrorPt 6) i) ≠ []) ∧
    ∃ s, Reachable true false raceP crashPts (mirrorPt 6) s ∧ s.crashed = true := by
  refine ⟨by decide +kernel, ?_⟩
  cases h : exec false raceP crashPts (mirrorPt 6) {} early with
  | none => exact absurd (congrArg Option.isSome h) (by decide +kernel)
  | some s =>
    refine ⟨s, exec_reachable _ .init h, ?_⟩
    have e : (exec false raceP crashPts (mirrorPt 6) {} early).map CorrNet.crashed = some true := by decide +kernel
    rw [h] at e
    simpa using e

/-- A run in time of the same nodes. -/
def inTimeRun : List Act := [.enter 0, .enter 1, .enter 2, .arrive 0 1, .handle 1, .arrive 1 2, .handle 2, .arrive 2 0, .handle 0,
  .arrive 0 1, .handle 1, .arrive 2 0, .handle 0, .arrive 1 2, .handle 2,
  .arrive 1 0, .handle 0, .arrive 2 1, .arrive 2 1, .handle 1, .handle 1, .arrive 0 1, .handle 1, .arrive 0 2, .handle 2,
  .arrive 2 0, .handle 0, .arrive 1 0, .handle 0, .arrive 1 2, .handle 2]

/-- The hypotheses of `C73_stored` and of the other theorems are met: in this run in time the points are mirrored and all nodes are done. -/
example : raceP.WellFormed ∧ raceP.selfCorrection = true ∧ Wanted raceP racePts ∧
    (∀ i < 3, validSteps raceP.rate (corrected raceP racePts (mirrorPt 6) i) ≠ []) ∧
    ∃ s, Reachable true true raceP racePts (mirrorPt 6) s ∧ ∀ i < 3, s.done i = 1 := by
  refine ⟨by decide, rfl, by decide +kernel, by decide +kernel, ?_⟩
  cases h : exec true raceP racePts (mirrorPt 6) {} inTimeRun with
  | none => exact absurd (congrArg Option.isSome h) (by decide +kernel)
  | some s =>
    refine ⟨s, exec_reachable _ .init h, ?_⟩
    have e : (exec true raceP racePts (mirrorPt 6) {} inTimeRun).map (fun s : CorrNet => decide (∀ i : Nat, i < 3 → s.done i = 1)) = some true := by
      decide +kernel
    rw [h] at e
    simpa using e

/-- Two nodes, no condition on the schedule, points mirrored. -/
def twoP : Parameters := ⟨4, 1, 2, 12, 1, 2, true⟩

example : twoP.WellFormed ∧ Wanted twoP racePts ∧
    ∃ s, Reachable true false twoP racePts (mirrorPt 6) s ∧ s.done 0 = 1 ∧ s.done 1 = 1 ∧ s.decided 0 = some true := by
  refine ⟨by decide, by decide +kernel, ?_⟩
  cases h : exec false twoP racePts (mirrorPt 6) {} [.enter 0, .enter 1, .arrive 0 1, .handle 1, .arrive 1 0, .handle 0, .arrive 1 0, .handle 0,
      .arrive 1 0, .handle 0, .arrive 0 1, .handle 1] with
  | none => exact absurd (congrArg Option.isSome h) (by decide +kernel)
  | some s =>
    refine ⟨s, exec_reachable _ .init h, ?_⟩
    have e : (exec false twoP racePts (mirrorPt 6) {} [.enter 0, .enter 1, .arrive 0 1, .handle 1, .arrive 1 0, .handle 0, .arrive 1 0, .handle 0,
      .arrive 1 0, .handle 0, .arrive 0 1, .handle 1]).map (fun s : CorrNet => decide (s.done 0 = 1 ∧ s.done 1 = 1 ∧ s.decided 0 = some true)) = some true := by
      decide +kernel
    rw [h] at e
    simpa using e

end CorrNet
end S2G
