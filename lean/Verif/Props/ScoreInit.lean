import Verif.Model.ScoreInit
import Verif.Props.Weights

/-!
# C54: the scoring is initialised exactly once
-/

namespace S2G
namespace ScoreInit

theorem handle_done {P : Type} (k : Nat) (s : RingNet P) (i j : Nat) (m : RMsg P) (rest : List (RMsg P)) :
    (RingNet.handleStep k s i m rest).done j = s.done j + if j = i ∧ last s i m = true then 1 else 0 := by
  unfold RingNet.handleStep last
  obtain ⟨b, p⟩ := (s.proto i).received m
  cases b with
  | false => simp
  | true =>
    by_cases hr : p.isRunning = true
    · simp [hr]
    · by_cases hj : j = i
      · subst hj; simp [hr]
      · simp [hr, hj]

theorem handle_started {P : Type} (k : Nat) (s : RingNet P) (i : Nat) (m : RMsg P) (rest : List (RMsg P)) :
    (RingNet.handleStep k s i m rest).started = s.started := by
  unfold RingNet.handleStep
  obtain ⟨b, p⟩ := (s.proto i).received m
  cases b with
  | false => rfl
  | true => dsimp only; split <;> rfl

/-- Both rotations are runs of their own, are entered together, and `ScoreInitDone` has been sent iff both are over. -/
structure Inv (k : Nat) (s : ScoreInit) : Prop where
  deg : RingNet.Reachable false k s.deg
  wei : RingNet.Reachable false k s.wei
  together : s.deg.started = s.wei.started
  ready : ∀ i < k, s.ready i = if s.deg.done i = 1 ∧ s.wei.done i = 1 then 1 else 0

theorem ready_step {k : Nat} (hk : 2 ≤ k) {P Q : Type} {s : RingNet P} {o : RingNet Q} (hs : RingNet.Reachable false k s)
    (ho : RingNet.Reachable false k o) (htog : s.started = o.started) {i : Nat} (hi : i < k) {m : RMsg P}
    {rest : List (RMsg P)} (h : s.mailbox i = m :: rest) :
    (last s i m && !(((RingNet.handleStep k s i m rest).proto i).isRunning || (o.proto i).isRunning)) = true ↔
      last s i m = true ∧ o.done i = 1 := by
  have ht := RingNet.Reachable.step hs (.handle s i m rest hi h)
  obtain ⟨h1, h2, h3⟩ := RingNet.C18_done_once hk ht hi
  obtain ⟨g1, g2, g3⟩ := RingNet.C18_done_once hk ho hi
  simp only [Bool.and_eq_true, Bool.not_eq_true', Bool.or_eq_false_iff]
  constructor
  · rintro ⟨hl, hr, ho'⟩
    refine ⟨hl, ?_⟩
    have hd := handle_done k s i i m rest
    rw [if_pos ⟨rfl, hl⟩] at hd
    have hst := (h2.1 (by omega)).1
    rw [handle_started, htog] at hst
    by_contra hne
    have : (o.proto i).isRunning = true := g3.2 ⟨hst, by omega⟩
    rw [this] at ho'
    cases ho'
  · rintro ⟨hl, ho'⟩
    have hd := handle_done k s i i m rest
    rw [if_pos ⟨rfl, hl⟩] at hd
    refine ⟨hl, ?_, ?_⟩
    · by_contra hne
      have := (h3.1 (by simpa using hne)).2
      omega
    · by_contra hne
      have := (g3.1 (by simpa using hne)).2
      omega

theorem inv_step {k : Nat} (hk : 2 ≤ k) {s t : ScoreInit} (h : Inv k s) (hs : Step k s t) : Inv k t := by
  cases hs with
  | start i d w hi hd hw =>
    refine ⟨.step h.deg (.start _ i d hi hd (by simp)), .step h.wei (.start _ i w hi hw (by simp)), ?_, h.ready⟩
    change Function.update s.deg.started i true = Function.update s.wei.started i true
    rw [h.together]
  | arriveDeg i m rest hi hn => exact ⟨.step h.deg (.arrive _ i m rest hi hn), h.wei, h.together, h.ready⟩
  | arriveWei i m rest hi hn => exact ⟨h.deg, .step h.wei (.arrive _ i m rest hi hn), h.together, h.ready⟩
  | handleDeg i m rest hi hm =>
    have hd := RingNet.Reachable.step h.deg (.handle _ i m rest hi hm)
    have hkey := ready_step hk h.deg h.wei h.together hi hm
    have hone := RingNet.C18_done_once hk hd hi
    unfold handleDeg
    simp only
    split
    · next hc =>
      have hc := hkey.1 hc
      refine ⟨hd, h.wei, by rw [← h.together]; exact handle_started .., ?_⟩
      intro j hj
      by_cases hji : j = i
      · subst hji
        have hd := handle_done k s.deg j j m rest
        rw [if_pos ⟨rfl, hc.1⟩] at hd
        simp only [Function.update_self, hd]
        rw [h.ready j hj]
        have := hone.1
        rw [if_neg (by omega), if_pos (by omega)]
      · simp only [Function.update_of_ne hji, handle_done, hji, false_and, if_false, Nat.add_zero]
        exact h.ready j hj
    · next hc =>
      rw [hkey] at hc
      refine ⟨hd, h.wei, by rw [← h.together]; exact handle_started .., ?_⟩
      intro j hj
      rw [h.ready j hj]
      simp only [handle_done]
      by_cases hji : j = i
      · subst hji
        by_cases hl : last s.deg j m = true
        · have : s.wei.done j ≠ 1 := fun e => hc ⟨hl, e⟩
          rw [if_neg (by omega), if_neg (by omega)]
        · simp [hl]
      · simp [hji]
  | handleWei i m rest hi hm =>
    have hd := RingNet.Reachable.step h.wei (.handle _ i m rest hi hm)
    have hkey := ready_step hk h.wei h.deg h.together.symm hi hm
    have hone := RingNet.C18_done_once hk hd hi
    unfold handleWei
    simp only
    rw [Bool.or_comm]
    split
    · next hc =>
      have hc := hkey.1 hc
      refine ⟨h.deg, hd, by rw [h.together]; exact (handle_started ..).symm, ?_⟩
      intro j hj
      by_cases hji : j = i
      · subst hji
        have hd := handle_done k s.wei j j m rest
        rw [if_pos ⟨rfl, hc.1⟩] at hd
        simp only [Function.update_self, hd]
        rw [h.ready j hj]
        have := hone.1
        rw [if_neg (by omega), if_pos (by omega)]
      · simp only [Function.update_of_ne hji, handle_done, hji, false_and, if_false, Nat.add_zero]
        exact h.ready j hj
    · next hc =>
      rw [hkey] at hc
      refine ⟨h.deg, hd, by rw [h.together]; exact (handle_started ..).symm, ?_⟩
      intro j hj
      rw [h.ready j hj]
      simp only [handle_done]
      by_cases hji : j = i
      · subst hji
        by_cases hl : last s.wei j m = true
        · have : s.deg.done j ≠ 1 := fun e => hc ⟨hl, e⟩
          rw [if_neg (by omega), if_neg (by omega)]
        · simp [hl]
      · simp [hji]

theorem inv_reachable {k : Nat} (hk : 2 ≤ k) {s : ScoreInit} (h : Reachable k s) : Inv k s := by
  induction h with
  | init d w => exact ⟨.init d, .init w, rfl, fun i _ => by simp [init, RingNet.init]⟩
  | step _ hs ih => exact inv_step hk ih hs

/-- C54 (safety): in every schedule a node announces that scoring can start at most once, and it has done so exactly if
both rotations are over at this node. -/
theorem C54_at_most_once {k : Nat} (hk : 2 ≤ k) {s : ScoreInit} (h : Reachable k s) {i : Nat} (hi : i < k) :
    s.ready i ≤ 1 ∧ (s.ready i = 1 ↔ (s.deg.processed i).length = k - 1 ∧ (s.wei.processed i).length = k - 1) := by
  have hI := inv_reachable hk h
  have h1 := RingNet.C18_done_once hk hI.deg hi
  have h2 := RingNet.C18_done_once hk hI.wei hi
  have hst := congrFun hI.together i
  rw [hI.ready i hi]
  constructor
  · split <;> omega
  · constructor
    · intro h
      have : s.deg.done i = 1 ∧ s.wei.done i = 1 := by
        by_contra hc
        rw [if_neg hc] at h
        omega
      exact ⟨(h1.2.1.1 this.1).2, (h2.2.1.1 this.2).2⟩
    · rintro ⟨ha, hb⟩
      have hs : s.deg.started i = true := by
        by_contra hc
        have := ((RingNet.inv_reachable hk hI.deg).idle i hi (by simpa using hc)).2.2.2.1
        rw [this] at ha
        simp at ha
        omega
      rw [if_pos ⟨h1.2.1.2 ⟨hs, ha⟩, h2.2.1.2 ⟨hst ▸ hs, hb⟩⟩]

/-- C54 (progress): when every node has entered the stage and nothing is on its way, every node has announced it. -/
theorem C54_quiescent_done {k : Nat} (hk : 2 ≤ k) {s : ScoreInit} (h : Reachable k s)
    (hall : ∀ i < k, s.deg.started i = true)
    (hq : ∀ i < k, s.deg.mailbox i = [] ∧ s.deg.net i = [] ∧ s.wei.mailbox i = [] ∧ s.wei.net i = []) {i : Nat}
    (hi : i < k) : s.ready i = 1 := by
  have hI := inv_reachable hk h
  rw [hI.ready i hi, if_pos]
  exact ⟨RingNet.C18_quiescent_done hk hI.deg hall (fun j hj => ⟨(hq j hj).1, (hq j hj).2.1⟩) hi,
    RingNet.C18_quiescent_done hk hI.wei (fun j hj => hI.together ▸ hall j hj)
      (fun j hj => ⟨(hq j hj).2.2.1, (hq j hj).2.2.2⟩) hi⟩

/-- C54 (termination): every step decreases the work left. -/
theorem C54_terminates {k : Nat} (hk : 2 ≤ k) {s t : ScoreInit} (h : Reachable k s) (hs : Step k s t) :
    RingNet.remaining k t.deg + RingNet.remaining k t.wei < RingNet.remaining k s.deg + RingNet.remaining k s.wei := by
  have hI := inv_reachable hk h
  cases hs with
  | start i d w hi hd hw =>
    have h1 := RingNet.C18_terminates hk hI.deg (.start _ i d hi hd (by simp))
    have h2 := RingNet.C18_terminates hk hI.wei (.start _ i w hi hw (by simp))
    exact Nat.add_lt_add h1 h2
  | arriveDeg i m rest hi hn =>
    exact Nat.add_lt_add_right (RingNet.C18_terminates hk hI.deg (.arrive _ i m rest hi hn)) _
  | arriveWei i m rest hi hn =>
    exact Nat.add_lt_add_left (RingNet.C18_terminates hk hI.wei (.arrive _ i m rest hi hn)) _
  | handleDeg i m rest hi hm =>
    have := Nat.add_lt_add_right (RingNet.C18_terminates hk hI.deg (.handle _ i m rest hi hm)) (RingNet.remaining k s.wei)
    unfold handleDeg
    simp only
    split <;> exact this
  | handleWei i m rest hi hm =>
    have := Nat.add_lt_add_left (RingNet.C18_terminates hk hI.wei (.handle _ i m rest hi hm)) (RingNet.remaining k s.deg)
    unfold handleWei
    simp only
    split <;> exact this

/-! ### Concrete run of two nodes -/

private def d0 : Counts NodeKey := Counts.empty
private def w0 : Counts EdgeKey := Counts.empty
private def s0 := init (fun _ => d0) (fun _ => w0)
private def s1 := startStep 2 s0 0 d0 w0
private def s2 := startStep 2 s1 1 d0 w0
private def s3 : ScoreInit := { s2 with wei := RingNet.arriveStep s2.wei 0 ⟨1, w0⟩ [] }
private def s4 := handleWei 2 s3 0 ⟨1, w0⟩ []
private def s5 : ScoreInit := { s4 with deg := RingNet.arriveStep s4.deg 0 ⟨1, d0⟩ [] }
private def s6 := handleDeg 2 s5 0 ⟨1, d0⟩ []

example : Reachable 2 s4 ∧ s4.ready 0 = 0 ∧ s4.wei.done 0 = 1 ∧ Reachable 2 s6 ∧ s6.ready 0 = 1 ∧ s6.ready 1 = 0 := by
  have h1 : Reachable 2 s1 := .step (.init _ _) (.start _ 0 d0 w0 (by decide) rfl rfl)
  have h2 : Reachable 2 s2 := .step h1 (.start _ 1 d0 w0 (by decide) rfl rfl)
  have h3 : Reachable 2 s3 := .step h2 (.arriveWei _ 0 _ _ (by decide) rfl)
  have h4 : Reachable 2 s4 := .step h3 (.handleWei _ 0 _ _ (by decide) rfl)
  have h5 : Reachable 2 s5 := .step h4 (.arriveDeg _ 0 _ _ (by decide) rfl)
  exact ⟨h4, rfl, rfl, .step h5 (.handleDeg _ 0 _ _ (by decide) rfl), rfl, rfl⟩

end ScoreInit
end S2G
