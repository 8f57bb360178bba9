import Verif.Props.CorrRun

/-!
# C73: runs in time exist

For every number of nodes the segmentation with self correction can be completed in time.
-/

namespace S2G
namespace CorrNet
open SegState SelfCorrection

variable {p : Parameters} {pts : Nat → List Pt} {mir : Pt → Pt}

/-- No first point has arrived at a node which has not decided. -/
def Patient (s : CorrNet) : Prop := ∀ i, s.decided i = none → firsts (s.mailbox i) = []

theorem dow_decided (s : CorrNet) (i : Nat) (l : SegState) : (distributeOrWait p s i l).decided = s.decided := (dow_fields s i l).2.1

theorem firsts_mailbox_dow (s : CorrNet) (i : Nat) (l : SegState) (a : Nat) :
    firsts ((distributeOrWait p s i l).mailbox a) = firsts (s.mailbox a) := by
  obtain ⟨h1, -⟩ := trySend_fields p.nClusterNodes i
    { s with loc := Function.update s.loc i (some { l with sendPoint := none, sendTransition := none }) } l.sendPoint l.sendTransition
  unfold distributeOrWait
  simp only
  split
  · rw [h1]
  · rw [(firsts_distribute _ _ i _).1 a, h1]

theorem correct_patient (s : CorrNet) (i : Nat) (l : SegState) (a : Nat) :
    firsts ((correct p pts mir s i l).mailbox a) = firsts (s.mailbox a) ∧
      (s.decided a ≠ none → (correct p pts mir s i l).decided a ≠ none) := by
  have hup : ∀ b : Bool, s.decided a ≠ none → Function.update s.decided i (some b) a ≠ none := by
    intro b h
    by_cases ha : a = i
    · subst ha; simp
    · rwa [Function.update_of_ne ha]
  unfold correct
  split
  · split
    · exact ⟨rfl, fun h => h⟩
    · exact ⟨firsts_mailbox_dow _ _ _ _, fun h => by rw [dow_decided]; exact hup true h⟩
  · exact ⟨firsts_mailbox_dow _ _ _ _, fun h => by rw [dow_decided]; exact hup false h⟩

theorem handle_patient (s : CorrNet) (i : Nat) (m : CMsg) (a : Nat) :
    firsts ((handle p pts mir s i m).mailbox a) = firsts (s.mailbox a) ∧
      (s.decided a ≠ none → (handle p pts mir s i m).decided a ≠ none) := by
  cases m with
  | count m =>
    simp only [handle, handleCount]
    split
    · exact ⟨rfl, fun h => h⟩
    · split
      · exact ⟨rfl, fun h => h⟩
      · exact correct_patient _ i _ a
  | first pt t =>
    simp only [handle, handleFirst]
    split
    · exact ⟨rfl, fun h => h⟩
    · split
      · exact ⟨rfl, fun h => h⟩
      · exact ⟨(firsts_distribute _ _ i _).1 a, fun h => h⟩
  | segs m =>
    simp only [handle, handleSegs]
    split <;> exact ⟨rfl, fun h => h⟩

theorem enter_patient (s : CorrNet) (i : Nat) (a : Nat) :
    firsts ((enter p pts s i).mailbox a) = firsts (s.mailbox a) ∧ (enter p pts s i).decided = s.decided := by
  unfold enter
  split
  · exact ⟨rfl, rfl⟩
  · simp only
    refine ⟨?_, rfl⟩
    simp only [post]
    by_cases ha : a = i
    · subst ha; rw [Function.update_self]; simp
    · rw [Function.update_of_ne ha]

theorem firsts_pop {s : CorrNet} (h : Patient s) {i : Nat} {m : CMsg} {rest : List CMsg} (hl : s.mailbox i = m :: rest) :
    Patient { s with mailbox := Function.update s.mailbox i rest } := by
  intro a ha
  have := h a ha
  simp only
  by_cases hai : a = i
  · subst hai
    rw [hl, ← List.singleton_append, firsts_append, List.append_eq_nil_iff] at this
    rw [Function.update_self]
    exact this.2
  · rwa [Function.update_of_ne hai]

/-- As long as not all nodes are done, a run in time can go on. -/
theorem patient_progress (hp : p.WellFormed) (hsc : p.selfCorrection = true) (hn : 3 ≤ p.nClusterNodes)
    (hv : ∀ i < p.nClusterNodes, validSteps p.rate (corrected p pts mir i) ≠ []) {s : CorrNet}
    (h : Reachable true true p pts mir s) (hP : Patient s) :
    (∀ j < p.nClusterNodes, s.done j = 1) ∨ ∃ t, Step true true p pts mir s t ∧ Patient t := by
  have hn2 : 2 ≤ p.nClusterNodes := by omega
  by_contra hcon
  push Not at hcon
  obtain ⟨⟨j0, hj0, hne⟩, hstuck⟩ := hcon
  have hc := C73_no_crash hp hsc hn2 (.inl rfl) (fun _ => .inl rfl) hv h
  have hmail : ∀ i < p.nClusterNodes, s.mailbox i = [] := by
    intro i hi
    cases hl : s.mailbox i with
    | nil => rfl
    | cons m rest =>
      refine absurd (fun a ha => ?_) (hstuck _ (.handle s i m rest hi hl hc (fun _ pt t hm hd => ?_)))
      · rw [(handle_patient _ i m a).1]
        refine firsts_pop hP hl a ?_
        by_contra hd
        exact (handle_patient (p := p) (pts := pts) (mir := mir) { s with mailbox := Function.update s.mailbox i rest } i m a).2 hd ha
      · have := hP i hd
        rw [hl, hm] at this
        simp at this
  have hloc : ∀ i < p.nClusterNodes, s.loc i ≠ none := by
    intro i hi hl
    refine hstuck _ (.enter s i hi hl hc (fun _ => .inl (by rw [hmail i hi]; rfl))) (fun a ha => ?_)
    rw [(enter_patient s i a).1]
    rw [(enter_patient (pts := pts) s i a).2] at ha
    exact hP a ha
  have hlink : ∀ j < p.nClusterNodes, ∀ i < p.nClusterNodes, ∀ m rest, s.link j i = m :: rest → s.decided i = none ∧ ∃ pt t, m = .first pt t := by
    intro j hj i hi m rest hl
    by_contra hcon
    refine hstuck _ (.arrive s j i m rest hj hi hl hc) (fun a ha => ?_)
    simp only at ha ⊢
    by_cases hai : a = i
    · subst hai
      rw [Function.update_self, firsts_append, hP a ha]
      cases m with
      | count m => rfl
      | segs m => rfl
      | first pt t => exact absurd ⟨ha, pt, t, rfl⟩ hcon
    · rw [Function.update_of_ne hai]
      exact hP a ha
  obtain ⟨a, ha, hrel⟩ := seg_inside hp hsc hn2 (.inl rfl) (fun _ => .inl rfl) h
  have hother : ∀ j < p.nClusterNodes, ∀ i < p.nClusterNodes, j ≠ RingNet.nxt p.nClusterNodes i → s.link j i = [] := by
    intro j hj i hi hji
    cases hl : s.link j i with
    | nil => rfl
    | cons m rest =>
      obtain ⟨-, pt, t, rfl⟩ := hlink j hj i hi m rest hl
      have := hrel.first.other j i hji
      rw [hl] at this
      simp at this
  obtain ⟨r, hr, hrr⟩ := ring_reachable hp hn2 h
  have hdone : ∀ i < p.nClusterNodes, s.decided i ≠ none := by
    intro i hi hd
    have := RingNet.C18_quiescent_done hn2 hr (fun i hi => by
        rw [hrr.started, Option.isSome_iff_ne_none]; exact hloc i hi) (fun i hi => ⟨by rw [hrr.mailbox, hmail i hi]; rfl, by
        rw [hrr.net i hi, hother _ (RingNet.prv_lt hn2) i hi (by
          rw [RingNet.prv_eq hi]
          rw [RingNet.nxt_eq hi]
          split <;> split <;> omega)]; rfl⟩) hi
    rw [(hrr.undecided i).1 hd] at this
    cases this
  refine hne (C73_progress hp hsc hn2 (.inl rfl) (fun _ => .inl rfl) hv h ?_ j0 hj0)
  rintro ⟨t, ht⟩
  cases ht with
  | enter i hi hl hc hb => exact hloc i hi hl
  | arrive j i m rest hj hi hl hc => exact hdone i hi (hlink j hj i hi m rest hl).1
  | handle i m rest hi hl hc ht => rw [hmail i hi] at hl; cases hl

theorem terminating_reaches {S : Type} {R : S → S → Prop} {I D : S → Prop} {s0 : S} (h0 : I s0)
    (hstep : ∀ s, I s → D s ∨ ∃ t, R s t ∧ I t) (hfin : ¬ ∃ f : Nat → S, f 0 = s0 ∧ ∀ k, R (f k) (f (k + 1))) : ∃ s, I s ∧ D s := by
  by_contra hcon
  push Not at hcon
  have key : ∀ s : { s // I s }, ∃ t : { s // I s }, R s.1 t.1 := by
    rintro ⟨s, hs⟩
    rcases hstep s hs with h | ⟨t, h1, h2⟩
    · exact absurd h (hcon s hs)
    · exact ⟨⟨t, h2⟩, h1⟩
  choose nx hnx using key
  refine hfin ⟨fun k => (Nat.rec (motive := fun _ => { s // I s }) ⟨s0, h0⟩ (fun _ s => nx s) k).1, rfl, fun k => ?_⟩
  exact hnx _

/-- C73: runs in which every node handles the first point of the next one after its own decision exist, and they can be completed. -/
theorem C73_complete (hp : p.WellFormed) (hsc : p.selfCorrection = true) (hn : 2 ≤ p.nClusterNodes)
    (hv : ∀ i < p.nClusterNodes, validSteps p.rate (corrected p pts mir i) ≠ []) :
    ∃ s, Reachable true true p pts mir s ∧ ∀ j < p.nClusterNodes, s.done j = 1 := by
  by_cases h2 : p.nClusterNodes = 2
  · obtain ⟨s, h1, h3⟩ := terminating_reaches (R := Step true false p pts mir) (I := Reachable true false p pts mir)
      (D := fun s => ∀ j < p.nClusterNodes, s.done j = 1) (s0 := {}) .init (fun s hs => by
        by_cases hst : ∃ t, Step true false p pts mir s t
        · obtain ⟨t, ht⟩ := hst
          exact .inr ⟨t, ht, .step hs ht⟩
        · exact .inl (C73_progress hp hsc hn (.inl rfl) (fun _ => .inr h2) hv hs hst)) (C73_terminates hp hn)
    exact ⟨s, two_in_time hp h2 h1, h3⟩
  · obtain ⟨s, h1, h3⟩ := terminating_reaches (R := Step true true p pts mir)
      (I := fun s => Reachable true true p pts mir s ∧ Patient s)
      (D := fun s => ∀ j < p.nClusterNodes, s.done j = 1) (s0 := {}) ⟨.init, fun _ _ => rfl⟩ (fun s hs => by
        rcases patient_progress hp hsc (by omega) hv hs.1 hs.2 with h | ⟨t, h3, h4⟩
        · exact .inl h
        · exact .inr ⟨t, h3, .step hs.1 h3, h4⟩) (C73_terminates hp hn)
    exact ⟨s, h1.1, h3⟩

theorem loc_none {b it : Bool} {s : CorrNet} (h : Reachable b it p pts mir s) {i : Nat} (hi : p.nClusterNodes ≤ i) : s.loc i = none := by
  induction h with
  | init => rfl
  | @step s t h hs ih =>
    cases hs with
    | enter j hj hl hc hb =>
      unfold enter
      split
      · exact ih
      · simp only
        rw [Function.update_of_ne (by omega)]
        exact ih
    | arrive j k m rest hj hk hl hc => exact ih
    | handle j m rest hj hl hc ht =>
      have hd : ∀ (u : CorrNet) (l : SegState), u.loc i = none → (distributeOrWait p u j l).loc i = none := by
        intro u l hu
        rw [(dow_fields u j l).1, Function.update_of_ne (by omega)]
        exact hu
      cases m with
      | count m =>
        simp only [handle, handleCount]
        split
        · exact ih
        · split
          · simp only [post]
            rw [Function.update_of_ne (by omega)]
            exact ih
          · unfold correct
            split
            · split
              · simp only
                rw [Function.update_of_ne (by omega)]
                exact ih
              · refine hd _ _ ?_
                simp only
                rw [Function.update_of_ne (by omega)]
                exact ih
            · refine hd _ _ ?_
              simp only
              rw [Function.update_of_ne (by omega)]
              exact ih
      | first pt t =>
        simp only [handle, handleFirst]
        split
        · exact ih
        · split
          · exact ih
          · simp only [distribute]
            rw [Function.update_of_ne (by omega)]
            exact ih
      | segs m =>
        simp only [handle, handleSegs]
        split <;> exact ih

/-- What the nodes store and ask at the end is what they store and ask in a segmentation of the corrected points. -/
theorem C73_inside (hp : p.WellFormed) (hsc : p.selfCorrection = true) (hn : 2 ≤ p.nClusterNodes) {s : CorrNet}
    (h : Reachable true true p pts mir s) (hd : ∀ j < p.nClusterNodes, s.done j = 1) :
    ∃ a, SegNet.Reachable p (corrected p pts mir) a ∧ (∀ j < p.nClusterNodes, a.net.done j = 1) ∧ a.store = s.store ∧
      (fun i => ((a.loc i).map SegState.questions).getD NodeQuestions.clear) =
        (fun i => ((s.loc i).map SegState.questions).getD NodeQuestions.clear) ∧
      ∀ j < p.nClusterNodes, s.decided j = some true ↔ Wanted p pts := by
  obtain ⟨a, ha, hrel⟩ := seg_inside hp hsc hn (.inl rfl) (fun _ => .inl rfl) h
  have hI := SegNet.inv_reachable hp ha
  have hda : ∀ j < p.nClusterNodes, a.net.done j = 1 := fun j hj => by rw [hrel.net.done]; exact hd j hj
  have hcom : ∀ j < p.nClusterNodes, Commit p (decide (Wanted p pts)) s j := by
    intro j hj
    by_contra hc
    have hl := hrel.loc.idle j hc
    have := (DirectNet.inv_reachable hI.net).idle j hj (hI.idle j hj hl)
    have := hda j hj
    omega
  have hloc : ∀ i, (∃ l la, s.loc i = some l ∧ a.loc i = some la ∧ core l = core la) ∨ (s.loc i = none ∧ a.loc i = none) := by
    intro i
    by_cases hi : i < p.nClusterNodes
    · exact .inl (hrel.loc.busy i (hcom i hi))
    · refine .inr ⟨loc_none h (by omega), hrel.loc.idle i ?_⟩
      unfold Commit
      rw [if_neg (by omega)]
      intro hdec
      exact hi (decided_lt h hdec)
  refine ⟨a, ha, hda, ?_, ?_, ?_⟩
  · funext i
    unfold store SegNet.store
    rw [hrel.net.got]
    congr 1
    rcases hloc i with ⟨l, la, h1, h2, h3⟩ | ⟨h1, h2⟩
    · have : (core l).stored = (core la).stored := by rw [h3]
      rw [h1, h2]
      exact this.symm
    · rw [h1, h2]
  · funext i
    rcases hloc i with ⟨l, la, h1, h2, h3⟩ | ⟨h1, h2⟩
    · have : (core l).questions = (core la).questions := by rw [h3]
      rw [h1, h2]
      exact this.symm
    · rw [h1, h2]
  · intro j hj
    constructor
    · intro hd
      exact (C73_decision hp hsc hn (.inl rfl) h hd).1 rfl
    · intro hw
      have hc := hcom j hj
      unfold Commit at hc
      rw [if_neg (by simp [hw])] at hc
      obtain ⟨d, hd⟩ := Option.ne_none_iff_exists'.1 hc
      rw [hd, (C73_decision hp hsc hn (.inl rfl) h hd).2 hw]

end CorrNet
end S2G
