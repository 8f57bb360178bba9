import Verif.Props.CorrSim

/-!
# Runs of the segmentation with self correction (C73)

`CorrSim` shows that every run contains a run of the segmentation of C27 and C28 on the corrected points. Here: what is stored at the
end, no crash, no deadlock, no infinite run; two nodes need no condition on the schedule; three nodes do.
-/

namespace S2G

/-- The rotation is a barrier: when one node is done, all have entered the stage. All schedules. -/
theorem RingNet.barrier {P : Type} {b : Bool} {k : Nat} (hk : 2 ≤ k) {s : RingNet P} (h : RingNet.Reachable b k s) {i : Nat} (hi : i < k)
    (hd : s.done i = 1) : ∀ j < k, s.started j = true := by
  have hI := RingNet.inv_reachable hk h
  obtain ⟨h1, h2⟩ := (RingNet.C18_done_once hk h hi).2.1.1 hd
  have key : ∀ m < k, ∀ j < k, (j = i - m ∧ m ≤ i ∨ j = i + k - m ∧ i < m) → s.started j = true ∧ k - 1 - m ≤ (s.processed j).length := by
    intro m
    induction m with
    | zero =>
      intro _ j hj hji
      have hj' : j = i := by omega
      subst hj'
      exact ⟨h1, by omega⟩
    | succ m ih =>
      intro hm j hj hji
      -- the node after `j`
      obtain ⟨j', hj', hnx, hpos⟩ : ∃ j' < k, RingNet.prv k j' = j ∧ (j' = i - m ∧ m ≤ i ∨ j' = i + k - m ∧ i < m) := by
        by_cases hjk : j + 1 = k
        · refine ⟨0, by omega, ?_, by omega⟩
          rw [RingNet.prv_eq (by omega)]; simp; omega
        · refine ⟨j + 1, by omega, ?_, by omega⟩
          rw [RingNet.prv_eq (by omega)]; simp
      obtain ⟨g1, g2⟩ := ih (by omega) j' hj' hpos
      have hc := hI.count j' hj'
      rw [hnx] at hc
      unfold RingNet.history RingNet.sentOn at hc
      cases hs : s.started j with
      | false =>
        rw [hs] at hc
        simp at hc
        rw [hc.1] at g2
        simp at g2
        omega
      | true =>
        rw [hs] at hc
        simp only [List.length_append, if_true, List.length_cons, List.length_take] at hc
        exact ⟨rfl, by omega⟩
  intro j hj
  by_cases hji : j ≤ i
  · exact (key (i - j) (by omega) j hj (by omega)).1
  · exact (key (i + k - j) (by omega) j hj (by omega)).1

/-- The handler of the first point crashes only if the node has not segmented its points or has no valid step. -/
theorem SegNet.handleFirst_crash {p : Parameters} (hp : p.WellFormed) {pts : Nat → List Pt} {s : SegNet} (h : SegNet.Reachable p pts s)
    {i : Nat} {pt : Pt} {t : Trans} (hf : s.first i = some (pt, t)) (hc : s.crashed = false) (hl : s.loc i ≠ none)
    (hv : validSteps p.rate (pts i) ≠ []) : (SegNet.handleFirst p s i pt t).crashed = false := by
  have hI := SegNet.inv_reachable hp h
  obtain ⟨a1, _, _, _, a5⟩ := hI.first i pt t hf
  cases hl' : s.loc i with
  | none => exact absurd hl' hl
  | some l =>
    obtain ⟨_, l0, hb, rfl⟩ := hI.waiting i (by omega) l hl' a5
    obtain ⟨l', h'⟩ := SegNet.onFirstPoint_some hp hb hv pt t
    simp [SegNet.handleFirst, hl', h', SegNet.distribute, hc]

namespace CorrNet

open SelfCorrection

variable {p : Parameters} {pts : Nat → List Pt} {mir : Pt → Pt}

/-- The points after the correction: mirrored iff the counts ask for it. -/
def corrected (p : Parameters) (pts : Nat → List Pt) (mir : Pt → Pt) : Nat → List Pt :=
  fun i => if Wanted p pts then (pts i).map mir else pts i

theorem corrected_eq : corrected p pts mir = eff pts mir (decide (Wanted p pts)) := by
  funext i; simp [corrected, eff]

theorem barrier {b it : Bool} (hp : p.WellFormed) (hn : 2 ≤ p.nClusterNodes) {s : CorrNet} (h : Reachable b it p pts mir s) {i : Nat}
    (hd : s.decided i ≠ none) : ∀ j < p.nClusterNodes, s.loc j ≠ none := by
  obtain ⟨r, hr, hrel⟩ := ring_reachable hp hn h
  have hi := decided_lt h hd
  have h1 := RingNet.C18_done_once hn hr hi
  have h2 : r.done i ≠ 0 := fun h0 => hd ((hrel.undecided i).2 h0)
  intro j hj hl
  have := RingNet.barrier hn hr hi (by omega) j hj
  rw [hrel.started, hl] at this
  cases this

/-- One step of the cluster is at most one step of the segmentation of the corrected points. -/
theorem seg_step {b it : Bool} (hp : p.WellFormed) (hsc : p.selfCorrection = true) (hn : 2 ≤ p.nClusterNodes)
    (hb : b = true ∨ p.nClusterNodes = 2) (hit : Wanted p pts → it = true) {s t : CorrNet} (h : Reachable b it p pts mir s)
    (hs : Step b it p pts mir s t) {a : SegNet} (ha : SegNet.Reachable p (corrected p pts mir) a)
    (hrel : SegRel p pts (decide (Wanted p pts)) s a) :
    ∃ a', (a' = a ∨ SegNet.Step p (corrected p pts mir) a a') ∧ SegRel p pts (decide (Wanted p pts)) t a' := by
  have hdt : ∀ i d, t.decided i = some d → d = decide (Wanted p pts) := fun i d hd => decided_wanted hp hsc hn hb (.step h hs) hd
  have hdl : ∀ i, s.decided i ≠ none → s.loc i ≠ none := fun i => decided_loc hp hn h
  rw [corrected_eq] at ha ⊢
  cases hs with
  | enter i hi hl hc _ => exact seg_enter hp hn hrel ha hdl hi hl hc
  | arrive j i m rest hj hi hl hc => exact ⟨a, .inl rfl, seg_arrive hrel hj hi hl⟩
  | handle i m rest hi hl hc ht =>
    cases m with
    | count x => exact seg_handleCount hp hrel hn ha hi hl hc (count_facts hp hn h hi hl) (fun d hd => hdt i d hd)
    | first pt tr =>
      obtain ⟨a', h1, -, h2⟩ := seg_handleFirst hp hn hrel ha hdl hi hl hc (fun hD => ht (hit (by simpa using hD)) pt tr rfl)
      exact ⟨a', .inr h1, h2⟩
    | segs m =>
      obtain ⟨a', h1, h2⟩ := seg_handleSegs hrel hi hl hc
      exact ⟨a', .inr h1, h2⟩

theorem seg_reachable {b it : Bool} (hp : p.WellFormed) (hsc : p.selfCorrection = true) (hn : 2 ≤ p.nClusterNodes)
    (hb : b = true ∨ p.nClusterNodes = 2) (hit : Wanted p pts → it = true) {s : CorrNet} (h : Reachable b it p pts mir s) :
    ∃ a, SegNet.Reachable p (corrected p pts mir) a ∧ SegRel p pts (decide (Wanted p pts)) s a := by
  induction h with
  | init => exact ⟨_, .init, segRel_init _⟩
  | step h hs ih =>
    obtain ⟨a, ha, hrel⟩ := ih
    obtain ⟨a', h1 | h1, h2⟩ := seg_step hp hsc hn hb hit h hs ha hrel
    · exact ⟨a', h1 ▸ ha, h2⟩
    · exact ⟨a', .step ha h1, h2⟩

theorem firsts_all_decided (hp : p.WellFormed) {s : CorrNet} {a : SegNet} {D : Bool}
    (ha : SegNet.Reachable p (eff pts mir D) a) (hrel : SegRel p pts D s a) {i : Nat} (hi : i < p.nClusterNodes) {pt : Pt} {t : Trans}
    {rest : List CMsg} (hl : s.mailbox i = .first pt t :: rest) : s.decided (i + 1) ≠ none := by
  have hI := SegNet.inv_reachable hp ha
  obtain ⟨hf, -⟩ := firstRel_pop hrel.first hi hl
  obtain ⟨i1, i2, i3, i4, -⟩ := hI.first i pt t hf
  intro hun
  have hcm : Commit p D s (i + 1) := by
    by_contra hc
    exact i4 (hrel.loc.idle _ hc)
  unfold Commit at hcm
  split at hcm
  · rename_i hD
    obtain ⟨hD, hlt⟩ := hD
    subst hD
    rw [eff_false] at i2 i3
    have hm := hrel.first.main i hi
    rw [hf, hl, firsts_first] at hm
    have hlen := congrArg List.length hm
    simp only [Option.toList_some, List.length_append, List.length_cons, List.length_nil] at hlen
    have hp0 : pend p pts false s i = [] := List.eq_nil_of_length_eq_zero (by omega)
    unfold pend at hp0
    rw [if_pos ⟨rfl, by omega, hcm, hun⟩] at hp0
    have hb := (built_spec hp pts (i + 1)).2
    rw [hb.sendPoint, hb.sendTransition] at hp0
    simp [pair, i2, i3] at hp0
  · exact hcm hun

/-! ## Two nodes: every schedule is in time -/

/-- With two nodes only node 1 sends a first point, to node 0, and the count of node 1 is ahead of it. -/
structure Two (s : CorrNet) : Prop where
  self : ∀ j, s.link j j = []
  link01 : firsts (s.link 0 1) = []
  mail1 : firsts (s.mailbox 1) = []
  send : ∀ l, s.loc 0 = some l → l.sendPoint = none
  quiet : s.decided 1 = none → firsts (s.mailbox 0 ++ s.link 1 0) = []
  order : s.decided 0 = none → firsts (s.mailbox 0 ++ s.link 1 0) = [] ∨
    ∃ pre x post, s.mailbox 0 ++ s.link 1 0 = pre ++ CMsg.count x :: post ∧ firsts pre = []

theorem two_init : Two {} where
  self := fun _ => rfl
  link01 := rfl
  mail1 := rfl
  send := fun _ h => by cases h
  quiet := fun _ => rfl
  order := fun _ => .inl rfl

/-- The order does not depend on what comes later. -/
theorem order_append {q e : List CMsg} (h : (∃ pre x post, q = pre ++ CMsg.count x :: post ∧ firsts pre = [])) :
    ∃ pre x post, q ++ e = pre ++ CMsg.count x :: post ∧ firsts pre = [] := by
  obtain ⟨pre, x, post, h1, h2⟩ := h
  exact ⟨pre, x, post ++ e, by rw [h1]; simp, h2⟩

theorem order_of_counts {q : List CMsg} (h : counts q ≠ []) (hf : firsts q = []) :
    ∃ pre x post, q = pre ++ CMsg.count x :: post ∧ firsts pre = [] := by
  induction q with
  | nil => exact absurd rfl h
  | cons m q ih =>
    cases m with
    | count x => exact ⟨[], x, q, rfl, rfl⟩
    | first pt t => simp at hf
    | segs m =>
      obtain ⟨pre, x, post, h1, h2⟩ := ih (by simpa using h) (by simpa using hf)
      exact ⟨.segs m :: pre, x, post, by rw [h1]; rfl, by simpa using h2⟩

theorem order_pop {m : CMsg} {q : List CMsg} (hm : counts [m] = []) (h : ∃ pre x post, m :: q = pre ++ CMsg.count x :: post ∧ firsts pre = []) :
    firsts [m] = [] ∧ ∃ pre x post, q = pre ++ CMsg.count x :: post ∧ firsts pre = [] := by
  obtain ⟨pre, x, post, h1, h2⟩ := h
  cases pre with
  | nil => simp at h1; rw [h1.1] at hm; cases hm
  | cons a pre =>
    simp only [List.cons_append, List.cons.injEq] at h1
    obtain ⟨rfl, rfl⟩ := h1
    rw [← List.singleton_append, firsts_append, List.append_eq_nil_iff] at h2
    exact ⟨h2.1, pre, x, post, rfl, h2.2⟩

theorem distribute_self (n : Nat) (s : CorrNet) (i : Nat) (f : Nat → List Trans) (j : Nat) :
    (distribute n s i f).link j j = s.link j j := by
  simp only [distribute]
  by_cases h : j = i
  · subst h; rw [Function.update_self, if_neg (by simp)]
  · rw [Function.update_of_ne h]

theorem distribute_other {n : Nat} {s : CorrNet} {i : Nat} {f : Nat → List Trans} {j : Nat} (hj : j ≠ i) (k : Nat) :
    (distribute n s i f).link j k = s.link j k ∧ (distribute n s i f).mailbox j = s.mailbox j := by
  simp only [distribute]
  rw [Function.update_of_ne hj, Function.update_of_ne hj]
  exact ⟨rfl, rfl⟩

theorem distribute_ext (n : Nat) (s : CorrNet) (i : Nat) (f : Nat → List Trans) (j k : Nat) :
    ∃ e, (distribute n s i f).link j k = s.link j k ++ e := by
  simp only [distribute]
  by_cases h : j = i
  · subst h
    rw [Function.update_self]
    split
    · exact ⟨_, rfl⟩
    · exact ⟨[], by simp⟩
  · rw [Function.update_of_ne h]; exact ⟨[], by simp⟩

/-- The links after the decision of a node, `n = 2`. -/
theorem dow_two (h2 : p.nClusterNodes = 2) (s : CorrNet) {i : Nat} (hi : i < 2) (l : SegState) :
    (∀ j, (distributeOrWait p s i l).link j j = s.link j j) ∧
    (∀ j k, j ≠ i → (distributeOrWait p s i l).link j k = s.link j k ∧ (distributeOrWait p s i l).mailbox j = s.mailbox j) ∧
    (∀ j k, ∃ e, (distributeOrWait p s i l).link j k = s.link j k ++ e) := by
  have ht : (∀ j, (trySend p.nClusterNodes (placed s i l) i l.sendPoint l.sendTransition).link j j = s.link j j) ∧
      (∀ j k, j ≠ i → (trySend p.nClusterNodes (placed s i l) i l.sendPoint l.sendTransition).link j k = s.link j k ∧
        (trySend p.nClusterNodes (placed s i l) i l.sendPoint l.sendTransition).mailbox j = s.mailbox j) ∧
      (∀ j k, ∃ e, (trySend p.nClusterNodes (placed s i l) i l.sendPoint l.sendTransition).link j k = s.link j k ++ e) := by
    unfold trySend
    split
    · have hd : (if i = 0 then p.nClusterNodes - 1 else i - 1) ≠ i := by split <;> omega
      generalize (if i = 0 then p.nClusterNodes - 1 else i - 1) = d at hd
      simp only [post, update2]
      refine ⟨fun j => ?_, fun j k hj => ⟨by rw [if_neg (fun h => hj h.1)], trivial⟩, fun j k => ?_⟩
      · rw [if_neg]
        rintro ⟨rfl, h⟩
        exact hd h.symm
      · split
        · rename_i h; rw [← h.1, ← h.2]; exact ⟨_, rfl⟩
        · exact ⟨[], by simp⟩
    · exact ⟨fun _ => rfl, fun _ _ _ => ⟨rfl, rfl⟩, fun _ _ => ⟨[], by simp⟩⟩
  obtain ⟨t1, t2, t3⟩ := ht
  unfold distributeOrWait
  simp only
  split
  · exact ⟨t1, t2, t3⟩
  · refine ⟨fun j => (distribute_self _ _ _ _ _).trans (t1 j), fun j k hj => ?_, fun j k => ?_⟩
    · obtain ⟨g1, g2⟩ := distribute_other (n := p.nClusterNodes) (s := trySend p.nClusterNodes (placed s i l) i l.sendPoint l.sendTransition)
        (f := l.forNodes) hj k
      exact ⟨g1.trans (t2 j k hj).1, g2.trans (t2 j k hj).2⟩
    · obtain ⟨e, he⟩ := t3 j k
      obtain ⟨e', he'⟩ := distribute_ext p.nClusterNodes (trySend p.nClusterNodes (placed s i l) i l.sendPoint l.sendTransition) i
        l.forNodes j k
      exact ⟨e ++ e', he'.trans (by rw [he, List.append_assoc])⟩

/-- A node which is not the receiver of the message decides nothing; for `n = 2` a handled count is the last one. -/
theorem two_step {b it : Bool} (hp : p.WellFormed) (h2 : p.nClusterNodes = 2) {s t : CorrNet} (hr : Reachable b it p pts mir s)
    (h : Two s) (hs : Step b it p pts mir s t) : Two t := by
  have hn : 2 ≤ p.nClusterNodes := by omega
  have hbar : ∀ i, s.decided i ≠ none → ∀ j < 2, s.loc j ≠ none := fun i hi j hj => barrier hp hn hr hi j (by omega)
  have nx0 : RingNet.nxt 2 0 = 1 := rfl
  have nx1 : RingNet.nxt 2 1 = 0 := rfl
  cases hs with
  | enter i hi hl hc hb =>
    obtain ⟨e1, eb⟩ := built_spec hp pts i
    have hq : firsts (s.mailbox 0 ++ s.link 1 0) = [] := h.quiet (by
      by_contra hd; exact hbar 1 hd i (by omega) hl)
    rw [firsts_append, List.append_eq_nil_iff] at hq
    unfold enter
    rw [e1]
    simp only [Proto.resolveBuffer, post, h2]
    have hm : ∀ k, firsts (Function.update s.mailbox i (s.mailbox i ++ List.map CMsg.count ((s.cproto i).start (2 - 1)).buffer) k) =
        firsts (s.mailbox k) := by
      intro k
      by_cases hk : k = i
      · subst hk; rw [Function.update_self]; simp
      · rw [Function.update_of_ne hk]
    have hlk : ∀ j k, firsts (if j = i ∧ k = RingNet.nxt 2 i then s.link i (RingNet.nxt 2 i) ++
        [CMsg.count ⟨i, countMsg 2 (built p pts i)⟩] else s.link j k) = firsts (s.link j k) := by
      intro j k
      split
      · rename_i h; simp [h.1, h.2]
      · rfl
    have hne : RingNet.nxt 2 i ≠ i := RingNet.nxt_ne (le_refl 2) (by omega)
    have hfin : firsts (Function.update s.mailbox i (s.mailbox i ++ List.map CMsg.count ((s.cproto i).start (2 - 1)).buffer) 0 ++
        (if 1 = i ∧ 0 = RingNet.nxt 2 i then s.link i (RingNet.nxt 2 i) ++
          [CMsg.count ⟨i, countMsg 2 (built p pts i)⟩] else s.link 1 0)) = [] := by
      rw [firsts_append, hm, hlk, hq.1, hq.2]; rfl
    refine ⟨fun j => ?_, ?_, ?_, fun l hll => ?_, fun _ => ?_, fun _ => ?_⟩
    · simp only [update2]
      rw [if_neg (fun h => hne (by rw [← h.2, h.1]))]; exact h.self j
    · simp only [update2]; rw [hlk]; exact h.link01
    · simp only; rw [hm]; exact h.mail1
    · simp only at hll
      by_cases hi0 : i = 0
      · subst hi0
        rw [Function.update_self] at hll
        cases Option.some.inj hll
        rw [eb.sendPoint]; rfl
      · rw [Function.update_of_ne (fun h => hi0 h.symm)] at hll; exact h.send l hll
    · simp only [update2]; exact hfin
    · simp only [update2]; exact .inl hfin
  | arrive j i m rest hj hi hl hc =>
    have hji : j = 0 ∧ i = 1 ∨ j = 1 ∧ i = 0 := by
      by_cases hji : j = i
      · subst hji; rw [h.self] at hl; cases hl
      · omega
    rcases hji with ⟨rfl, rfl⟩ | ⟨rfl, rfl⟩
    · have hf := h.link01
      rw [hl, ← List.singleton_append, firsts_append, List.append_eq_nil_iff] at hf
      refine ⟨fun j => ?_, ?_, ?_, h.send, ?_, ?_⟩
      · simp only [update2]; rw [if_neg (by omega)]; exact h.self j
      · simp only [update2]; exact hf.2
      · simp only; rw [Function.update_self, firsts_append, h.mail1, hf.1]; rfl
      · exact h.quiet
      · exact h.order
    · have hseq : s.mailbox 0 ++ [m] ++ rest = s.mailbox 0 ++ s.link 1 0 := by rw [hl]; simp
      refine ⟨fun j => ?_, ?_, ?_, h.send, ?_, ?_⟩
      · simp only [update2]; rw [if_neg (by omega)]; exact h.self j
      · exact h.link01
      · exact h.mail1
      · simp only [update2]; rw [Function.update_self, if_pos (by simp), hseq]; exact h.quiet
      · simp only [update2]; rw [Function.update_self, if_pos (by simp), hseq]; exact h.order
  | handle i m rest hi hl hc ht =>
    have hi2 : i = 0 ∨ i = 1 := by omega
    -- the mailbox without the message
    have hpop : counts [m] = [] → Two { s with mailbox := Function.update s.mailbox i rest } := by
      intro hm
      rcases hi2 with rfl | rfl
      · have hs0 : s.mailbox 0 ++ s.link 1 0 = m :: (rest ++ s.link 1 0) := by rw [hl]; rfl
        have hfs : firsts (m :: (rest ++ s.link 1 0)) = [] → firsts (rest ++ s.link 1 0) = [] := by
          intro hf
          rw [← List.singleton_append, firsts_append, List.append_eq_nil_iff] at hf
          exact hf.2
        refine ⟨h.self, h.link01, h.mail1, h.send, fun hd => ?_, fun hd => ?_⟩
        · have := h.quiet hd
          rw [hs0] at this
          simp only [Function.update_self]
          exact hfs this
        · simp only [Function.update_self]
          rcases h.order hd with ho | ho
          · rw [hs0] at ho; exact .inl (hfs ho)
          · rw [hs0] at ho; exact .inr (order_pop hm ho).2
      · have hf := h.mail1
        rw [hl, ← List.singleton_append, firsts_append, List.append_eq_nil_iff] at hf
        exact ⟨h.self, h.link01, by simp only [Function.update_self]; exact hf.2, h.send, h.quiet, h.order⟩
    cases m with
    | first pt tr =>
      have hi0 : i = 0 := by
        rcases hi2 with rfl | rfl
        · rfl
        · have := h.mail1; rw [hl] at this; simp at this
      subst hi0
      have hdec : s.decided 0 ≠ none := by
        intro hd
        rcases h.order hd with ho | ⟨pre, x, post, h1, h3⟩
        · rw [hl] at ho; simp at ho
        · rw [hl] at h1
          cases pre with
          | nil => simp at h1
          | cons a pre => simp only [List.cons_append, List.cons.injEq] at h1; rw [← h1.1] at h3; simp at h3
      have hP := hpop rfl
      simp only [handle, handleFirst]
      split
      · exact ⟨hP.self, hP.link01, hP.mail1, hP.send, hP.quiet, hP.order⟩
      · rename_i l hll
        split
        · exact ⟨hP.self, hP.link01, hP.mail1, hP.send, hP.quiet, hP.order⟩
        · rename_i l' hl'
          obtain ⟨f1, f2⟩ := firsts_distribute p.nClusterNodes { s with
            mailbox := Function.update s.mailbox 0 rest
            loc := Function.update s.loc 0 (some { l' with forNodes := fun _ => [] }) } 0 l'.forNodes
          refine ⟨fun j => (distribute_self _ _ _ _ j).trans (h.self j), (f2 0 1).trans h.link01, (f1 1).trans hP.mail1,
            fun x hx => ?_, fun hd => ?_, fun hd => absurd hd hdec⟩
          · simp only [distribute] at hx
            rw [Function.update_self] at hx
            cases Option.some.inj hx
            exact (onFirstPoint_invalid hl').2.1.trans (h.send l hll)
          · rw [firsts_append, f1, f2, ← firsts_append]
            exact hP.quiet hd
    | segs m =>
      have hP := hpop rfl
      simp only [handle, handleSegs]
      split <;> exact ⟨hP.self, hP.link01, hP.mail1, hP.send, hP.quiet, hP.order⟩
    | count x =>
      obtain ⟨hun, hrun⟩ := count_facts hp hn hr hi hl
      cases hloc : s.loc i with
      | none =>
        rw [hloc] at hrun
        have hq : firsts (s.mailbox 0 ++ s.link 1 0) = [] := h.quiet (by
          by_contra hd; exact hbar 1 hd i (by omega) hloc)
        simp only [handle, handleCount, Proto.received, hrun]
        have hm1 : ∀ k, firsts (Function.update s.mailbox i rest k) = firsts (s.mailbox k) := by
          intro k
          by_cases hk : k = i
          · subst hk; rw [Function.update_self, hl]; rfl
          · rw [Function.update_of_ne hk]
        have hq' : firsts (Function.update s.mailbox i rest 0 ++ s.link 1 0) = [] := by
          rw [firsts_append, hm1, ← firsts_append]; exact hq
        exact ⟨h.self, h.link01, (hm1 1).trans h.mail1, h.send, fun _ => hq', fun _ => .inl hq'⟩
      | some l =>
        rw [hloc] at hrun
        have hrun' : (s.cproto i).isRunning = true := hrun
        obtain ⟨r, hrr, hrel⟩ := ring_reachable hp hn hr
        have hI := RingNet.inv_reachable hn hrr
        have hmb : r.mailbox i = x :: counts rest := by rw [hrel.mailbox, hl]; rfl
        have hlt := RingNet.processed_lt hn hI hi hmb
        have hst : r.started i = true := by rw [hrel.started, hloc]; rfl
        obtain ⟨a1, a2, a3, a4, a5⟩ := hI.active i hi hst
        have hnr : Proto.isRunning { s.cproto i with nReceived := (s.cproto i).nReceived + 1 } = false := by
          rw [← hrel.proto]
          simp only [Proto.isRunning, a1, a2, a3]
          simp; omega
        simp only [handle, handleCount, Proto.received, hrun', hloc, Option.getD_some, if_true, hnr, Bool.false_eq_true, if_false]
        -- the decision
        have hm1 : ∀ k, firsts (Function.update s.mailbox i rest k) = firsts (s.mailbox k) := by
          intro k
          by_cases hk : k = i
          · subst hk; rw [Function.update_self, hl]; rfl
          · rw [Function.update_of_ne hk]
        have hord : i = 1 → s.decided 0 = none → ∃ pre x post, s.mailbox 0 ++ s.link 1 0 = pre ++ CMsg.count x :: post ∧ firsts pre = [] := by
          rintro rfl hd0
          refine order_of_counts ?_ (h.quiet hun)
          have hst0 : r.started 0 = true := by
            by_contra hf
            have hc1 := hI.count 1 hi
            have : RingNet.prv p.nClusterNodes 1 = 0 := by rw [h2]; rfl
            rw [this] at hc1
            simp only [RingNet.history, hmb, RingNet.sentOn] at hc1
            rw [if_neg hf] at hc1
            simp at hc1
          have hd' : r.done 0 = 0 := (hrel.undecided 0).1 hd0
          obtain ⟨b1, b2, b3, b4, b5⟩ := hI.active 0 (by omega) hst0
          have hp0 : (r.processed 0).length = 0 := by
            have hle := RingNet.history_length hn hI (i := 0) (by omega)
            simp only [RingNet.history, List.length_append] at hle
            by_contra hne
            rw [if_pos (by omega)] at b5
            omega
          have hc0 := hI.count 0 (by omega)
          have hpv : RingNet.prv p.nClusterNodes 0 = 1 := by rw [h2]; rfl
          rw [hpv] at hc0
          simp only [RingNet.history, RingNet.sentOn, b4, List.length_append, hp0, List.length_nil] at hc0
          rw [if_pos hst, hrel.mailbox, hrel.net 0 (by omega), hpv] at hc0
          intro hcn
          rw [counts_append, List.append_eq_nil_iff] at hcn
          rw [hcn.1, hcn.2] at hc0
          simp at hc0
        have key : ∀ (u : CorrNet) (l' : SegState), u.link = s.link → u.mailbox = Function.update s.mailbox i rest →
            (∃ d, u.decided = Function.update s.decided i (some d)) → (∀ k, k ≠ i → u.loc k = s.loc k) →
            (i = 0 → l'.sendPoint = none) → Two (distributeOrWait p u i l') := by
          intro u l' e1 e2 ⟨d, e3⟩ e4 e5
          obtain ⟨d1, d2, d3⟩ := dow_fields (p := p) u i l'
          obtain ⟨f1, f2⟩ := firsts_dow (p := p) (s := u) (i := i) (l := l') (by
            by_cases hi0 : i = 0
            · exact .inr (e5 hi0)
            · exact .inl hi0)
          obtain ⟨g1, g2, g3⟩ := dow_two h2 u (i := i) (by omega) l'
          have hl01 : firsts ((distributeOrWait p u i l').link 0 1) = [] := by
            rw [f2, e1, h.link01, if_neg (by omega)]; rfl
          have hm1' : firsts ((distributeOrWait p u i l').mailbox 1) = [] := by
            rw [f1, e2, hm1, h.mail1]
          refine ⟨fun j => by rw [g1, e1]; exact h.self j, hl01, hm1', fun y hy => ?_, fun hd => ?_, fun hd => ?_⟩
          · rw [d1] at hy
            by_cases hi0 : i = 0
            · subst hi0
              rw [Function.update_self] at hy
              cases Option.some.inj hy
              rfl
            · rw [Function.update_of_ne (fun h => hi0 h.symm), e4 0 (fun h => hi0 h.symm)] at hy
              exact h.send y hy
          · rw [d2, e3] at hd
            rcases hi2 with rfl | rfl
            · rw [Function.update_of_ne (by omega)] at hd
              rw [firsts_append, f1, f2, e1, e2, hm1, if_neg (by omega), List.append_nil, ← firsts_append]
              exact h.quiet hd
            · rw [Function.update_self] at hd; cases hd
          · rw [d2, e3] at hd
            rcases hi2 with rfl | rfl
            · rw [Function.update_self] at hd; cases hd
            · rw [Function.update_of_ne (by omega)] at hd
              obtain ⟨e, he⟩ := g3 1 0
              have hmm : (distributeOrWait p u 1 l').mailbox 0 = s.mailbox 0 := by
                rw [(g2 0 0 (by omega)).2, e2, Function.update_of_ne (by omega)]
              rw [he, hmm, e1, ← List.append_assoc]
              exact .inr (order_append (hord rfl hd))
        unfold correct
        split
        · split
          · rename_i hb
            exact absurd hb (build_ne_none hp _ _ _)
          · rename_i y hy
            refine key _ _ rfl rfl ⟨_, rfl⟩ (fun k hk => ?_) (fun hi0 => ?_)
            · simp only; rw [Function.update_of_ne hk]
            · have hb := build_of_some hp hy
              rw [hb.sendPoint, if_neg (by simpa using hi0)]; rfl
        · refine key _ _ rfl rfl ⟨_, rfl⟩ (fun k hk => ?_) (fun hi0 => ?_)
          · simp only; rw [Function.update_of_ne hk]
          · subst hi0
            exact h.send l hloc

theorem two_reachable {b it : Bool} (hp : p.WellFormed) (h2 : p.nClusterNodes = 2) {s : CorrNet} (hr : Reachable b it p pts mir s) :
    Two s := by
  induction hr with
  | init => exact two_init
  | step h hs ih => exact two_step hp h2 h ih hs

/-- With two nodes a first point is handled after the decision. -/
theorem two_first {b it : Bool} (hp : p.WellFormed) (h2 : p.nClusterNodes = 2) {s : CorrNet} (h : Reachable b it p pts mir s) {i : Nat}
    (hi : i < p.nClusterNodes) {pt : Pt} {t : Trans} {rest : List CMsg} (hl : s.mailbox i = .first pt t :: rest) : s.decided i ≠ none := by
  have hT := two_reachable hp h2 h
  have hi2 : i = 0 ∨ i = 1 := by omega
  rcases hi2 with rfl | rfl
  · intro hd
    rcases hT.order hd with ho | ⟨pre, x, post, h1, h3⟩
    · rw [hl] at ho; simp at ho
    · rw [hl] at h1
      cases pre with
      | nil => simp at h1
      | cons a pre => simp only [List.cons_append, List.cons.injEq] at h1; rw [← h1.1] at h3; simp at h3
  · have := hT.mail1; rw [hl] at this; simp at this

/-- With two nodes every step is in time. -/
theorem two_step_in_time {b it : Bool} (hp : p.WellFormed) (h2 : p.nClusterNodes = 2) {s t : CorrNet} (h : Reachable b it p pts mir s)
    (hs : Step b it p pts mir s t) : Step b true p pts mir s t := by
  cases hs with
  | enter i hi hl hc hb => exact .enter _ i hi hl hc hb
  | arrive j i m rest hj hi hl hc => exact .arrive _ j i m rest hj hi hl hc
  | handle i m rest hi hl hc ht =>
    refine .handle _ i m rest hi hl hc (fun _ pt t hm => ?_)
    subst hm
    exact two_first hp h2 h hi hl

/-- With two nodes every schedule is in time. -/
theorem two_in_time {b it : Bool} (hp : p.WellFormed) (h2 : p.nClusterNodes = 2) {s : CorrNet} (hr : Reachable b it p pts mir s) :
    Reachable b true p pts mir s := by
  induction hr with
  | init => exact .init
  | step h hs ih => exact .step ih (two_step_in_time hp h2 h hs)

/-! ## What the nodes store -/

/-- In these runs the segmentation of the corrected points is part of the state. -/
theorem seg_inside {b it : Bool} (hp : p.WellFormed) (hsc : p.selfCorrection = true) (hn : 2 ≤ p.nClusterNodes)
    (hb : b = true ∨ p.nClusterNodes = 2) (hit : Wanted p pts → it = true ∨ p.nClusterNodes = 2) {s : CorrNet}
    (h : Reachable b it p pts mir s) :
    ∃ a, SegNet.Reachable p (corrected p pts mir) a ∧ SegRel p pts (decide (Wanted p pts)) s a := by
  by_cases h2 : p.nClusterNodes = 2
  · exact seg_reachable hp hsc hn hb (fun _ => rfl) (two_in_time hp h2 h)
  · exact seg_reachable hp hsc hn hb (fun hw => (hit hw).resolve_right h2) h

/-- C73: all nodes decide alike, namely to mirror the points iff the cluster counts fewer valid than invalid steps (C29). -/
theorem C73_decision {b it : Bool} (hp : p.WellFormed) (hsc : p.selfCorrection = true) (hn : 2 ≤ p.nClusterNodes)
    (hb : b = true ∨ p.nClusterNodes = 2) {s : CorrNet} (h : Reachable b it p pts mir s) {i : Nat} {d : Bool}
    (hd : s.decided i = some d) : d = true ↔ Wanted p pts := by
  rw [decided_wanted hp hsc hn hb h hd, decide_eq_true_eq]

/-- C73: a node which is done has stored exactly the valid steps of the corrected series which start in its segments; it is done at
most once. -/
theorem C73_stored {b it : Bool} (hp : p.WellFormed) (hsc : p.selfCorrection = true) (hn : 2 ≤ p.nClusterNodes)
    (hb : b = true ∨ p.nClusterNodes = 2) (hit : Wanted p pts → it = true ∨ p.nClusterNodes = 2) {s : CorrNet}
    (h : Reachable b it p pts mir s) {j : Nat} (hj : j < p.nClusterNodes) :
    s.done j ≤ 1 ∧ (s.done j = 1 → (s.store j).Perm ((validSteps p.rate (series p.nClusterNodes (corrected p pts mir))).filter
      (fun t => p.segmentIdToAssignment t.src.seg = some j))) := by
  obtain ⟨a, ha, hrel⟩ := seg_inside hp hsc hn hb hit h
  have hI := SegNet.inv_reachable hp ha
  have hd : a.net.done j = s.done j := by rw [hrel.net.done]
  refine ⟨by rw [← hd]; exact (DirectNet.C17_done_complete hI.net hj).1, fun h1 => ?_⟩
  have hs := SegNet.C27_stored_at_owner hp ha hj (by rw [hd, h1])
  have he : s.store j = a.store j := by
    unfold store SegNet.store
    rw [hrel.net.got]
    congr 1
    by_cases hc : Commit p (decide (Wanted p pts)) s j
    · obtain ⟨l, la, h1, h2, h3⟩ := hrel.loc.busy j hc
      have : (core l).stored = (core la).stored := by rw [h3]
      rw [h1, h2]
      exact this
    · exfalso
      have hl := hrel.loc.idle j hc
      have := (DirectNet.inv_reachable hI.net).idle j hj (hI.idle j hj hl)
      omega
  rw [he]
  exact hs

/-- C73: no node crashes if every part has a valid step after the correction. -/
theorem C73_no_crash {b it : Bool} (hp : p.WellFormed) (hsc : p.selfCorrection = true) (hn : 2 ≤ p.nClusterNodes)
    (hb : b = true ∨ p.nClusterNodes = 2) (hit : Wanted p pts → it = true ∨ p.nClusterNodes = 2)
    (hv : ∀ i < p.nClusterNodes, validSteps p.rate (corrected p pts mir i) ≠ []) {s : CorrNet}
    (h : Reachable b it p pts mir s) : s.crashed = false := by
  induction h with
  | init => rfl
  | @step s t h hs ih =>
    cases hs with
    | enter i hi hl hc _ =>
      unfold enter
      rw [(built_spec hp pts i).1]
      exact ih
    | arrive j i m rest hj hi hl hc => exact ih
    | handle i m rest hi hl hc ht =>
      cases m with
      | segs m => simp only [handle, handleSegs]; split <;> exact ih
      | count x =>
        simp only [handle, handleCount]
        split
        · exact ih
        · split
          · exact ih
          · unfold correct
            split
            · split
              · rename_i hb0
                exact absurd hb0 (build_ne_none hp _ _ _)
              · rw [(dow_fields _ _ _).2.2]; exact ih
            · rw [(dow_fields _ _ _).2.2]; exact ih
      | first pt tr =>
        obtain ⟨a, ha, hrel⟩ := seg_inside hp hsc hn hb hit h
        have hD := ha
        rw [corrected_eq] at hD
        have hdec := firsts_all_decided hp hD hrel hi hl
        have hdl : ∀ i, s.decided i ≠ none → s.loc i ≠ none := fun i => decided_loc hp hn h
        have hcm : decide (Wanted p pts) = true → s.decided i ≠ none := fun hD' => by
          rcases hit (by simpa using hD') with hi' | h2
          · exact ht hi' pt tr rfl
          · exact two_first hp h2 h hi hl
        obtain ⟨hf, -⟩ := firstRel_pop hrel.first hi hl
        have hi1 := (SegNet.inv_reachable hp ha).first i pt tr hf
        have hal : a.loc i ≠ none := by
          have hc2 : Commit p (decide (Wanted p pts)) s i := by
            unfold Commit
            split
            · exact barrier hp hn h hdec i hi
            · rename_i hx
              refine hcm ?_
              by_contra hne
              exact hx ⟨by simpa using hne, hi1.1⟩
          obtain ⟨_, la, _, h2, _⟩ := hrel.loc.busy i hc2
          rw [h2]; simp
        have hnc := SegNet.handleFirst_crash hp ha hf (hrel.crashed.trans hc) hal (hv i hi)
        obtain ⟨a', h1, h2, h3⟩ := seg_handleFirst hp hn hrel hD hdl hi hl hc hcm
        rw [h2] at h3
        exact h3.crashed.symm.trans hnc

/-- C73: a run which has come to rest has ended: all nodes are done. -/
theorem C73_progress {b it : Bool} (hp : p.WellFormed) (hsc : p.selfCorrection = true) (hn : 2 ≤ p.nClusterNodes)
    (hb : b = true ∨ p.nClusterNodes = 2) (hit : Wanted p pts → it = true ∨ p.nClusterNodes = 2)
    (hv : ∀ i < p.nClusterNodes, validSteps p.rate (corrected p pts mir i) ≠ []) {s : CorrNet}
    (h : Reachable b it p pts mir s) (hstuck : ¬ ∃ t, Step b false p pts mir s t) : ∀ j < p.nClusterNodes, s.done j = 1 := by
  have hc := C73_no_crash hp hsc hn hb hit hv h
  have hlink : ∀ j < p.nClusterNodes, ∀ i < p.nClusterNodes, s.link j i = [] := by
    intro j hj i hi
    cases hl : s.link j i with
    | nil => rfl
    | cons m rest => exact absurd ⟨_, .arrive s j i m rest hj hi hl hc⟩ hstuck
  have hmail : ∀ i < p.nClusterNodes, s.mailbox i = [] := by
    intro i hi
    cases hl : s.mailbox i with
    | nil => rfl
    | cons m rest => exact absurd ⟨_, .handle s i m rest hi hl hc (fun h => by cases h)⟩ hstuck
  have hloc : ∀ i < p.nClusterNodes, s.loc i ≠ none := by
    intro i hi hl
    exact hstuck ⟨_, .enter s i hi hl hc (fun _ => .inl (by rw [hmail i hi]; rfl))⟩
  obtain ⟨r, hr, hrr⟩ := ring_reachable hp hn h
  have hdone : ∀ i < p.nClusterNodes, s.decided i ≠ none := by
    intro i hi hd
    have := RingNet.C18_quiescent_done hn hr (fun i hi => by
        rw [hrr.started, Option.isSome_iff_ne_none]; exact hloc i hi) (fun i hi => ⟨by rw [hrr.mailbox, hmail i hi]; rfl, by
        rw [hrr.net i hi, hlink _ (RingNet.prv_lt hn) i hi]; rfl⟩) hi
    rw [(hrr.undecided i).1 hd] at this
    cases this
  obtain ⟨a, ha, hrel⟩ := seg_inside hp hsc hn hb hit h
  have hI := SegNet.inv_reachable hp ha
  have haloc : ∀ i < p.nClusterNodes, a.loc i ≠ none := by
    intro i hi
    have : Commit p (decide (Wanted p pts)) s i := by
      unfold Commit; split
      · exact hloc i hi
      · exact hdone i hi
    obtain ⟨_, la, _, h2, _⟩ := hrel.loc.busy i this
    rw [h2]; simp
  have hfirst : ∀ i, a.first i = none := by
    intro i
    cases hf : a.first i with
    | none => rfl
    | some x =>
      exfalso
      have hi := (hI.first i x.1 x.2 hf).1
      have hm := hrel.first.main i (by omega)
      have hpd : pend p pts (decide (Wanted p pts)) s i = [] := by
        unfold pend
        rw [if_neg (fun h => hdone (i + 1) hi h.2.2.2)]
      rw [hf, hpd, hmail i (by omega), hlink _ (RingNet.nxt_lt hn) i (by omega)] at hm
      cases hm
  have hpool : a.net.pool = [] := by
    have hp0 := hrel.net.pool
    have hf0 : flight p.nClusterNodes s = 0 := by
      unfold flight linkM
      rw [Finset.sum_eq_zero (fun i hi => by rw [hmail i (Finset.mem_range.1 hi)]; rfl),
        Finset.sum_eq_zero (fun j hj => Finset.sum_eq_zero (fun i hi => by
          rw [hlink j (Finset.mem_range.1 hj) i (Finset.mem_range.1 hi)]; rfl)), add_zero]
    rw [hf0] at hp0
    simpa using hp0
  have hstuck' : ¬ ∃ t, SegNet.Step p (corrected p pts mir) a t := by
    rintro ⟨t, ht⟩
    cases ht with
    | segment i hi hl hc => exact haloc i hi hl
    | first i pt tr hf hc => rw [hfirst i] at hf; cases hf
    | exchange pre post m hm hc => rw [hpool] at hm; simp at hm
  intro j hj
  rw [← hrel.net.done]
  exact SegNet.C28_progress_of_transitions hp hv ha (hrel.crashed.trans hc) hstuck' j hj

/-! ## Every run ends -/

/-- The sum of `F` over mailboxes and links. -/
def weight (n : Nat) (F G : List CMsg → Nat) (s : CorrNet) : Nat :=
  ∑ i ∈ Finset.range n, F (s.mailbox i) + ∑ j ∈ Finset.range n, ∑ i ∈ Finset.range n, G (s.link j i)

theorem weight_congr {n : Nat} {F G : List CMsg → Nat} {s t : CorrNet} (h1 : ∀ i, F (t.mailbox i) = F (s.mailbox i))
    (h2 : ∀ j i, G (t.link j i) = G (s.link j i)) : weight n F G t = weight n F G s := by
  unfold weight
  simp only [h1, h2]

theorem weight_mail {n : Nat} {F G : List CMsg → Nat} {s t : CorrNet} {i y : Nat} (hi : i < n) {q : List CMsg}
    (h1 : t.mailbox = Function.update s.mailbox i q) (h2 : t.link = s.link) (hF : F (s.mailbox i) = F q + y) :
    weight n F G s = weight n F G t + y := by
  unfold weight
  rw [h1, h2, sum_upd' F s.mailbox hi q y hF]
  omega

theorem weight_link {n : Nat} {F G : List CMsg → Nat} {s t : CorrNet} {j i y : Nat} (hj : j < n) (hi : i < n) {q : List CMsg}
    (h1 : t.mailbox = s.mailbox) (h2 : t.link = Function.update s.link j (Function.update (s.link j) i q)) (hF : G q = G (s.link j i) + y) :
    weight n F G t = weight n F G s + y := by
  unfold weight
  rw [h1, h2, sum_upd (fun g : Nat → List CMsg => ∑ i ∈ Finset.range n, G (g i)) s.link hj _ y (sum_upd G (s.link j) hi q y hF)]
  omega

/-- First points on their way. -/
abbrev numFirst (n : Nat) (s : CorrNet) : Nat := weight n (fun l => (firsts l).length) (fun l => (firsts l).length) s

theorem numFirst_trySend {n : Nat} (s : CorrNet) {i : Nat} (hi : i < n) (a : Option Pt) (b : Option Trans) :
    numFirst n (trySend n s i a b) ≤ numFirst n s + 1 := by
  unfold trySend
  split
  · refine le_of_eq (weight_link hi (i := if i = 0 then n - 1 else i - 1) (by split <;> omega) rfl rfl ?_)
    simp
  · omega

theorem numFirst_distribute (n : Nat) (s : CorrNet) (i : Nat) (f : Nat → List Trans) :
    numFirst n (distribute n s i f) = numFirst n s := by
  obtain ⟨h1, h2⟩ := firsts_distribute n s i f
  exact weight_congr (fun _ => by rw [h1]) (fun _ _ => by rw [h2])

theorem numFirst_dow (s : CorrNet) {i : Nat} (hi : i < p.nClusterNodes) (l : SegState) :
    numFirst p.nClusterNodes (distributeOrWait p s i l) ≤ numFirst p.nClusterNodes s + 1 := by
  have h := numFirst_trySend (placed s i l) hi l.sendPoint l.sendTransition
  have h' : numFirst p.nClusterNodes (placed s i l) = numFirst p.nClusterNodes s := weight_congr (fun _ => rfl) (fun _ _ => rfl)
  unfold distributeOrWait
  simp only
  split
  · exact h.trans (by rw [h'])
  · rw [numFirst_distribute]; exact h.trans (by rw [h'])

theorem numFirst_correct (hp : p.WellFormed) (s : CorrNet) {i : Nat} (hi : i < p.nClusterNodes) (l : SegState) :
    numFirst p.nClusterNodes (correct p pts mir s i l) ≤ numFirst p.nClusterNodes s + 1 := by
  unfold correct
  split
  · obtain ⟨l', hl', -⟩ := SegState.buildSegments_built hp i (cleared l) ((points pts s i).map mir)
    rw [hl']
    exact (numFirst_dow _ hi _).trans (le_of_eq (congrArg (· + 1) (weight_congr (fun _ => rfl) (fun _ _ => rfl))))
  · exact (numFirst_dow _ hi _).trans (le_of_eq (congrArg (· + 1) (weight_congr (fun _ => rfl) (fun _ _ => rfl))))

/-- Work left on messages which are not handled by the ring: twice the messages on links, and those in mailboxes. -/
abbrev work (n : Nat) (s : CorrNet) : Nat := weight n (fun l => l.length) (fun l => 2 * l.length) s

/-- Every step lowers a pair of numbers: the work of the ring and the first points; the messages on their way. -/
theorem step_lower {b it : Bool} (hp : p.WellFormed) (hn : 2 ≤ p.nClusterNodes) {s t : CorrNet} {r : RingNet Count}
    (hr : RingNet.Reachable b p.nClusterNodes r) (hrel : RingRel p pts s r)
    (hs : Step b it p pts mir s t) : ∃ r', RingNet.Reachable b p.nClusterNodes r' ∧ RingRel p pts t r' ∧
      (2 * RingNet.remaining p.nClusterNodes r' + numFirst p.nClusterNodes t <
          2 * RingNet.remaining p.nClusterNodes r + numFirst p.nClusterNodes s ∨
        2 * RingNet.remaining p.nClusterNodes r' + numFirst p.nClusterNodes t =
          2 * RingNet.remaining p.nClusterNodes r + numFirst p.nClusterNodes s ∧
        work p.nClusterNodes t < work p.nClusterNodes s) := by
  obtain ⟨r', hst, hrel'⟩ := ring_step hp hn hrel hr hs
  have hr' : RingNet.Reachable b p.nClusterNodes r' := by
    rcases hst with rfl | hst
    · exact hr
    · exact .step hr hst
  have hle : r' = r ∨ RingNet.remaining p.nClusterNodes r' < RingNet.remaining p.nClusterNodes r := by
    rcases hst with rfl | hst
    · exact .inl rfl
    · exact .inr (RingNet.C18_terminates hn hr hst)
  refine ⟨r', hr', hrel', ?_⟩
  cases hs with
  | enter i hi hl hc hb =>
    obtain ⟨e1, -⟩ := built_spec hp pts i
    have hne : r' ≠ r := by
      rintro rfl
      have h1 := hrel.started i
      have h2 := hrel'.started i
      rw [hl] at h1
      rw [h1] at h2
      unfold enter at h2
      rw [e1] at h2
      simp at h2
    have hlt := hle.resolve_left hne
    have hnf : numFirst p.nClusterNodes (enter p pts s i) = numFirst p.nClusterNodes s := by
      refine weight_congr (fun k => ?_) (fun j k => ?_)
      · unfold enter
        rw [e1]
        simp only [Proto.resolveBuffer, post]
        by_cases hk : k = i
        · subst hk; rw [Function.update_self]; simp
        · rw [Function.update_of_ne hk]
      · unfold enter
        rw [e1]
        simp only [post, update2]
        split
        · rename_i h; simp [h.1, h.2]
        · rfl
    rw [hnf]
    left; omega
  | arrive j i m rest hj hi hl hc =>
    set t : CorrNet := { s with
        link := Function.update s.link j (Function.update (s.link j) i rest)
        mailbox := Function.update s.mailbox i (s.mailbox i ++ [m]) } with ht
    set u : CorrNet := { s with link := Function.update s.link j (Function.update (s.link j) i rest) } with hu
    have key : ∀ (F G : List CMsg → Nat) (x y : Nat), G (s.link j i) = G rest + x → F (s.mailbox i ++ [m]) = F (s.mailbox i) + y →
        weight p.nClusterNodes F G t + x = weight p.nClusterNodes F G s + y := by
      intro F G x y h1 h2
      have e1 : weight p.nClusterNodes F G s = weight p.nClusterNodes F G u + x := by
        refine weight_link (s := u) (t := s) hj hi (q := s.link j i) rfl ?_ ?_
        · rw [hu]; simp
        · rw [hu]; simp only [update2, and_self, if_true]; exact h1
      have e2 : weight p.nClusterNodes F G t = weight p.nClusterNodes F G u + y := by
        refine weight_mail (s := t) (t := u) hi (q := s.mailbox i) ?_ ?_ ?_
        · rw [hu, ht]; simp
        · rw [hu, ht]
        · rw [ht]; simp only [Function.update_self]; exact h2
      omega
    have k1 : numFirst p.nClusterNodes t + (firsts [m]).length = numFirst p.nClusterNodes s + (firsts [m]).length :=
      key (fun l => (firsts l).length) (fun l => (firsts l).length) (firsts [m]).length (firsts [m]).length
      (by rw [hl, ← List.singleton_append, firsts_append, List.length_append]; omega) (by rw [firsts_append, List.length_append])
    have k2 : work p.nClusterNodes t + 2 = work p.nClusterNodes s + 1 := key (fun l => l.length) (fun l => 2 * l.length) 2 1 (by rw [hl]; simp; omega) (by simp)
    rcases hle with rfl | hlt
    · right; exact ⟨by omega, by omega⟩
    · left; omega
  | handle i m rest hi hl hc _ =>
    set u : CorrNet := { s with mailbox := Function.update s.mailbox i rest } with hu
    have k1 : numFirst p.nClusterNodes s = numFirst p.nClusterNodes u + (firsts [m]).length :=
      weight_mail hi rfl rfl (by rw [hl, ← List.singleton_append, firsts_append, List.length_append]; omega)
    have k2 : work p.nClusterNodes s = work p.nClusterNodes u + 1 := weight_mail hi rfl rfl (by rw [hl]; rfl)
    cases m with
    | count x =>
      have hc1 : (firsts [CMsg.count x]).length = 0 := rfl
      have hne : r' ≠ r := by
        rintro rfl
        have h1 := hrel.mailbox i
        have h2 := hrel'.mailbox i
        rw [h1, hl, counts_count] at h2
        have h3 : counts ((handle p pts mir u i (.count x)).mailbox i) = counts rest := by
          simp only [handle, handleCount]
          have hup : u.mailbox i = rest := by rw [hu]; simp
          split
          · exact congrArg counts hup
          · split
            · exact congrArg counts hup
            · rw [(unseen_correct (pts := pts) (mir := mir) hp _ i _ (by simp)).mailbox]
              exact congrArg counts hup
        rw [h3] at h2
        have := congrArg List.length h2
        simp at this
      have hlt := hle.resolve_left hne
      have h4 : numFirst p.nClusterNodes (handle p pts mir u i (.count x)) ≤ numFirst p.nClusterNodes u + 1 := by
        simp only [handle, handleCount]
        split
        · exact Nat.le_succ_of_le (le_of_eq (weight_congr (fun _ => rfl) (fun _ _ => rfl)))
        · split
          · refine Nat.le_succ_of_le (le_of_eq (weight_congr (fun _ => rfl) (fun j k => ?_)))
            simp only [post, update2]
            split
            · rename_i h; simp [h.1, h.2]
            · rfl
          · refine (numFirst_correct hp _ hi _).trans (le_of_eq (congrArg (· + 1) (weight_congr (fun _ => rfl) (fun _ _ => rfl))))
      left; omega
    | first pt tr =>
      have hc1 : (firsts [CMsg.first pt tr]).length = 1 := rfl
      have h4 : numFirst p.nClusterNodes (handle p pts mir u i (.first pt tr)) = numFirst p.nClusterNodes u := by
        simp only [handle, handleFirst]
        split
        · exact weight_congr (fun _ => rfl) (fun _ _ => rfl)
        · split
          · exact weight_congr (fun _ => rfl) (fun _ _ => rfl)
          · rw [numFirst_distribute]; exact weight_congr (fun _ => rfl) (fun _ _ => rfl)
      rcases hle with rfl | hlt
      · left; omega
      · left; omega
    | segs m =>
      have hc1 : (firsts [CMsg.segs m]).length = 0 := rfl
      have h4 : ∀ F G : List CMsg → Nat, weight p.nClusterNodes F G (handle p pts mir u i (.segs m)) = weight p.nClusterNodes F G u := by
        intro F G
        simp only [handle, handleSegs]
        split <;> exact weight_congr (fun _ => rfl) (fun _ _ => rfl)
      have h5 : numFirst p.nClusterNodes (handle p pts mir u i (.segs m)) = numFirst p.nClusterNodes u := h4 _ _
      have h6 : work p.nClusterNodes (handle p pts mir u i (.segs m)) = work p.nClusterNodes u := h4 _ _
      rcases hle with rfl | hlt
      · right; exact ⟨by omega, by omega⟩
      · left; omega

/-- C73: every run ends, in all schedules. -/
theorem C73_terminates {b it : Bool} (hp : p.WellFormed) (hn : 2 ≤ p.nClusterNodes) :
    ¬ ∃ f : Nat → CorrNet, f 0 = {} ∧ ∀ k, Step b it p pts mir (f k) (f (k + 1)) := by
  rintro ⟨f, h0, hf⟩
  have key : ∀ N M k (r : RingNet Count), RingNet.Reachable b p.nClusterNodes r → RingRel p pts (f k) r →
      2 * RingNet.remaining p.nClusterNodes r + numFirst p.nClusterNodes (f k) = N → work p.nClusterNodes (f k) = M → False := by
    intro N
    induction N using Nat.strong_induction_on with
    | _ N ihN =>
      intro M
      induction M using Nat.strong_induction_on with
      | _ M ihM =>
        intro k r hr hrel hN hM
        obtain ⟨r', hr', hrel', h | ⟨h, h'⟩⟩ := step_lower hp hn hr hrel (hf k)
        · exact ihN _ (hN ▸ h) _ (k + 1) r' hr' hrel' rfl rfl
        · exact ihM _ (hM ▸ h') (k + 1) r' hr' hrel' (h.trans hN) rfl
  exact key _ _ 0 _ (.init _) (by rw [h0]; exact ringRel_init) rfl rfl

end CorrNet
end S2G
