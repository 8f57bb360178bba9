import Verif.Props.StageLive
import Verif.Props.JointDelivers

/-!
# The stages of a run: none is stuck, none runs forever
-/

namespace S2G
namespace Joint
open Stage

variable {n q threads : Nat}

/-! ### The exchange of successor nodes -/

/-- A step of the stage is a step of the network. -/
theorem asking_move (hn : 2 ≤ n) {f : Nat → NodeQuestions × (Nat → List Node)} {s t : (asking n).S} (h : (asking n).Run f s)
    (hm : (asking n).Move f s t) : QNet.Step n (fun i => (f i).1) (fun i => (f i).2) (QNet.withAsk s.1 (fun i a => (f i).1 a))
      (QNet.withAsk t.1 (fun i a => (f i).1 a)) := by
  obtain ⟨hr, hnod, -⟩ := asking_run hn h
  obtain ⟨hc, hs⟩ | ⟨i, hi, hst, hc, rfl⟩ := hm
  · have hI := QNet.inv_reachable hn hr hc
    obtain ⟨pre, m, post, hm, rfl⟩ | ⟨pre, m, post, hm, rfl⟩ := hs
    · have hdst := (DirectNet.inv_reachable hI.ask.toReachable).dst m (by
        show m ∈ s.1.ask.pool
        rw [hm]; simp)
      have e : QNet.handleAsk n s.2 s.1 m (pre ++ post) = QNet.handleAsk n (fun i => (f i).2) s.1 m (pre ++ post) :=
        QNet.handleAsk_congr _ fun hr => hnod _ ((DirectNet.running_iff hI.ask.toReachable hdst).1 hr).1
      have h1 := QNet.Step.ask (n := n) (qs := fun i => (f i).1) (nodesOf := fun i => (f i).2)
        (QNet.withAsk s.1 (fun i a => (f i).1 a)) pre post m hm hc
      rw [QNet.withAsk_handleAsk, ← e] at h1
      exact h1
    · have h1 := QNet.Step.ans (n := n) (qs := fun i => (f i).1) (nodesOf := fun i => (f i).2)
        (QNet.withAsk s.1 (fun i a => (f i).1 a)) pre post m hm hc
      rw [QNet.withAsk_handleAns] at h1
      exact h1
  · have h1 := QNet.Step.start (n := n) (qs := fun i => (f i).1) (nodesOf := fun i => (f i).2)
      (QNet.withAsk s.1 (fun i a => (f i).1 a)) i hi hst hc
    rw [QNet.withAsk_start hn (fun i => (f i).1) s.1 i] at h1
    exact h1

theorem asking_live (hn : 2 ≤ n) {f : Nat → NodeQuestions × (Nat → List Node)}
    (hc : ∀ s, QNet.Reachable n (fun i => (f i).1) (fun i => (f i).2) s → s.crashed = false) : (asking n).Live n f where
  ready := by
    intro s hs i hi hst
    exact .inr ⟨_, hi, hst, by exact hc (QNet.withAsk s.1 (fun i a => (f i).1 a)) (asking_run hn hs).1, rfl⟩
  finish := by
    intro s hs hall
    have hr := (asking_run hn hs).1
    have hcr : s.1.crashed = false := hc (QNet.withAsk s.1 (fun i a => (f i).1 a)) hr
    cases hp : s.1.ask.pool with
    | cons m post => exact .inl ⟨_, hcr, .inl ⟨[], m, post, hp, rfl⟩⟩
    | nil =>
      cases hp' : s.1.ans.pool with
      | cons m post => exact .inl ⟨_, hcr, .inr ⟨[], m, post, hp', rfl⟩⟩
      | nil =>
        refine .inr fun i hi => ⟨_, asking_out.2 ⟨hi, QNet.C59_stuck_done hn hr hcr ?_ hi, rfl⟩⟩
        rintro ⟨t, ht⟩
        cases ht with
        | start j hj hst _ => exact absurd (hall j hj) (by rw [show (asking n).started s j = false from hst]; simp)
        | ask pre post m hm _ =>
          have hm : s.1.ask.pool = _ := hm
          rw [hp] at hm; simp at hm
        | ans pre post m hm _ =>
          have hm : s.1.ans.pool = _ := hm
          rw [hp'] at hm; simp at hm

theorem asking_terminates (hn : 2 ≤ n) (f : Nat → NodeQuestions × (Nat → List Node)) : (asking n).Terminates f :=
  terminates_of (fun s => DirectNet.remaining n s.1.ask + DirectNet.remaining n s.1.ans) fun s t hs hm => by
    have := QNet.C59_terminates hn (asking_run hn hs).1 (asking_move hn hs hm)
    exact this

/-! ### The exchange of overlapping edges -/

theorem overlap_live {st m : Nat → Nat} {f : Nat → List Edge × List Nat}
    (h : OvNet.Layout n q st m (fun i => (f i).1) (fun i => (f i).2)) : (overlap n q).Live n f where
  ready := by
    intro s hs i hi hst
    have hst' : OvNet.started s i = false := hst
    obtain ⟨t, ht, -⟩ := (OvNet.C51_no_crash h (overlap_run hs).1).1 i hi hst
    rw [OvNet.fill_start hst'] at ht
    obtain ⟨u, hu, -⟩ := Option.map_eq_some_iff.1 ht
    exact .inr ⟨u, hi, hst, hu⟩
  finish := by
    intro s hs hall
    obtain ⟨hr, hF⟩ := overlap_run hs
    cases hp : OvNet.pool s with
    | cons x post =>
      obtain ⟨t, ht, -⟩ := (OvNet.C51_no_crash h hr).2 [] post x.1 x.2 hp
      have h1 := OvNet.fill_handle (n := n) (q := q) (own := fun i => (f i).1) (cnt := fun i => (f i).2) (s := { s with pool := [] ++ post })
        (i := x.1) (m := x.2) (fun hr => (OvNet.fine_running (hF x.1) hr).1)
      obtain ⟨u, hu, -⟩ := Option.map_eq_some_iff.1 (h1.symm.trans ht)
      exact .inl ⟨u, [], x.1, x.2, post, hp, hu⟩
    | nil =>
      refine .inr fun i hi => ?_
      exact ⟨_, overlap_out.2 ⟨hi, (OvNet.C51_scored h hr hi).resolve_left (OvNet.C51_quiescent_scored h hr hall hp hi)⟩⟩

/-- Nodes which have not entered the exchange and nodes which have not scored. -/
def toScore (n : Nat) (s : OvNet) : Nat :=
  ((List.range n).map fun i => (if s.started i then 0 else 1) + (if s.scored i = [] then 1 else 0)).sum

theorem sum_lower {g h : Nat → Nat} {i : Nat} (hi : i < n) (hle : ∀ j, g j ≤ h j) (hlt : g i < h i) :
    ((List.range n).map g).sum < ((List.range n).map h).sum :=
  List.sum_lt_sum _ _ (fun j _ => hle j) ⟨i, List.mem_range.2 hi, hlt⟩

theorem overlap_terminates (f : Nat → List Edge × List Nat) : (overlap n q).Terminates f := by
  refine terminates_of₂ (fun s => toScore n s) (fun s => (OvNet.pool s).length) fun s t hs hm => ?_
  have hF := (overlap_run hs).2
  obtain ⟨pre, j, m, post, hm, ht⟩ | ⟨i, hi, hst, ht⟩ := hm
  · obtain ⟨-, rfl⟩ | ⟨hr, x, o, -, -, rfl⟩ := OvNet.handle_cases ht
    · refine .inr ⟨rfl, ?_⟩
      rw [show OvNet.pool s = _ from hm]
      simp
    · left
      obtain ⟨h1, -, -, -, -, h6⟩ := OvNet.fine_running (hF j) hr
      refine sum_lower (started_lt overlap_laws hs (i := j) h1) (fun k => ?_) ?_
      · by_cases hk : k = j
        · subst hk
          simp
        · simp [Function.update_of_ne hk]
      · have h6 : OvNet.scored s j = [] := h6
        simp [h6]
  · left
    have h0 : ∀ j, OvNet.Fine n
        { s with edges := Function.update (OvNet.edges s) i (f i).1, eit := Function.update (OvNet.eit s) i (f i).2 } j :=
      fun j => (hF j).congr rfl rfl rfl
    obtain ⟨-, h1, h2⟩ := OvNet.fine_start h0 hst ht
    have hst : OvNet.started s i = false := hst
    have hsc : OvNet.scored s i = [] := by
      have := hF i
      unfold OvNet.Fine at this
      rw [hst] at this
      exact this.2.2.2
    refine sum_lower hi (fun k => ?_) ?_
    · by_cases hk : k = i
      · subst hk
        rw [h1, hst, hsc]
        by_cases h3 : OvNet.scored t k = [] <;> simp [h3]
      · rw [h1, h2 k hk, Function.update_of_ne hk]
    · rw [h1, hst, hsc]
      by_cases h3 : OvNet.scored t i = [] <;> simp [h3]

/-! ### The helpers -/

theorem Job.unique {x : (List Edge × List Nat) × Counts EdgeKey × Counts NodeKey} {a b : ParScore} (ha : Job q threads x a)
    (hb : Job q threads x b) : a = b := by
  obtain ⟨sl, h1, h2⟩ := ha
  obtain ⟨sl', h3, h4⟩ := hb
  obtain rfl : sl = sl' := Option.some.inj (h1.symm.trans h3)
  exact Option.some.inj (h2.symm.trans h4)

/-- The threads of a node start and answer. -/
def Answers (q threads : Nat) (x : (List Edge × List Nat) × Counts EdgeKey × Counts NodeKey) : Prop :=
  ∃ s0, Job q threads x s0 ∧ ∀ a, ParScore.Reachable s0 a → (a.pool = [] → ∃ y, a.final = [y]) ∧
    ∀ pre m post, a.pool = pre ++ m :: post → ∃ u, ParScore.handle { a with pool := pre ++ post } m = some u

theorem helpers_live {f : Nat → (List Edge × List Nat) × Counts EdgeKey × Counts NodeKey}
    (h : ∀ i < n, Answers q threads (f i)) : (helpers n q threads).Live n f where
  ready := by
    intro s hs i hi hst
    obtain ⟨s0, ⟨sl, h1, h2⟩, -⟩ := h i hi
    exact .inr ⟨_, hi, by simpa using show (s i).isSome = false from hst, sl, s0, h1, h2, rfl⟩
  finish := by
    intro s hs hall
    by_cases hp : ∃ i, i < n ∧ ∃ a, s i = some a ∧ ParScore.pool a ≠ []
    · obtain ⟨i, hi, a, ha, hne⟩ := hp
      obtain ⟨m, post, hm⟩ := List.exists_cons_of_ne_nil hne
      obtain ⟨-, -, s0, h1, h2⟩ := helpers_run hs ha
      obtain ⟨s1, h3, h4⟩ := h i hi
      obtain rfl := h1.unique h3
      obtain ⟨u, hu⟩ := (h4 a h2).2 [] m post hm
      exact .inl ⟨_, i, a, u, ha, .handle a [] post m hm hu, rfl⟩
    · refine .inr fun i hi => ?_
      obtain ⟨a, ha⟩ := Option.isSome_iff_exists.1 (show (s i).isSome = true from hall i hi)
      obtain ⟨-, -, s0, h1, h2⟩ := helpers_run hs ha
      obtain ⟨s1, h3, h4⟩ := h i hi
      obtain rfl := h1.unique h3
      have hpool : ParScore.pool a = [] := by
        by_contra hne
        exact hp ⟨i, hi, a, ha, hne⟩
      obtain ⟨y, hy⟩ := (h4 a h2).1 hpool
      exact ⟨y, helpers_out.2 ⟨a, ha, hy⟩⟩

/-- What is left to do for a node. -/
def toAnswer : Option ParScore → Nat
  | none => 0
  | some a => a.pool.length + (a.proto.nTotal - a.proto.nReceived)

theorem toAnswer_step {a b : ParScore} (ha : ParScore.Calm a) (h : ParScore.Step a b) : toAnswer (some b) < toAnswer (some a) := by
  cases h with
  | handle pre post m hm ht =>
    have h0 : a.pool.length = (pre ++ post).length + 1 := by rw [hm]; simp [Nat.add_assoc]
    unfold ParScore.handle at ht
    unfold toAnswer
    dsimp only
    split at ht
    · cases Option.some.inj ht
      dsimp only
      omega
    · simp only [Option.bind_eq_bind, Option.bind_eq_some_iff] at ht
      obtain ⟨p, hp, ht⟩ := ht
      unfold HelperProto.received at hp
      simp only [Option.bind_eq_bind, Option.bind_eq_some_iff, Option.some.injEq] at hp
      obtain ⟨k, hk, rfl⟩ := hp
      have hk' : 1 ≤ a.proto.nSent ∧ k = a.proto.nSent - 1 := by
        unfold checkedSub at hk
        split at hk
        · exact ⟨by assumption, (Option.some.inj hk).symm⟩
        · cases hk
      have h1 := ha.sum
      split at ht
      · cases Option.some.inj ht
        dsimp only
        omega
      · split at ht
        · cases Option.some.inj ht
          dsimp only
          omega
        · cases Option.some.inj ht
          dsimp only
          rw [List.length_append, List.length_singleton]
          omega

theorem sum_toAnswer {s : Nat → Option ParScore} {i : Nat} (hi : i < n) {a b : ParScore} (ha : s i = some a) (hcalm : ParScore.Calm a)
    (hab : ParScore.Step a b) : ((List.range n).map fun k => toAnswer (Function.update s i (some b) k)).sum <
      ((List.range n).map fun k => toAnswer (s k)).sum := by
  refine sum_lower hi (fun k => ?_) ?_
  · by_cases hk : k = i
    · subst hk
      rw [ha, Function.update_self]
      exact (toAnswer_step hcalm hab).le
    · rw [Function.update_of_ne hk]
  · rw [ha, Function.update_self]
    exact toAnswer_step hcalm hab

theorem sum_waiting {s : Nat → Option ParScore} {i : Nat} (hi : i < n) (hs : s i = none) (b : ParScore) :
    ((List.range n).map fun k => if (Function.update s i (some b) k).isSome then 0 else 1).sum <
      ((List.range n).map fun k => if (s k).isSome then 0 else 1).sum := by
  refine sum_lower hi (fun k => ?_) ?_
  · by_cases hk : k = i
    · subst hk
      simp
    · rw [Function.update_of_ne hk]
  · simp [hs]

theorem helpers_terminates (f : Nat → (List Edge × List Nat) × Counts EdgeKey × Counts NodeKey) : (helpers n q threads).Terminates f := by
  refine terminates_of₂ (fun s : Nat → Option ParScore => ((List.range n).map fun i => if (s i).isSome then 0 else 1).sum)
    (fun s : Nat → Option ParScore => ((List.range n).map fun i => toAnswer (s i)).sum) fun s t hs hm => ?_
  obtain ⟨i, a, b, ha, hab, rfl⟩ | ⟨i, hi, hst, sl, s0, -, -, rfl⟩ := hm
  · obtain ⟨hi, hcalm, -⟩ := helpers_run hs ha
    refine .inr ⟨?_, ?_⟩
    · have := upd_isSome' (x := b) ha
      exact congrArg (fun g : Nat → Bool => ((List.range n).map fun i => if g i then 0 else 1).sum) this
    · exact sum_toAnswer hi ha hcalm hab
  · exact .inl (sum_waiting hi hst s0)

/-! ### The segmentation -/

section
open Points Whole
variable {p : Parameters}

/-- A node which crashes in the segmentation without self correction has received a first point before it has entered the stage. -/
theorem crashed_outside (hp : p.WellFormed) {pts : Nat → List Pt} (hv : ∀ i < p.nClusterNodes, validSteps p.rate (pts i) ≠ []) {s : SegNet}
    (h : SegNet.Reachable p pts s) (hc : s.crashed = true) : ∃ i < p.nClusterNodes, s.loc i = none := by
  induction h with
  | init => cases hc
  | @step s t h hs _ =>
    obtain ⟨i, h1, h2⟩ := SegNet.C28_crash_cause hp h hs hc
    obtain ⟨x, hx⟩ := Option.ne_none_iff_exists'.1 h1
    have hi : i < p.nClusterNodes := by
      have := ((SegNet.inv_reachable hp h).first i x.1 x.2 hx).1
      omega
    have h2 := h2.resolve_right (hv i hi)
    refine ⟨i, hi, ?_⟩
    cases hs with
    | segment j hj hl hcs =>
      obtain ⟨l, hl, _⟩ := SegState.buildSegments_built hp j {} (pts j)
      simp only [SegNet.segment, hl] at hc
      split at hc <;> simp [SegNet.distribute, hcs] at hc
    | first j pt tr hf hcs =>
      have := (SegNet.handleFirst_isSome (p := p) s j pt tr i).1
      rw [h2] at this
      simpa using this
    | exchange pre post m hm hcs => exact h2

/-- When all nodes have entered the segmentation it goes on until all are done. -/
theorem plain_finishes (hp : p.WellFormed) {f : Nat → List Point} (hv : ∀ i < p.nClusterNodes, validSteps p.rate ((f i).map toPt) ≠ []) :
    (plain p).Finishes p.nClusterNodes f := by
  intro s hs hall
  have hr := plain_run hs
  have hloc : ∀ i < p.nClusterNodes, SegNet.loc s i ≠ none := fun i hi => Option.isSome_iff_ne_none.1 (hall i hi)
  have hc : SegNet.crashed s = false := by
    by_contra hcr
    obtain ⟨i, hi, hl⟩ := crashed_outside hp hv hr (by simpa using hcr)
    exact hloc i hi hl
  by_cases hst : ∃ t, (plain p).step s t
  · exact .inl hst
  · refine .inr fun i hi => ⟨_, plain_out (y := (SegNet.store s i, ((SegNet.loc s i).map SegState.questions).getD NodeQuestions.clear, false)).2
      ⟨hi, ⟨SegNet.C28_progress_of_transitions hp hv hr hc ?_ i hi, rfl⟩, rfl⟩⟩
    rintro ⟨t, ht⟩
    cases ht with
    | segment j hj hl _ => exact hloc j hj hl
    | first j pt tr hf _ => exact hst ⟨_, hc, .inl ⟨j, pt, tr, hf, rfl⟩⟩
    | exchange pre post m hm _ => exact hst ⟨_, hc, .inr ⟨pre, m, post, hm, rfl⟩⟩

/-- Before a node has crashed, a node which has not entered the segmentation can enter it. -/
theorem plain_ready (hp : p.WellFormed) {f : Nat → List Point} {s : (plain p).S} (hc : SegNet.crashed s = false) {i : Nat}
    (hi : i < p.nClusterNodes) (hst : (plain p).started s i = false) : ∃ t, (plain p).start s i (f i) t := by
  refine ⟨_, hi, by simpa using show (SegNet.loc s i).isSome = false from hst, hc, rfl, ?_⟩
  obtain ⟨l, hl, _⟩ := SegState.buildSegments_built hp i {} ((f i).map toPt)
  show (SegNet.segment p (fun _ => (f i).map toPt) s i).crashed = false
  simp only [SegNet.segment, hl]
  split <;> simp [SegNet.distribute, hc]

theorem plain_terminates (hp : p.WellFormed) (f : Nat → List Point) : (plain p).Terminates f := by
  refine terminates_of (fun s => SegNet.remaining p s) fun s t hs hm => SegNet.C28_terminates hp (plain_run hs) ?_
  obtain ⟨hc, ⟨i, pt, tr, hf, rfl⟩ | ⟨pre, m, post, hm, rfl⟩⟩ | ⟨i, hi, hl, hc, rfl, -⟩ := hm
  · exact .first s i pt tr hf hc
  · exact .exchange s pre post m hm hc
  · exact SegNet.Step.segment (p := p) (pts := fun i => (f i).map toPt) s i hi hl hc

variable {mir : Pt → Pt}

/-- On two nodes the segmentation with self correction is never stuck. -/
theorem corr_live (hp : p.WellFormed) (hsc : p.selfCorrection = true) (hn : p.nClusterNodes = 2) {f : Nat → List Point}
    (hv : ∀ i < p.nClusterNodes, validSteps p.rate (CorrNet.corrected p (fun i => (f i).map toPt) mir i) ≠ []) :
    (correction p mir).Live p.nClusterNodes f where
  ready := by
    intro s hs i hi hst
    obtain ⟨hr, hrec⟩ := corr_run hp (by omega) hs
    have hc := CorrNet.C73_no_crash hp hsc (by omega) (.inl rfl) (fun _ => .inl rfl) hv hr
    have hl : s.2 i = none := by simpa using show (s.2 i).isSome = false from hst
    cases hm : s.1.mailbox i with
    | nil =>
      refine .inr ⟨_, hi, hl, hc, .inl (by rw [hm]; rfl), rfl, ?_⟩
      exact (enter_loc hp s.1 i).1.trans hc
    | cons m rest =>
      refine .inl ⟨_, hc, .inr ⟨i, m, rest, hi, hm, fun pt tr he => ?_, rfl⟩⟩
      subst he
      exact CorrNet.two_first hp hn hr hi hm
  finish := by
    intro s hs hall
    obtain ⟨hr, hrec⟩ := corr_run hp (by omega) hs
    have hc := CorrNet.C73_no_crash hp hsc (by omega) (.inl rfl) (fun _ => .inl rfl) hv hr
    by_cases hst : ∃ t, (correction p mir).step s t
    · exact .inl hst
    · refine .inr fun i hi => ⟨_, corr_out.2 ⟨hi, CorrNet.C73_progress hp hsc (by omega) (.inl rfl) (fun _ => .inl rfl) hv hr ?_ i hi, rfl⟩⟩
      rintro ⟨t, ht⟩
      cases ht with
      | enter j hj hl _ _ =>
        have h1 : (s.2 j).isSome = true := hall j hj
        have h2 : s.2 j = _ := hrec j
        rw [h2, hl] at h1
        cases h1
      | arrive j k m rest hj hk hl _ => exact hst ⟨_, hc, .inl ⟨j, k, m, rest, hj, hk, hl, rfl⟩⟩
      | handle j m rest hj hl _ _ =>
        refine hst ⟨_, hc, .inr ⟨j, m, rest, hj, hl, fun pt tr he => ?_, rfl⟩⟩
        subst he
        exact CorrNet.two_first hp hn hr hj hl

theorem corr_terminates (hp : p.WellFormed) (hn : 2 ≤ p.nClusterNodes) (f : Nat → List Point) : (correction p mir).Terminates f := by
  have key : ∀ N M (s : (correction p mir).S) (r : RingNet SelfCorrection.Count), RingNet.Reachable true p.nClusterNodes r →
      CorrNet.RingRel p (fun i => (f i).map toPt) s.1 r →
      2 * RingNet.remaining p.nClusterNodes r + CorrNet.numFirst p.nClusterNodes s.1 = N → CorrNet.work p.nClusterNodes s.1 = M →
      Acc (fun t s : (correction p mir).S => (correction p mir).Run f s ∧ (correction p mir).Move f s t) s := by
    intro N
    induction N using Nat.strong_induction_on with
    | _ N ihN =>
      intro M
      induction M using Nat.strong_induction_on with
      | _ M ihM =>
        intro s r hr hrel hN hM
        refine ⟨_, ?_⟩
        rintro t ⟨hs, hm⟩
        obtain ⟨h1, h2⟩ := corr_run hp hn hs
        have h3 : CorrNet.Step true true p (fun i => (f i).map toPt) mir s.1 t.1 := by
          obtain hm | ⟨i, hm⟩ := hm
          · exact (corr_step hp hn h1 h2 hm).1
          · exact (corr_start (pts := fun i => (f i).map toPt) hp rfl h2 hm).1
        obtain ⟨r', hr', hrel', h | ⟨h, h'⟩⟩ := CorrNet.step_lower hp hn hr hrel h3
        · exact ihN _ (hN ▸ h) _ t r' hr' hrel' rfl rfl
        · exact ihM _ (hM ▸ h') t r' hr' hrel' (h.trans hN) rfl
  refine ⟨fun s => ?_⟩
  by_cases hs : (correction p mir).Run f s
  · obtain ⟨r, hr, hrel⟩ := CorrNet.ring_reachable hp hn (corr_run hp hn hs).1
    exact key _ _ s r hr hrel rfl rfl
  · exact ⟨_, fun t ht => absurd ht.1 hs⟩

theorem segmentation_terminates (hp : p.WellFormed) (hn : 2 ≤ p.nClusterNodes) {mirrored : Nat → List Point} (f : Nat → List Point) :
    (segmentation p mirrored).Terminates f := by
  unfold segmentation
  split
  · exact corr_terminates hp hn f
  · exact plain_terminates hp f

end

end Joint
end S2G
