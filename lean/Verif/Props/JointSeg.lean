import Verif.Props.JointRun
import Verif.Props.ClusterRun

/-!
# The segmentation as a stage
-/

namespace S2G

namespace SegNet
variable {p : Parameters} {pts : Nat → List Pt}

theorem segment_congr {pts' : Nat → List Pt} {i : Nat} (h : pts i = pts' i) (s : SegNet) : segment p pts s i = segment p pts' s i := by
  unfold segment
  rw [h]

/-- What entering the stage changes. -/
theorem segment_fields (s : SegNet) (i : Nat) (hc : (segment p pts s i).crashed = false) :
    (∃ l, (segment p pts s i).loc = Function.update s.loc i (some l)) ∧
    ((segment p pts s i).net = s.net ∨ ∃ f, (segment p pts s i).net = DirectNet.startStep false p.nClusterNodes s.net i f) := by
  unfold segment at hc ⊢
  cases hb : SegState.buildSegments p i {} (pts i) with
  | none => rw [hb] at hc; cases hc
  | some l =>
    dsimp only
    split
    · exact ⟨⟨_, rfl⟩, .inl rfl⟩
    · exact ⟨⟨_, rfl⟩, .inr ⟨_, rfl⟩⟩

theorem handleFirst_isSome (s : SegNet) (i : Nat) (pt : Pt) (t : Trans) (j : Nat) :
    ((handleFirst p s i pt t).loc j).isSome = (s.loc j).isSome ∧ (j ≠ i → (handleFirst p s i pt t).loc j = s.loc j) := by
  unfold handleFirst
  dsimp only
  split
  · exact ⟨rfl, fun _ => rfl⟩
  · next l hl =>
    split
    · exact ⟨rfl, fun _ => rfl⟩
    · unfold distribute
      dsimp only
      by_cases hji : j = i
      · subst hji
        exact ⟨by simp [hl], fun h => absurd rfl h⟩
      · rw [Function.update_of_ne hji]
        exact ⟨rfl, fun _ => rfl⟩

theorem handleFirst_net (s : SegNet) (i : Nat) (pt : Pt) (t : Trans) : (handleFirst p s i pt t).net = s.net ∨
    ∃ f, (handleFirst p s i pt t).net = DirectNet.startStep false p.nClusterNodes s.net i f := by
  unfold handleFirst
  dsimp only
  split
  · exact .inl rfl
  · split
    · exact .inl rfl
    · exact .inr ⟨_, rfl⟩

/-- The result of a node. -/
def Result (s : SegNet) (i : Nat) (x : List Trans × NodeQuestions) : Prop :=
  s.net.done i = 1 ∧ x = (s.store i, ((s.loc i).map SegState.questions).getD NodeQuestions.clear)

theorem done_started (hp : p.WellFormed) {s : SegNet} (h : Reachable p pts s) {i : Nat} (hi : i < p.nClusterNodes) (hd : s.net.done i = 1) :
    s.net.started i = true ∧ s.loc i ≠ none := by
  have hI := inv_reachable hp h
  have h1 := (DirectNet.done_idle hI.net hi hd).2
  refine ⟨h1, fun hl => ?_⟩
  rw [hI.idle i hi hl] at h1
  cases h1

theorem result_stable (hp : p.WellFormed) {s t : SegNet} (h : Reachable p pts s) (hs : Step p pts s t) {i : Nat} (hi : i < p.nClusterNodes)
    {x : List Trans × NodeQuestions} (hx : Result s i x) : Result t i x := by
  obtain ⟨hd, rfl⟩ := hx
  have hI := inv_reachable hp h
  obtain ⟨h1, h2⟩ := done_started hp h hi hd
  have key : ∀ t : SegNet, t.loc i = s.loc i → t.net.done i = 1 → t.net.processed i = s.net.processed i →
      Result t i (s.store i, ((s.loc i).map SegState.questions).getD NodeQuestions.clear) := by
    intro t h3 h4 h5
    refine ⟨h4, ?_⟩
    unfold store
    rw [h3, h5]
  cases hs with
  | segment j hj hl hc =>
    have hij : i ≠ j := by rintro rfl; exact h2 hl
    cases hb : (segment p pts s j).crashed with
    | true =>
      have e : segment p pts s j = { s with crashed := true } := by
        unfold segment at hb ⊢
        split at hb
        · rfl
        · dsimp only at hb
          split at hb
          · exact absurd hb (by rw [hc]; simp)
          · exact absurd hb (by simp [distribute, hc])
      rw [e]
      exact key _ rfl hd rfl
    | false =>
      obtain ⟨⟨l, h3⟩, h4⟩ := segment_fields s j hb
      refine key _ (by rw [h3, Function.update_of_ne hij]) ?_ ?_
      · rcases h4 with h4 | ⟨f, h4⟩
        · rw [h4]; exact hd
        · rw [h4, DirectNet.done_start _ _ _ hij]; exact hd
      · rcases h4 with h4 | ⟨f, h4⟩
        · rw [h4]
        · rw [h4]; rfl
  | first j pt tr hf hc =>
    have hij : i ≠ j := by
      rintro rfl
      rw [(hI.first i pt tr hf).2.2.2.2] at h1
      cases h1
    refine key _ ((handleFirst_isSome s j pt tr i).2 hij) ?_ ?_
    · rcases handleFirst_net (p := p) s j pt tr with h4 | ⟨f, h4⟩
      · rw [h4]; exact hd
      · rw [h4, DirectNet.done_start _ _ _ hij]; exact hd
    · rcases handleFirst_net (p := p) s j pt tr with h4 | ⟨f, h4⟩
      · rw [h4]
      · rw [h4]; rfl
  | exchange pre post m hm hc =>
    obtain ⟨h3, h4⟩ := DirectNet.done_handle hI.net hi hd m (pre ++ post)
    exact key _ rfl h3 h4

end SegNet

namespace Joint
open Stage Cluster Whole Points

variable {p : Parameters}

/-! ### Without self correction -/

theorem plain_run {f : Nat → List Point} {s : (plain p).S} (h : (plain p).Run f s) : SegNet.Reachable p (fun i => (f i).map toPt) s := by
  induction h with
  | init => exact .init
  | @start s t i _ hs ih =>
    obtain ⟨hi, hl, hc, rfl, -⟩ := hs
    have := SegNet.Step.segment (p := p) (pts := fun i => (f i).map toPt) s i hi hl hc
    exact .step ih this
  | @step s t _ hs ih =>
    obtain ⟨hc, ⟨i, pt, tr, hf, rfl⟩ | ⟨pre, m, post, hm, rfl⟩⟩ := hs
    · exact .step ih (.first s i pt tr hf hc)
    · exact .step ih (.exchange s pre post m hm hc)

theorem run_plain {f : Nat → List Point} {s : SegNet} (h : SegNet.Reachable p (fun i => (f i).map toPt) s) :
    (plain p).Run f s ∨ s.crashed = true ∧ ∃ i < p.nClusterNodes, s.loc i = none := by
  induction h with
  | init => exact .inl .init
  | @step s t h hs ih =>
    rcases ih with ih | ⟨hcr, -⟩
    · cases hs with
      | segment i hi hl hc =>
        cases hb : (SegNet.segment p (fun i => (f i).map toPt) s i).crashed with
        | true =>
          refine .inr ⟨rfl, i, hi, ?_⟩
          unfold SegNet.segment at hb ⊢
          split at hb
          · exact hl
          · dsimp only at hb
            split at hb
            · exact absurd hb (by rw [hc]; simp)
            · exact absurd hb (by simp [SegNet.distribute, hc])
        | false => exact .inl (.start (i := i) ih ⟨hi, hl, hc, rfl, hb⟩)
      | first i pt tr hf hc => exact .inl (.step ih ⟨hc, .inl ⟨i, pt, tr, hf, rfl⟩⟩)
      | exchange pre post m hm hc => exact .inl (.step ih ⟨hc, .inr ⟨pre, m, post, hm, rfl⟩⟩)
    · cases hs with
      | segment i hi hl hc => rw [hcr] at hc; cases hc
      | first i pt tr hf hc => rw [hcr] at hc; cases hc
      | exchange pre post m hm hc => rw [hcr] at hc; cases hc

theorem plain_out {s : (plain p).S} {i : Nat} {y : List Trans × NodeQuestions × Bool} :
    (plain p).out s i = some y ↔ i < p.nClusterNodes ∧ SegNet.Result s i (y.1, y.2.1) ∧ y.2.2 = false := by
  show (if i < p.nClusterNodes ∧ (SegNet.net s).done i = 1 then some (SegNet.store s i, ((SegNet.loc s i).map SegState.questions).getD NodeQuestions.clear, false)
    else none) = some y ↔ _
  unfold SegNet.Result
  split
  · next hc =>
    constructor
    · intro h
      cases Option.some.inj h
      exact ⟨hc.1, ⟨hc.2, rfl⟩, rfl⟩
    · rintro ⟨-, ⟨-, h1⟩, h2⟩
      rw [Prod.mk.injEq] at h1
      rw [← h1.1, ← h1.2, ← h2]
  · next hc =>
    constructor
    · intro h; cases h
    · rintro ⟨h1, ⟨h2, -⟩, -⟩
      exact absurd ⟨h1, h2⟩ hc

theorem plain_laws (hp : p.WellFormed) : (plain p).Laws p.nClusterNodes where
  init i := rfl
  start := by
    rintro s i x t ⟨hi, hl, hc, rfl, hcr⟩
    refine ⟨hi, congrArg Option.isSome hl, funext fun j => ?_⟩
    obtain ⟨⟨l, hl'⟩, -⟩ := SegNet.segment_fields s i hcr
    show ((SegNet.segment p (fun _ => x.map toPt) s i).loc j).isSome = Function.update (fun k => (SegNet.loc s k).isSome) i true j
    rw [hl']
    by_cases hji : j = i
    · subst hji; simp
    · rw [Function.update_of_ne hji, Function.update_of_ne hji]
  step := by
    rintro s t ⟨hc, ⟨i, pt, tr, hf, rfl⟩ | ⟨pre, m, post, hm, rfl⟩⟩
    · exact funext fun j => (SegNet.handleFirst_isSome s i pt tr j).1
    · rfl
  out := by
    intro f s i y h hy
    obtain ⟨hi, ⟨hd, -⟩, -⟩ := plain_out.1 hy
    exact Option.isSome_iff_ne_none.2 (SegNet.done_started hp (plain_run h) hi hd).2
  stableStart := by
    intro f s t i j y h hs hy
    obtain ⟨hi, h1, h2⟩ := plain_out.1 hy
    obtain ⟨hj, hl, hc, rfl, -⟩ := hs
    have := SegNet.Step.segment (p := p) (pts := fun i => (f i).map toPt) s j hj hl hc
    exact plain_out.2 ⟨hi, SegNet.result_stable hp (plain_run h) this hi h1, h2⟩
  stableStep := by
    intro f s t i y h hs hy
    obtain ⟨hi, h1, h2⟩ := plain_out.1 hy
    have : SegNet.Step p (fun i => (f i).map toPt) s t := by
      obtain ⟨hc, ⟨i, pt, tr, hf, rfl⟩ | ⟨pre, m, post, hm, rfl⟩⟩ := hs
      · exact .first s i pt tr hf hc
      · exact .exchange s pre post m hm hc
    exact plain_out.2 ⟨hi, SegNet.result_stable hp (plain_run h) this hi h1, h2⟩

theorem plain_ends (hp : p.WellFormed) {f : Nat → List Point} {y : Nat → List Trans × NodeQuestions × Bool} :
    (plain p).Ends p.nClusterNodes f y ↔ ∃ s, SegNet.Reachable p (fun i => (f i).map toPt) s ∧
      ∀ i < p.nClusterNodes, s.net.done i = 1 ∧ y i = (s.store i, ((s.loc i).map SegState.questions).getD NodeQuestions.clear, false) := by
  constructor
  · rintro ⟨s, hs, hy⟩
    refine ⟨s, plain_run hs, fun i hi => ?_⟩
    obtain ⟨-, ⟨h1, h2⟩, h3⟩ := plain_out.1 (hy i hi)
    rw [Prod.mk.injEq] at h2
    exact ⟨h1, Prod.ext h2.1 (Prod.ext h2.2 h3)⟩
  · rintro ⟨s, hs, hy⟩
    rcases run_plain hs with h | ⟨-, i, hi, hl⟩
    · refine ⟨s, h, fun i hi => plain_out.2 ⟨hi, ⟨(hy i hi).1, ?_⟩, ?_⟩⟩
      · rw [(hy i hi).2]
      · rw [(hy i hi).2]
    · exact absurd hl (SegNet.done_started hp hs hi (hy i hi).1).2

end Joint

/-! ### With self correction -/

namespace CorrNet
variable {p : Parameters} {pts : Nat → List Pt} {mir : Pt → Pt}

theorem enter_congr {pts' : Nat → List Pt} {i : Nat} (h : pts i = pts' i) (s : CorrNet) : enter p pts s i = enter p pts' s i := by
  unfold enter
  rw [h]

theorem handle_congr {pts' : Nat → List Pt} {i : Nat} {s : CorrNet} {m : CMsg}
    (h : ∀ x, m = .count x → (s.cproto i).isRunning = true → pts i = pts' i) : handle p pts mir s i m = handle p pts' mir s i m := by
  cases m with
  | count x =>
    unfold handle handleCount Proto.received
    dsimp only
    by_cases hr : (s.cproto i).isRunning = true
    · rw [if_pos hr]
      dsimp only
      unfold correct points
      rw [h x rfl hr]
    · rw [if_neg hr]
  | first pt t => rfl
  | segs m => rfl

theorem isSome_update {α : Type} (f : Nat → Option α) (i : Nat) (x : α) (h : (f i).isSome = true) (j : Nat) :
    (Function.update f i (some x) j).isSome = (f j).isSome := by
  by_cases hji : j = i
  · subst hji; simp [h]
  · rw [Function.update_of_ne hji]

theorem handle_isSome {i : Nat} {s : CorrNet} {m : CMsg}
    (h : ∀ x, m = .count x → (s.cproto i).isRunning = true → (s.loc i).isSome = true) (j : Nat) :
    ((handle p pts mir s i m).loc j).isSome = (s.loc j).isSome := by
  cases m with
  | count x =>
    unfold handle handleCount Proto.received
    dsimp only
    by_cases hr : (s.cproto i).isRunning = true
    · have hs := h x rfl hr
      rw [if_pos hr]
      dsimp only
      split
      · exact isSome_update _ _ _ hs j
      · unfold correct
        have h2 : ∀ (u : CorrNet) (l : SegState), (∀ j, (u.loc j).isSome = (s.loc j).isSome) →
            ((distributeOrWait p u i l).loc j).isSome = (s.loc j).isSome := by
          intro u l hu
          rw [(dow_fields u i l).1, isSome_update _ _ _ ((hu i).trans hs)]
          exact hu j
        split
        · split
          · exact isSome_update _ _ _ hs j
          · exact h2 _ _ fun j => isSome_update _ _ _ hs j
        · exact h2 _ _ fun j => isSome_update _ _ _ hs j
    · rw [if_neg hr]
  | first pt t =>
    unfold handle handleFirst
    dsimp only
    split
    · rfl
    · next l hl =>
      split
      · rfl
      · exact isSome_update _ _ _ (by rw [hl]; rfl) j
  | segs m =>
    unfold handle handleSegs
    dsimp only
    split <;> rfl

/-- The result of a node. -/
def Result (s : CorrNet) (i : Nat) (x : List Trans × NodeQuestions × Bool) : Prop :=
  s.done i = 1 ∧ x = (s.store i, ((s.loc i).map SegState.questions).getD NodeQuestions.clear, decide (s.decided i = some true))

/-- A node which is done has the result of the segmentation of the corrected points. -/
theorem result_iff (hp : p.WellFormed) (hsc : p.selfCorrection = true) (hn : 2 ≤ p.nClusterNodes) {s : CorrNet}
    (h : Reachable true true p pts mir s) {a : SegNet} (ha : SegNet.Reachable p (corrected p pts mir) a)
    (hrel : SegRel p pts (decide (Wanted p pts)) s a) {i : Nat} (hi : i < p.nClusterNodes) {x : List Trans × NodeQuestions × Bool} :
    Result s i x ↔ SegNet.Result a i (x.1, x.2.1) ∧ x.2.2 = decide (Wanted p pts) := by
  have hI := SegNet.inv_reachable hp ha
  have key : s.done i = 1 → s.store i = a.store i ∧ (s.loc i).map SegState.questions = (a.loc i).map SegState.questions ∧
      decide (s.decided i = some true) = decide (Wanted p pts) := by
    intro hd
    have hda : a.net.done i = 1 := by rw [hrel.net.done]; exact hd
    have hc : Commit p (decide (Wanted p pts)) s i := by
      by_contra hc
      exact (SegNet.done_started hp ha hi hda).2 (hrel.loc.idle i hc)
    obtain ⟨l, la, h1, h2, h3⟩ := hrel.loc.busy i hc
    refine ⟨?_, ?_, ?_⟩
    · unfold store SegNet.store
      have : (core l).stored = (core la).stored := by rw [h3]
      rw [hrel.net.got, h1, h2]
      congr 1
    · have : (core l).questions = (core la).questions := by rw [h3]
      rw [h1, h2]
      exact congrArg some this
    · refine decide_eq_decide.2 ⟨fun h' => (C73_decision hp hsc hn (.inl rfl) h h').1 rfl, fun hw => ?_⟩
      unfold Commit at hc
      rw [if_neg (by simp [hw])] at hc
      obtain ⟨d, hd⟩ := Option.ne_none_iff_exists'.1 hc
      rw [hd, (C73_decision hp hsc hn (.inl rfl) h hd).2 hw]
  have hda : a.net.done i = s.done i := by rw [hrel.net.done]
  unfold Result SegNet.Result
  rw [hda]
  constructor
  · rintro ⟨hd, rfl⟩
    obtain ⟨h1, h2, h3⟩ := key hd
    exact ⟨⟨hd, by rw [h1, h2]⟩, h3⟩
  · rintro ⟨⟨hd, h4⟩, h5⟩
    obtain ⟨h1, h2, h3⟩ := key hd
    rw [Prod.mk.injEq] at h4
    refine ⟨hd, Prod.ext (h4.1.trans h1.symm) (Prod.ext (h4.2.trans (by rw [h2])) (h5.trans h3.symm))⟩

theorem result_stable (hp : p.WellFormed) (hsc : p.selfCorrection = true) (hn : 2 ≤ p.nClusterNodes) {s t : CorrNet}
    (h : Reachable true true p pts mir s) (hs : Step true true p pts mir s t) {i : Nat} (hi : i < p.nClusterNodes)
    {x : List Trans × NodeQuestions × Bool} (hx : Result s i x) : Result t i x := by
  obtain ⟨a, ha, hrel⟩ := seg_inside hp hsc hn (.inl rfl) (fun _ => .inl rfl) h
  obtain ⟨h1, h2⟩ := (result_iff hp hsc hn h ha hrel hi).1 hx
  obtain ⟨a', h3, h4⟩ := seg_step hp hsc hn (.inl rfl) (fun _ => rfl) h hs ha hrel
  rcases h3 with rfl | h3
  · exact (result_iff hp hsc hn (.step h hs) ha h4 hi).2 ⟨h1, h2⟩
  · exact (result_iff hp hsc hn (.step h hs) (.step ha h3) h4 hi).2 ⟨SegNet.result_stable hp ha h3 hi h1, h2⟩

end CorrNet

namespace Joint
open Stage Cluster Whole Points

variable {p : Parameters} {mir : Pt → Pt}

/-- The recorded points are those of the nodes which have entered the stage. -/
def Recorded (pts : Nat → List Pt) (s : CorrNet × (Nat → Option (List Pt))) : Prop :=
  ∀ i, s.2 i = if (s.1.loc i).isSome then some (pts i) else none

/-- A step of the stage, with the points of all nodes. -/
theorem corr_step (hp : p.WellFormed) (hn : 2 ≤ p.nClusterNodes) {pts : Nat → List Pt} {s t : CorrNet × (Nat → Option (List Pt))}
    (h : CorrNet.Reachable true true p pts mir s.1) (h2 : Recorded pts s) (hs : (correction p mir).step s t) :
    CorrNet.Step true true p pts mir s.1 t.1 ∧ Recorded pts t := by
  obtain ⟨hc, ⟨j, i, m, rest, hj, hi, hl, rfl⟩ | ⟨i, m, rest, hi, hl, ht, rfl⟩⟩ := hs
  · exact ⟨.arrive s.1 j i m rest hj hi hl hc, h2⟩
  · have hf : ∀ x, m = .count x → (s.1.cproto i).isRunning = true → (s.1.loc i).isSome = true := by
      rintro x rfl hr
      rw [← (CorrNet.count_facts hp hn h hi hl).2]
      exact hr
    refine ⟨?_, fun j => ?_⟩
    · have e : CorrNet.handle p (fun k => (s.2 k).getD []) mir { s.1 with mailbox := Function.update s.1.mailbox i rest } i m =
          CorrNet.handle p pts mir { s.1 with mailbox := Function.update s.1.mailbox i rest } i m :=
        CorrNet.handle_congr fun x hx hr => by
          show (s.2 i).getD [] = pts i
          rw [h2 i, if_pos (hf x hx hr)]
          rfl
      show CorrNet.Step true true p pts mir s.1
        (CorrNet.handle p (fun k => (s.2 k).getD []) mir { s.1 with mailbox := Function.update s.1.mailbox i rest } i m)
      rw [e]
      exact .handle s.1 i m rest hi hl hc fun _ => ht
    · have := CorrNet.handle_isSome (p := p) (pts := fun k => (s.2 k).getD []) (mir := mir)
        (s := { s.1 with mailbox := Function.update s.1.mailbox i rest }) hf j
      show s.2 j = if ((CorrNet.handle p (fun k => (s.2 k).getD []) mir
        { s.1 with mailbox := Function.update s.1.mailbox i rest } i m).loc j).isSome then some (pts j) else none
      rw [this]
      exact h2 j

theorem enter_loc {pts : Nat → List Pt} (hp : p.WellFormed) (s : CorrNet) (i : Nat) :
    (CorrNet.enter p pts s i).crashed = s.crashed ∧ ∃ l, (CorrNet.enter p pts s i).loc = Function.update s.loc i (some l) := by
  unfold CorrNet.enter
  rw [(CorrNet.built_spec hp pts i).1]
  exact ⟨rfl, _, rfl⟩

theorem corr_start (hp : p.WellFormed) {pts : Nat → List Pt} {s t : CorrNet × (Nat → Option (List Pt))} {i : Nat} {x : List Point}
    (hx : x.map toPt = pts i) (h2 : Recorded pts s) (hs : (correction p mir).start s i x t) :
    CorrNet.Step true true p pts mir s.1 t.1 ∧ Recorded pts t := by
  obtain ⟨hi, hl, hc, hb, rfl, -⟩ := hs
  have e : CorrNet.enter p (fun _ => x.map toPt) s.1 i = CorrNet.enter p pts s.1 i := CorrNet.enter_congr hx _
  have hl' : s.1.loc i = none := by
    have := h2 i
    rw [show s.2 i = none from hl] at this
    by_contra h
    rw [if_pos (Option.isSome_iff_ne_none.2 h)] at this
    cases this
  constructor
  · show CorrNet.Step true true p pts mir s.1 (CorrNet.enter p (fun _ => x.map toPt) s.1 i)
    rw [e]
    exact .enter s.1 i hi hl' hc fun _ => hb
  · intro j
    obtain ⟨-, l, h1⟩ := enter_loc (pts := fun _ => x.map toPt) hp s.1 i
    show Function.update s.2 i (some (x.map toPt)) j =
      if ((CorrNet.enter p (fun _ => x.map toPt) s.1 i).loc j).isSome then some (pts j) else none
    rw [h1]
    by_cases hji : j = i
    · subst hji; simp [hx]
    · rw [Function.update_of_ne hji, Function.update_of_ne hji]
      exact h2 j

theorem corr_run (hp : p.WellFormed) (hn : 2 ≤ p.nClusterNodes) {f : Nat → List Point} {s : (correction p mir).S}
    (h : (correction p mir).Run f s) : CorrNet.Reachable true true p (fun i => (f i).map toPt) mir s.1 ∧
      Recorded (fun i => (f i).map toPt) s := by
  induction h with
  | init => exact ⟨.init, fun i => rfl⟩
  | @start s t i _ hs ih =>
    obtain ⟨h1, h2⟩ := corr_start (pts := fun i => (f i).map toPt) hp rfl ih.2 hs
    exact ⟨.step ih.1 h1, h2⟩
  | @step s t _ hs ih =>
    obtain ⟨h1, h2⟩ := corr_step hp hn ih.1 ih.2 hs
    exact ⟨.step ih.1 h1, h2⟩

theorem run_corr (hp : p.WellFormed) (hn : 2 ≤ p.nClusterNodes) {f : Nat → List Point} {s : CorrNet}
    (h : CorrNet.Reachable true true p (fun i => (f i).map toPt) mir s) : ∃ r, (correction p mir).Run f r ∧ r.1 = s := by
  induction h with
  | init => exact ⟨_, .init, rfl⟩
  | @step s t h hs ih =>
    obtain ⟨r, hr, rfl⟩ := ih
    have hI := corr_run hp hn hr
    cases hs with
    | enter i hi hl hc hb =>
      have hl' : r.2 i = none := (hI.2 i).trans (by rw [show r.1.loc i = none from hl]; rfl)
      exact ⟨(CorrNet.enter p (fun _ => (f i).map toPt) r.1 i, Function.update r.2 i (some ((f i).map toPt))),
        .start (i := i) hr ⟨hi, hl', hc, hb rfl, rfl, (enter_loc hp r.1 i).1.trans hc⟩,
        by exact CorrNet.enter_congr (p := p) (pts := fun _ => (f i).map toPt) (pts' := fun i => (f i).map toPt) (i := i) rfl r.1⟩
    | arrive j i m rest hj hi hl hc => exact ⟨_, .step hr ⟨hc, .inl ⟨j, i, m, rest, hj, hi, hl, rfl⟩⟩, rfl⟩
    | handle i m rest hi hl hc ht =>
      refine ⟨_, .step hr ⟨hc, .inr ⟨i, m, rest, hi, hl, ht rfl, rfl⟩⟩, CorrNet.handle_congr fun x hx hr => ?_⟩
      subst hx
      have : (r.1.loc i).isSome = true := by
        rw [← (CorrNet.count_facts hp hn hI.1 hi hl).2]
        exact hr
      show (r.2 i).getD [] = _
      exact (congrArg (fun o => Option.getD o []) (hI.2 i)).trans (by rw [if_pos this]; rfl)

theorem corr_out {s : (correction p mir).S} {i : Nat} {y : List Trans × NodeQuestions × Bool} :
    (correction p mir).out s i = some y ↔ i < p.nClusterNodes ∧ CorrNet.Result s.1 i y := by
  show (if i < p.nClusterNodes ∧ s.1.done i = 1 then some (s.1.store i, ((s.1.loc i).map SegState.questions).getD NodeQuestions.clear,
    decide (s.1.decided i = some true)) else none) = some y ↔ _
  unfold CorrNet.Result
  split
  · next hc =>
    constructor
    · intro h
      exact ⟨hc.1, hc.2, (Option.some.inj h).symm⟩
    · rintro ⟨-, -, h1⟩
      rw [h1]
  · next hc =>
    constructor
    · intro h; cases h
    · rintro ⟨h1, h2, -⟩
      exact absurd ⟨h1, h2⟩ hc

theorem corr_laws (hp : p.WellFormed) (hsc : p.selfCorrection = true) (hn : 2 ≤ p.nClusterNodes) : (correction p mir).Laws p.nClusterNodes where
  init i := rfl
  start := by
    rintro s i x t ⟨hi, hl, hc, hb, rfl, -⟩
    refine ⟨hi, congrArg Option.isSome hl, funext fun j => ?_⟩
    show (Function.update s.2 i (some (x.map toPt)) j).isSome = Function.update (fun k => (s.2 k).isSome) i true j
    by_cases hji : j = i
    · subst hji; simp
    · rw [Function.update_of_ne hji, Function.update_of_ne hji]
  step := by
    rintro s t ⟨hc, ⟨j, i, m, rest, hj, hi, hl, rfl⟩ | ⟨i, m, rest, hi, hl, ht, rfl⟩⟩ <;> rfl
  out := by
    intro f s i y h hy
    obtain ⟨hi, hr⟩ := corr_out.1 hy
    obtain ⟨h1, h0⟩ := corr_run hp hn h
    obtain ⟨a, ha, hrel⟩ := CorrNet.seg_inside hp hsc hn (.inl rfl) (fun _ => .inl rfl) h1
    obtain ⟨h2, -⟩ := (CorrNet.result_iff hp hsc hn h1 ha hrel hi).1 hr
    by_cases hc : CorrNet.Commit p (decide (CorrNet.Wanted p fun i => (f i).map toPt)) s.1 i
    · obtain ⟨l, la, h3, -⟩ := hrel.loc.busy i hc
      exact congrArg Option.isSome ((h0 i).trans (by rw [h3]; exact if_pos rfl : _ = some _))
    · exact absurd (hrel.loc.idle i hc) (SegNet.done_started hp ha hi h2.1).2
  stableStart := by
    intro f s t i j y h hs hy
    obtain ⟨hi, hr⟩ := corr_out.1 hy
    obtain ⟨h1, h2⟩ := corr_run hp hn h
    exact corr_out.2 ⟨hi, CorrNet.result_stable hp hsc hn h1 (corr_start (pts := fun i => (f i).map toPt) hp rfl h2 hs).1 hi hr⟩
  stableStep := by
    intro f s t i y h hs hy
    obtain ⟨hi, hr⟩ := corr_out.1 hy
    obtain ⟨h1, h2⟩ := corr_run hp hn h
    exact corr_out.2 ⟨hi, CorrNet.result_stable hp hsc hn h1 (corr_step hp hn h1 h2 hs).1 hi hr⟩

theorem corr_ends (hp : p.WellFormed) (hn : 2 ≤ p.nClusterNodes) {f : Nat → List Point} {y : Nat → List Trans × NodeQuestions × Bool} :
    (correction p mir).Ends p.nClusterNodes f y ↔ ∃ s, CorrNet.Reachable true true p (fun i => (f i).map toPt) mir s ∧
      ∀ i < p.nClusterNodes, s.done i = 1 ∧
        y i = (s.store i, ((s.loc i).map SegState.questions).getD NodeQuestions.clear, decide (s.decided i = some true)) := by
  constructor
  · rintro ⟨s, hs, hy⟩
    exact ⟨s.1, (corr_run hp hn hs).1, fun i hi => (corr_out.1 (hy i hi)).2⟩
  · rintro ⟨s, hs, hy⟩
    obtain ⟨r, hr, rfl⟩ := run_corr hp hn hs
    exact ⟨r, hr, fun i hi => corr_out.2 ⟨hi, hy i hi⟩⟩

theorem segmentation_laws (hp : p.WellFormed) (hn : 2 ≤ p.nClusterNodes) {mirrored : Nat → List Point} :
    (segmentation p mirrored).Laws p.nClusterNodes := by
  unfold segmentation
  split
  · next h => exact corr_laws hp h hn
  · exact plain_laws hp

/-- What the segmentation has left on the nodes. -/
def Left (p : Parameters) (pts mirrored eff : Nat → List Point) (stores : Nat → List Trans) (qs : Nat → NodeQuestions)
    (y : Nat → List Trans × NodeQuestions × Bool) : Prop :=
  ∀ i < p.nClusterNodes, (y i).1 = stores i ∧ (y i).2.1 = qs i ∧ eff i = if (y i).2.2 then mirrored i else pts i

/-- The segmentation of the joint run ends as the segmentation on its own. -/
theorem segmentation_ends (hp : p.WellFormed) (hn : 2 ≤ p.nClusterNodes) {pts mirrored : Nat → List Point}
    (hm : p.selfCorrection = true → ∀ i < p.nClusterNodes, (pts i).mapM (mirrorPoint p.rate) = some (mirrored i))
    {y : Nat → List Trans × NodeQuestions × Bool} (h : (segmentation p mirrored).Ends p.nClusterNodes pts y) :
    ∃ eff stores qs, Segmented p pts eff stores qs ∧ Left p pts mirrored eff stores qs y := by
  unfold segmentation at h
  unfold Segmented
  by_cases hsc : p.selfCorrection = true
  · simp only [if_pos hsc] at h ⊢
    obtain ⟨s, h1, h2⟩ := (corr_ends hp hn).1 h
    refine ⟨_, _, _, ⟨mirrored, s, hm hsc, h1, fun i hi => (h2 i hi).1, fun _ => rfl, rfl, rfl⟩, fun i hi => ?_⟩
    rw [(h2 i hi).2]
    simp
  · simp only [if_neg hsc] at h ⊢
    obtain ⟨s, h1, h2⟩ := (plain_ends hp).1 h
    refine ⟨_, _, _, ⟨s, h1, fun i hi => (h2 i hi).1, rfl, rfl, rfl⟩, fun i hi => ?_⟩
    rw [(h2 i hi).2]
    simp

theorem ends_segmentation (hp : p.WellFormed) (hn : 2 ≤ p.nClusterNodes) {pts eff : Nat → List Point} {stores : Nat → List Trans}
    {qs : Nat → NodeQuestions} (h : Segmented p pts eff stores qs) :
    ∃ mirrored y, (p.selfCorrection = true → ∀ i < p.nClusterNodes, (pts i).mapM (mirrorPoint p.rate) = some (mirrored i)) ∧
      (segmentation p mirrored).Ends p.nClusterNodes pts y ∧ Left p pts mirrored eff stores qs y := by
  unfold Segmented at h
  unfold segmentation
  by_cases hsc : p.selfCorrection = true
  · rw [if_pos hsc] at h
    obtain ⟨mirrored, s, h1, h2, h3, h4, rfl, rfl⟩ := h
    refine ⟨mirrored, fun i => (s.store i, ((s.loc i).map SegState.questions).getD NodeQuestions.clear, decide (s.decided i = some true)),
      fun _ => h1, ?_, fun i hi => ⟨rfl, rfl, ?_⟩⟩
    · rw [if_pos hsc]
      exact (corr_ends hp hn).2 ⟨s, h2, fun i hi => ⟨h3 i hi, rfl⟩⟩
    · rw [h4 i]
      simp
  · rw [if_neg hsc] at h
    obtain ⟨s, h1, h2, rfl, rfl, rfl⟩ := h
    refine ⟨eff, fun i => (s.store i, ((s.loc i).map SegState.questions).getD NodeQuestions.clear, false),
      fun h => absurd h hsc, ?_, fun i hi => ⟨rfl, rfl, rfl⟩⟩
    rw [if_neg hsc]
    exact (plain_ends hp).2 ⟨s, h1, fun i hi => ⟨h2 i hi, rfl⟩⟩

end Joint
end S2G
