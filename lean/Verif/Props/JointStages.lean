import Verif.Model.Joint
import Verif.Props.StageNets

/-!
# The stages of a run as stages with inputs and results
-/

namespace S2G

namespace QNet
variable {n : Nat}

/-- Another ghost for the questions. -/
def withAsk (s : QNet) (g : Nat → Nat → Nat → List NIQ) : QNet := { s with ask := { s.ask with pay := g } }

theorem withAsk_handleAsk (nod : Nat → Nat → List Node) (s : QNet) (g : Nat → Nat → Nat → List NIQ) (m : DMsg (Nat → List NIQ))
    (rest : List (DMsg (Nat → List NIQ))) : handleAsk n nod (s.withAsk g) m rest = (handleAsk n nod s m rest).withAsk g := by
  unfold handleAsk withAsk
  dsimp only
  rw [DirectNet.handleStep_pay]
  split
  · split
    · rfl
    · split
      · rfl
      · rfl
  · rfl

theorem withAsk_handleAns (s : QNet) (g : Nat → Nat → Nat → List NIQ) (m : DMsg (List NodeAnswer)) (rest : List (DMsg (List NodeAnswer))) :
    handleAns (s.withAsk g) m rest = (handleAns s m rest).withAsk g := by
  unfold handleAns withAsk
  dsimp only
  split <;> rfl

theorem withAsk_start (hn : 2 ≤ n) (qs : Nat → NodeQuestions) (s : QNet) (i : Nat) :
    start n qs (s.withAsk (fun i a => qs i a)) i = (start n (fun _ => qs i) s i).withAsk (fun i a => qs i a) := by
  unfold start withAsk
  rw [if_neg (by omega), if_neg (by omega)]
  dsimp only
  rw [DirectNet.startStep_pay true n s.ask (fun i a => qs i a) i]

theorem handleAsk_congr {nod nod' : Nat → Nat → List Node} {s : QNet} {m : DMsg (Nat → List NIQ)} (rest : List (DMsg (Nat → List NIQ)))
    (h : (s.ask.proto m.dst).isRunning = true → nod m.dst = nod' m.dst) : handleAsk n nod s m rest = handleAsk n nod' s m rest := by
  unfold handleAsk
  dsimp only
  split
  · next hr => rw [h hr]
  · rfl

theorem handleAsk_fin (nod : Nat → Nat → List Node) (s : QNet) (m : DMsg (Nat → List NIQ)) (rest : List (DMsg (Nat → List NIQ))) :
    (handleAsk n nod s m rest).fin = s.fin ∧ (handleAsk n nod s m rest).nfn = s.nfn ∧
    (handleAsk n nod s m rest).ask.started = s.ask.started := by
  unfold handleAsk
  dsimp only
  split
  · split
    · exact ⟨rfl, rfl, DirectNet.handleStep_started ..⟩
    · split
      · exact ⟨rfl, rfl, DirectNet.handleStep_started ..⟩
      · exact ⟨rfl, rfl, DirectNet.handleStep_started ..⟩
  · exact ⟨rfl, rfl, DirectNet.handleStep_started ..⟩

theorem start_fin (hn : 2 ≤ n) (qs : Nat → NodeQuestions) (s : QNet) (i : Nat) :
    (start n qs s i).fin = s.fin ∧ (start n qs s i).nfn = s.nfn ∧ (start n qs s i).ask.started = Function.update s.ask.started i true := by
  unfold start
  rw [if_neg (by omega)]
  exact ⟨rfl, rfl, rfl⟩

theorem handleAns_fin (s : QNet) (m : DMsg (List NodeAnswer)) (rest : List (DMsg (List NodeAnswer))) :
    (handleAns s m rest).ask = s.ask ∧ (handleAns s m rest).crashed = s.crashed ∧
    ∀ i, i ≠ m.dst ∨ (s.ans.proto m.dst).isRunning = false →
      (handleAns s m rest).fin i = s.fin i ∧ (handleAns s m rest).nfn i = s.nfn i := by
  unfold handleAns
  dsimp only
  split
  · next hr =>
    refine ⟨rfl, rfl, fun i hi => ?_⟩
    have hi : i ≠ m.dst := by
      rcases hi with hi | hi
      · exact hi
      · rw [hr] at hi; cases hi
    dsimp only
    rw [Function.update_of_ne hi]
    split
    · exact ⟨rfl, rfl⟩
    · exact ⟨Function.update_of_ne hi .., rfl⟩
  · exact ⟨rfl, rfl, fun i _ => ⟨rfl, rfl⟩⟩

end QNet

namespace Joint
open Stage

variable {n : Nat}

/-! ### The exchange of successor nodes -/

theorem asking_run (hn : 2 ≤ n) {f : Nat → NodeQuestions × (Nat → List Node)} {s : (asking n).S} (h : (asking n).Run f s) :
    QNet.Reachable n (fun i => (f i).1) (fun i => (f i).2) (QNet.withAsk s.1 (fun i a => (f i).1 a)) ∧
    (∀ i, s.1.ask.started i = true → s.2 i = (f i).2) ∧ ∀ i < n, s.1.fin i = 1 → s.1.ask.started i = true := by
  induction h with
  | init =>
    refine ⟨.init, ?_, ?_⟩
    · intro i hi; cases hi
    · intro i _ hi; cases hi
  | @start s t i _ hs ih =>
    obtain ⟨hi, hst, hc, rfl⟩ := hs
    refine ⟨?_, fun j hj => ?_, fun j hjn hj => ?_⟩
    · have h1 := QNet.Step.start (n := n) (qs := fun i => (f i).1) (nodesOf := fun i => (f i).2)
        (QNet.withAsk s.1 (fun i a => (f i).1 a)) i hi hst hc
      rw [QNet.withAsk_start hn (fun i => (f i).1) s.1 i] at h1
      exact .step ih.1 h1
    · have hj : (QNet.start n (fun _ => (f i).1) s.1 i).ask.started j = true := hj
      show Function.update s.2 i (f i).2 j = _
      rw [(QNet.start_fin hn _ _ _).2.2] at hj
      by_cases hji : j = i
      · subst hji; simp
      · rw [Function.update_of_ne hji] at hj ⊢
        exact ih.2.1 j hj
    · have hj : (QNet.start n (fun _ => (f i).1) s.1 i).fin j = 1 := hj
      show (QNet.start n (fun _ => (f i).1) s.1 i).ask.started j = true
      rw [(QNet.start_fin hn _ _ _).1] at hj
      rw [(QNet.start_fin hn _ _ _).2.2]
      by_cases hji : j = i
      · subst hji; simp
      · rw [Function.update_of_ne hji]
        exact ih.2.2 j hjn hj
  | @step s t _ hs ih =>
    obtain ⟨hc, hs⟩ := hs
    have hI := QNet.inv_reachable hn ih.1 hc
    obtain ⟨pre, m, post, hm, rfl⟩ | ⟨pre, m, post, hm, rfl⟩ := hs
    · have hdst := (DirectNet.inv_reachable hI.ask.toReachable).dst m (by
        show m ∈ s.1.ask.pool
        rw [hm]; simp)
      have e : QNet.handleAsk n s.2 s.1 m (pre ++ post) = QNet.handleAsk n (fun i => (f i).2) s.1 m (pre ++ post) :=
        QNet.handleAsk_congr _ fun hr => ih.2.1 _ ((DirectNet.running_iff hI.ask.toReachable hdst).1 hr).1
      obtain ⟨h1, h2, h3⟩ := QNet.handleAsk_fin (n := n) s.2 s.1 m (pre ++ post)
      refine ⟨?_, fun j hj => ?_, fun j hjn hj => ?_⟩
      · have h1 := QNet.Step.ask (n := n) (qs := fun i => (f i).1) (nodesOf := fun i => (f i).2)
          (QNet.withAsk s.1 (fun i a => (f i).1 a)) pre post m hm hc
        rw [QNet.withAsk_handleAsk, ← e] at h1
        exact .step ih.1 h1
      · exact ih.2.1 j ((congrFun h3 j).symm.trans hj)
      · exact (congrFun h3 j).trans (ih.2.2 j hjn ((congrFun h1 j).symm.trans hj))
    · obtain ⟨h1, h2, h3⟩ := QNet.handleAns_fin s.1 m (pre ++ post)
      have hr : QNet.Reachable n (fun i => (f i).1) (fun i => (f i).2)
          (QNet.withAsk (QNet.handleAns s.1 m (pre ++ post)) (fun i a => (f i).1 a)) := by
        have h1 := QNet.Step.ans (n := n) (qs := fun i => (f i).1) (nodesOf := fun i => (f i).2)
          (QNet.withAsk s.1 (fun i a => (f i).1 a)) pre post m hm hc
        rw [QNet.withAsk_handleAns] at h1
        exact .step ih.1 h1
      refine ⟨hr, fun j hj => ih.2.1 j ((congrFun (congrArg DirectNet.started h1) j).symm.trans hj), fun j hjn hj => ?_⟩
      have hI' := QNet.inv_reachable hn hr (h2.trans hc)
      have h4 : (QNet.handleAns s.1 m (pre ++ post)).ans.done j = 1 := (hI'.fin j hjn).symm.trans hj
      have h5 := (DirectNet.done_idle hI'.ans hjn h4).2
      exact (DirectNet.done_idle hI'.ask.toReachable hjn (hI'.after j hjn h5).1).2

theorem asking_out {s : (asking n).S} {i : Nat} {y : ForeignNodes} :
    (asking n).out s i = some y ↔ i < n ∧ s.1.fin i = 1 ∧ y = s.1.nfn i := by
  show (if i < n ∧ s.1.fin i = 1 then some (s.1.nfn i) else none) = some y ↔ _
  split
  · next hc => simp [hc, eq_comm]
  · next hc =>
    constructor
    · intro h; cases h
    · rintro ⟨h1, h2, -⟩; exact absurd ⟨h1, h2⟩ hc

theorem asking_laws (hn : 2 ≤ n) : (asking n).Laws n where
  init i := rfl
  start := by
    rintro s i x t ⟨hi, hst, hc, rfl⟩
    exact ⟨hi, hst, (QNet.start_fin hn _ _ _).2.2⟩
  step := by
    rintro s t ⟨hc, ⟨pre, m, post, hm, rfl⟩ | ⟨pre, m, post, hm, rfl⟩⟩
    · exact (QNet.handleAsk_fin ..).2.2
    · exact congrArg DirectNet.started (QNet.handleAns_fin ..).1
  out := by
    intro f s i y h hy
    obtain ⟨hi, hd, -⟩ := asking_out.1 hy
    exact (asking_run hn h).2.2 i hi hd
  stableStart := by
    rintro f s t i j y h ⟨hj, hst, hc, rfl⟩ hy
    refine asking_out.2 ?_
    obtain ⟨hi, hd, rfl⟩ := asking_out.1 hy
    obtain ⟨h1, h2, -⟩ := QNet.start_fin hn (fun _ => (f j).1) s.1 j
    exact ⟨hi, (congrFun h1 i).trans hd, (congrFun h2 i).symm⟩
  stableStep := by
    rintro f s t i y h ⟨hc, hs⟩ hy
    refine asking_out.2 ?_
    obtain ⟨hi, hd, rfl⟩ := asking_out.1 hy
    obtain ⟨pre, m, post, hm, rfl⟩ | ⟨pre, m, post, hm, rfl⟩ := hs
    · obtain ⟨h1, h2, -⟩ := QNet.handleAsk_fin (n := n) s.2 s.1 m (pre ++ post)
      exact ⟨hi, (congrFun h1 i).trans hd, (congrFun h2 i).symm⟩
    · obtain ⟨-, -, h3⟩ := QNet.handleAns_fin s.1 m (pre ++ post)
      have hI := QNet.inv_reachable hn (asking_run hn h).1 hc
      have h4 : s.1.ans.done i = 1 := (hI.fin i hi).symm.trans hd
      have h5 := (DirectNet.done_idle hI.ans hi h4).1
      obtain ⟨h6, h7⟩ := h3 i (by
        by_cases hm : i = m.dst
        · right; rw [← hm]; exact h5
        · exact Or.inl hm)
      exact ⟨hi, h6.trans hd, h7.symm⟩

theorem run_asking (hn : 2 ≤ n) {qs : Nat → NodeQuestions} {nod : Nat → Nat → List Node} {s : QNet} (h : QNet.Reachable n qs nod s) :
    ∃ t, (asking n).Run (fun i => (qs i, nod i)) t ∧ s = QNet.withAsk t.1 (fun i a => qs i a) := by
  induction h with
  | init => exact ⟨_, .init, rfl⟩
  | step hr hs ih =>
    obtain ⟨t, ht, rfl⟩ := ih
    cases hs with
    | start i hi hst hc =>
      exact ⟨_, .start (i := i) ht ⟨hi, hst, hc, rfl⟩, QNet.withAsk_start hn qs t.1 i⟩
    | ask pre post m hm hc =>
      refine ⟨_, .step ht ⟨hc, .inl ⟨pre, m, post, hm, rfl⟩⟩, ?_⟩
      rw [QNet.withAsk_handleAsk]
      have hI := QNet.inv_reachable hn hr hc
      have hdst := (DirectNet.inv_reachable hI.ask.toReachable).dst m (by rw [hm]; simp)
      have e : QNet.handleAsk n nod t.1 m (pre ++ post) = QNet.handleAsk n t.2 t.1 m (pre ++ post) :=
        QNet.handleAsk_congr _ fun hr => ((asking_run hn ht).2.1 _ ((DirectNet.running_iff hI.ask.toReachable hdst).1 hr).1).symm
      exact congrArg (fun x => QNet.withAsk x _) e
    | ans pre post m hm hc =>
      exact ⟨_, .step ht ⟨hc, .inr ⟨pre, m, post, hm, rfl⟩⟩, QNet.withAsk_handleAns ..⟩

/-! ### The exchange of overlapping edges -/

end Joint

namespace OvNet
variable {n q : Nat}

/-- What the protocol of node `i` looks like. -/
def Fine (n : Nat) (s : OvNet) (i : Nat) : Prop :=
  if s.started i then
    if i = n - 1 then (s.proto i).nTotal = 0 ∧ (s.scored i).length = 1
    else (s.proto i).nTotal = 1 ∧ (s.proto i).nReceived = (s.proto i).nSent ∧ (s.scored i).length = (s.proto i).nSent
  else (s.proto i).nTotal = 0 ∧ (s.proto i).nReceived = 0 ∧ (s.proto i).nSent = 0 ∧ s.scored i = []

theorem Fine.congr {s t : OvNet} {i : Nat} (h : Fine n s i) (h1 : t.started i = s.started i) (h2 : t.proto i = s.proto i)
    (h3 : t.scored i = s.scored i) : Fine n t i := by
  unfold Fine
  rw [h1, h2, h3]
  exact h

/-- Edges and counts of nodes which have not entered the stage. -/
def fill (s : OvNet) (own : Nat → List Edge) (cnt : Nat → List Nat) : OvNet :=
  { s with edges := fun i => if s.started i then s.edges i else own i, eit := fun i => if s.started i then s.eit i else cnt i }

theorem sendOverlap_some {s t : OvNet} {i : Nat} (h : sendOverlap n q s i = some t) : ∃ m, overlap q (s.edges i) (s.eit i) = some m ∧
    t = { s with
      pool := s.pool ++ [(prv n i, m)]
      proto := Function.update s.proto i (s.proto i).sent
      scored := Function.update s.scored i (s.scored i ++ [(s.edges i, s.eit i)]) } := by
  unfold sendOverlap at h
  simp only [Option.bind_eq_bind, Option.bind_eq_some_iff] at h
  obtain ⟨m, hm, h⟩ := h
  exact ⟨m, hm, (Option.some.inj h).symm⟩

theorem fine_start {s t : OvNet} {i : Nat} (h : ∀ j, Fine n s j) (hs : s.started i = false) (ht : startStep n q s i = some t) :
    (∀ j, Fine n t j) ∧ t.started = Function.update s.started i true ∧ ∀ j, j ≠ i → t.scored j = s.scored j := by
  have hi := h i
  unfold Fine at hi
  rw [hs] at hi
  simp only [Bool.false_eq_true, if_false] at hi
  unfold startStep at ht
  dsimp only at ht
  split at ht
  · next hl =>
    obtain ⟨m, -, rfl⟩ := sendOverlap_some ht
    refine ⟨fun j => ?_, rfl, fun j hj => Function.update_of_ne hj ..⟩
    by_cases hji : j = i
    · subst hji
      unfold Fine
      simp only [Function.update_self, if_true, if_pos hl, Proto.sent, hi.2.2.2]
      exact ⟨hi.1, rfl⟩
    · exact (h j).congr (Function.update_of_ne hji ..) (Function.update_of_ne hji ..) (Function.update_of_ne hji ..)
  · next hl =>
    cases Option.some.inj ht
    refine ⟨fun j => ?_, rfl, fun j hj => rfl⟩
    by_cases hji : j = i
    · subst hji
      unfold Fine
      simp [hl, hi, Proto.start, Proto.resolveBuffer]
    · exact (h j).congr (Function.update_of_ne hji ..) (Function.update_of_ne hji ..) rfl

theorem startStep_started {s t : OvNet} {i : Nat} (ht : startStep n q s i = some t) : t.started = Function.update s.started i true := by
  unfold startStep at ht
  dsimp only at ht
  split at ht
  · obtain ⟨m, -, rfl⟩ := sendOverlap_some ht
    rfl
  · cases Option.some.inj ht
    rfl

theorem fine_running {s : OvNet} {i : Nat} (h : Fine n s i) (hr : (s.proto i).isRunning = true) :
    s.started i = true ∧ i ≠ n - 1 ∧ (s.proto i).nTotal = 1 ∧ (s.proto i).nReceived = 0 ∧ (s.proto i).nSent = 0 ∧ s.scored i = [] := by
  unfold Fine at h
  simp only [Proto.isRunning, Bool.or_eq_true, decide_eq_true_eq] at hr
  split at h
  · next hs =>
    split at h
    · omega
    · next hl =>
      refine ⟨hs, hl, h.1, by omega, by omega, ?_⟩
      rw [← List.length_eq_zero_iff]
      omega
  · omega

/-- What handling a message does. -/
theorem handle_cases {s t : OvNet} {i : Nat} {m : OverlapMsg} (ht : handleStep n q s i m = some t) :
    ((s.proto i).isRunning = false ∧ t = { s with proto := Function.update s.proto i { s.proto i with buffer := (s.proto i).buffer ++ [m] } }) ∨
    ((s.proto i).isRunning = true ∧ ∃ x o, extend (s.edges i) (s.eit i) m = some x ∧ overlap q x.1 x.2 = some o ∧
      t = { s with
        proto := Function.update s.proto i (Proto.sent { s.proto i with nReceived := (s.proto i).nReceived + 1 })
        edges := Function.update s.edges i x.1
        eit := Function.update s.eit i x.2
        pool := s.pool ++ [(prv n i, o)]
        scored := Function.update s.scored i (s.scored i ++ [x]) }) := by
  unfold handleStep Proto.received at ht
  cases hr : (s.proto i).isRunning with
  | false =>
    rw [hr] at ht
    simp only [Bool.false_eq_true, if_false] at ht
    exact Or.inl ⟨rfl, (Option.some.inj ht).symm⟩
  | true =>
    rw [hr] at ht
    simp only [if_true, Option.bind_eq_bind, Option.bind_eq_some_iff] at ht
    obtain ⟨x, hx, u, hu, ht⟩ := ht
    obtain ⟨o, ho, rfl⟩ := sendOverlap_some hu
    split at ht
    · cases ht
    · refine Or.inr ⟨rfl, x, o, hx, ?_, ?_⟩
      · simpa using ho
      · rw [← Option.some.inj ht]
        simp

theorem fine_handle {s t : OvNet} {i : Nat} {m : OverlapMsg} (h : ∀ j, Fine n s j) (ht : handleStep n q s i m = some t) :
    (∀ j, Fine n t j) ∧ t.started = s.started ∧ ∀ j, s.scored j ≠ [] → t.scored j = s.scored j := by
  obtain ⟨-, rfl⟩ | ⟨hr, x, o, -, -, rfl⟩ := handle_cases ht
  · refine ⟨fun j => ?_, rfl, fun j _ => rfl⟩
    by_cases hji : j = i
    · subst hji
      have := h j
      unfold Fine at this ⊢
      simpa using this
    · exact (h j).congr rfl (Function.update_of_ne hji ..) rfl
  · obtain ⟨h1, h2, h3, h4, h5, h6⟩ := fine_running (h i) hr
    refine ⟨fun j => ?_, rfl, fun j hj => ?_⟩
    · by_cases hji : j = i
      · subst hji
        unfold Fine
        simp [h1, h2, h3, h4, h5, h6, Proto.sent]
      · exact (h j).congr rfl (Function.update_of_ne hji ..) (Function.update_of_ne hji ..)
    · have hji : j ≠ i := by rintro rfl; exact hj h6
      exact Function.update_of_ne hji ..

theorem fill_update {α : Type} {st : Nat → Bool} {i : Nat} (hs : st i = false) (a own : Nat → α) :
    (fun j => if Function.update st i true j then Function.update a i (own i) j else own j) = fun j => if st j then a j else own j := by
  funext j
  by_cases hji : j = i
  · subst hji; simp [hs]
  · simp [Function.update_of_ne hji]

theorem update_fill {α : Type} {st : Nat → Bool} {i : Nat} (hs : st i = true) (a own : Nat → α) (x : α) :
    (fun j => if st j then Function.update a i x j else own j) = Function.update (fun j => if st j then a j else own j) i x := by
  funext j
  by_cases hji : j = i
  · subst hji; simp [hs]
  · simp [Function.update_of_ne hji]

theorem fill_start {s : OvNet} {own : Nat → List Edge} {cnt : Nat → List Nat} {i : Nat} (hs : s.started i = false) :
    startStep n q (s.fill own cnt) i =
      (startStep n q { s with edges := Function.update s.edges i (own i), eit := Function.update s.eit i (cnt i) } i).map
        (fun t => t.fill own cnt) := by
  have h1 := fill_update hs s.edges own
  have h2 := fill_update hs s.eit cnt
  unfold startStep
  dsimp only
  by_cases hl : i = n - 1
  · rw [if_pos hl, if_pos hl]
    unfold sendOverlap
    cases ho : overlap q (own i) (cnt i) with
    | none => simp [fill, hs, ho]
    | some m => simp [fill, hs, ho, h1, h2]
  · rw [if_neg hl, if_neg hl]
    simp [fill, h1, h2]

theorem fill_handle {s : OvNet} {own : Nat → List Edge} {cnt : Nat → List Nat} {i : Nat} {m : OverlapMsg}
    (hr : (s.proto i).isRunning = true → s.started i = true) :
    handleStep n q (s.fill own cnt) i m = (handleStep n q s i m).map (fun t => t.fill own cnt) := by
  unfold handleStep Proto.received
  have hp : (s.fill own cnt).proto i = s.proto i := rfl
  rw [hp]
  by_cases h0 : (s.proto i).isRunning = true
  · have hst := hr h0
    rw [if_pos h0]
    cases hx : extend (s.edges i) (s.eit i) m with
    | none => simp [fill, hst, hx]
    | some x =>
      have h1 := update_fill hst s.edges own x.1
      have h2 := update_fill hst s.eit cnt x.2
      cases ho : overlap q x.1 x.2 with
      | none => simp [fill, sendOverlap, hst, hx, ho]
      | some o =>
        simp only [fill, sendOverlap, hst, hx, ho, if_true, Option.bind_eq_bind, Option.bind_some, Function.update_self]
        split
        · rfl
        · simp only [Option.map_some, h1, h2]
  · rw [if_neg h0]
    rfl

end OvNet

namespace Joint
open Stage
variable {n q : Nat}

theorem overlap_run {f : Nat → List Edge × List Nat} {s : (overlap n q).S} (h : (overlap n q).Run f s) :
    OvNet.Reachable n q (fun i => (f i).1) (fun i => (f i).2) (OvNet.fill s (fun i => (f i).1) (fun i => (f i).2)) ∧
    ∀ i, OvNet.Fine n s i := by
  induction h with
  | init =>
    refine ⟨?_, fun i => ?_⟩
    · exact .init
    · simp [OvNet.Fine, overlap]
  | @start s t i _ hs ih =>
    obtain ⟨hi, hst, ht⟩ := hs
    have h0 : ∀ j, OvNet.Fine n
        { s with edges := Function.update (OvNet.edges s) i (f i).1, eit := Function.update (OvNet.eit s) i (f i).2 } j :=
      fun j => (ih.2 j).congr rfl rfl rfl
    exact ⟨.step ih.1 (.start (OvNet.fill s (fun i => (f i).1) (fun i => (f i).2)) i hi hst (((OvNet.fill_start (own := fun i => (f i).1) (cnt := fun i => (f i).2) hst)).trans
        (congrArg (Option.map fun t => OvNet.fill t (fun i => (f i).1) (fun i => (f i).2)) ht))),
      (OvNet.fine_start h0 hst ht).1⟩
  | @step s t _ hs ih =>
    obtain ⟨pre, j, m, post, hm, ht⟩ := hs
    have h0 : ∀ j, OvNet.Fine n { s with pool := pre ++ post } j := fun j => (ih.2 j).congr rfl rfl rfl
    exact ⟨.step ih.1 (.handle (OvNet.fill s (fun i => (f i).1) (fun i => (f i).2)) pre post j m hm ((OvNet.fill_handle (s := { s with pool := pre ++ post })
        (fun hr => (OvNet.fine_running (ih.2 j) hr).1)).trans
        (congrArg (Option.map fun t => OvNet.fill t (fun i => (f i).1) (fun i => (f i).2)) ht))),
      (OvNet.fine_handle h0 ht).1⟩

/-- The exchange as a stage and the exchange with the edges known from the beginning have the same runs. -/
theorem run_overlap {own : Nat → List Edge} {cnt : Nat → List Nat} {u : OvNet} (h : OvNet.Reachable n q own cnt u) :
    ∃ s, (overlap n q).Run (fun i => (own i, cnt i)) s ∧ OvNet.fill s own cnt = u := by
  induction h with
  | init => exact ⟨_, .init, rfl⟩
  | step _ hs ih =>
    obtain ⟨s, hrun, rfl⟩ := ih
    cases hs with
    | start i hi hst ht =>
      have hst : OvNet.started s i = false := hst
      rw [OvNet.fill_start hst] at ht
      obtain ⟨t, ht', hteq⟩ := Option.map_eq_some_iff.1 ht
      exact ⟨t, .start (i := i) hrun ⟨hi, hst, ht'⟩, hteq⟩
    | handle pre post j m hm ht =>
      have hF := (overlap_run hrun).2
      have h1 := OvNet.fill_handle (n := n) (q := q) (own := own) (cnt := cnt) (s := { s with pool := pre ++ post }) (i := j) (m := m)
        (fun hr => (OvNet.fine_running (hF j) hr).1)
      obtain ⟨t, ht', hteq⟩ := Option.map_eq_some_iff.1 (h1.symm.trans ht)
      exact ⟨t, .step hrun ⟨pre, j, m, post, hm, ht'⟩, hteq⟩

theorem overlap_out {s : (overlap n q).S} {i : Nat} {y : List Edge × List Nat} :
    (overlap n q).out s i = some y ↔ i < n ∧ OvNet.scored s i = [y] := by
  show (match OvNet.scored s i with
    | [x] => if i < n then some x else none
    | _ => none) = some y ↔ _
  split
  · next x hx =>
    rw [hx]
    split
    · next h => simp [h]
    · next h => simp [h]
  · next hx =>
    constructor
    · intro h; cases h
    · rintro ⟨-, h⟩; exact absurd h (hx y)

theorem overlap_laws : (overlap n q).Laws n where
  init i := rfl
  start := by
    rintro s i x t ⟨hi, hst, ht⟩
    refine ⟨hi, hst, ?_⟩
    exact OvNet.startStep_started (s := { s with edges := Function.update (OvNet.edges s) i x.1, eit := Function.update (OvNet.eit s) i x.2 }) ht
  step := by
    rintro s t ⟨pre, j, m, post, hm, ht⟩
    obtain ⟨-, rfl⟩ | ⟨hr, x, o, -, -, rfl⟩ := OvNet.handle_cases ht
    · rfl
    · rfl
  out := by
    intro f s i y h hy
    obtain ⟨hi, hy⟩ := overlap_out.1 hy
    have := (overlap_run h).2 i
    unfold OvNet.Fine at this
    split at this
    · assumption
    · rw [this.2.2.2] at hy; cases hy
  stableStart := by
    rintro f s t i j y h ⟨hj, hst, ht⟩ hy
    refine overlap_out.2 ?_
    obtain ⟨hi, hy⟩ := overlap_out.1 hy
    have hF := (overlap_run h).2
    have h0 : ∀ k, OvNet.Fine n
        { s with edges := Function.update (OvNet.edges s) j (f j).1, eit := Function.update (OvNet.eit s) j (f j).2 } k :=
      fun k => (hF k).congr rfl rfl rfl
    have hij : i ≠ j := by
      rintro rfl
      have := hF i
      unfold OvNet.Fine at this
      rw [hst] at this
      rw [this.2.2.2] at hy
      cases hy
    exact ⟨hi, ((OvNet.fine_start h0 hst ht).2.2 i hij).trans hy⟩
  stableStep := by
    rintro f s t i y h ⟨pre, j, m, post, hm, ht⟩ hy
    refine overlap_out.2 ?_
    obtain ⟨hi, hy⟩ := overlap_out.1 hy
    have hF := (overlap_run h).2
    have h0 : ∀ j, OvNet.Fine n { s with pool := pre ++ post } j := fun j => (hF j).congr rfl rfl rfl
    refine ⟨hi, ((OvNet.fine_handle h0 ht).2.2 i ?_).trans hy⟩
    intro h1
    have h1 : OvNet.scored s i = [] := h1
    rw [h1] at hy
    cases hy

end Joint

/-! ### The helpers -/

namespace ParScore

/-- Until the last answer nothing is final, afterwards nothing is handled. -/
structure Calm (s : ParScore) : Prop where
  sum : s.proto.nSent + s.proto.nReceived = s.proto.nTotal
  final : s.proto.nReceived < s.proto.nTotal → s.final = []

theorem calm_init {run : Nat → Nat → Option (List ℚ × Bool)} {sl th : Nat} {s : ParScore} (h : init run sl th = some s) :
    Calm s ∧ s.final = [] := by
  unfold init at h
  simp only [Option.bind_eq_bind, Option.bind_eq_some_iff, Option.some.injEq] at h
  obtain ⟨cs, -, rs, -, rfl⟩ := h
  exact ⟨⟨by simp, fun _ => rfl⟩, rfl⟩

theorem calm_step {s t : ParScore} (hs : Calm s) (h : Step s t) : Calm t ∧ (s.final ≠ [] → t.final = s.final) := by
  cases h with
  | handle pre post m hm ht =>
    unfold handle at ht
    split at ht
    · cases Option.some.inj ht
      exact ⟨⟨hs.sum, hs.final⟩, fun _ => rfl⟩
    · simp only [Option.bind_eq_bind, Option.bind_eq_some_iff] at ht
      obtain ⟨p, hp, ht⟩ := ht
      unfold HelperProto.received at hp
      simp only [Option.bind_eq_bind, Option.bind_eq_some_iff, Option.some.injEq] at hp
      obtain ⟨k, hk, rfl⟩ := hp
      have hk' : 1 ≤ s.proto.nSent ∧ k = s.proto.nSent - 1 := by
        unfold checkedSub at hk
        split at hk
        · exact ⟨by assumption, (Option.some.inj hk).symm⟩
        · cases hk
      have h1 := hs.sum
      have h2 : s.proto.nReceived < s.proto.nTotal := by omega
      have h3 := hs.final h2
      split at ht
      · next hr =>
        cases Option.some.inj ht
        refine ⟨⟨by simp only; omega, fun h => ?_⟩, fun h => absurd h3 h⟩
        simp [HelperProto.isRunning] at hr
        exact absurd hr (by simp only at h; omega)
      · split at ht
        · cases Option.some.inj ht
          exact ⟨⟨by simp only; omega, fun _ => h3⟩, fun h => absurd h3 h⟩
        · cases Option.some.inj ht
          exact ⟨⟨by simp only; omega, fun _ => h3⟩, fun h => absurd h3 h⟩

end ParScore

namespace Joint
open Stage
variable {n q threads : Nat}

theorem upd_self {s : Nat → Option ParScore} {i : Nat} {x a : ParScore} (h : Function.update s i (some x) i = some a) : x = a := by
  rw [Function.update_self] at h
  exact Option.some.inj h

theorem upd_ne {s : Nat → Option ParScore} {i j : Nat} (hij : i ≠ j) {x a : ParScore} (h : Function.update s j (some x) i = some a) :
    s i = some a := by
  rwa [Function.update_of_ne hij] at h

theorem upd_isSome {s : Nat → Option ParScore} {i : Nat} {x : ParScore} :
    (fun k => (Function.update s i (some x) k).isSome) = Function.update (fun k => (s k).isSome) i true := by
  funext j
  by_cases hji : j = i
  · subst hji; simp
  · rw [Function.update_of_ne hji, Function.update_of_ne hji]

theorem upd_isSome' {s : Nat → Option ParScore} {i : Nat} {x a : ParScore} (h : s i = some a) :
    (fun k => (Function.update s i (some x) k).isSome) = fun k => (s k).isSome := by
  funext j
  by_cases hji : j = i
  · subst hji; simp [h]
  · rw [Function.update_of_ne hji]

/-- What node `i` has to compute. -/
def Job (q threads : Nat) (x : (List Edge × List Nat) × Counts EdgeKey × Counts NodeKey) (s0 : ParScore) : Prop :=
  ∃ sl, Scoring.scoreLength x.1.2 q = some sl ∧ ParScore.init (Scoring.helper x.1.1 x.1.2 x.2.1 x.2.2 q) sl threads = some s0

theorem helpers_run {f : Nat → (List Edge × List Nat) × Counts EdgeKey × Counts NodeKey} {s : (helpers n q threads).S}
    (h : (helpers n q threads).Run f s) {i : Nat} {a : ParScore} (ha : s i = some a) :
    i < n ∧ ParScore.Calm a ∧ ∃ s0, Job q threads (f i) s0 ∧ ParScore.Reachable s0 a := by
  induction h generalizing i a with
  | init => cases ha
  | @start s t j _ hs ih =>
    obtain ⟨hj, -, sl, s0, h1, h2, rfl⟩ := hs
    by_cases hij : i = j
    · subst hij
      have ha' : s0 = a := upd_self ha
      subst ha'
      exact ⟨hj, (ParScore.calm_init h2).1, s0, ⟨sl, h1, h2⟩, .init⟩
    · exact ih (upd_ne hij ha)
  | @step s t _ hs ih =>
    obtain ⟨j, b, c, hb, hbc, rfl⟩ := hs
    by_cases hij : i = j
    · subst hij
      have ha' : c = a := upd_self ha
      subst ha'
      obtain ⟨h1, h2, s0, h3, h4⟩ := ih hb
      exact ⟨h1, (ParScore.calm_step h2 hbc).1, s0, h3, .step h4 hbc⟩
    · exact ih (upd_ne hij ha)

theorem helpers_out {s : (helpers n q threads).S} {i : Nat} {y : List ℚ × Bool} :
    (helpers n q threads).out s i = some y ↔ ∃ a, s i = some a ∧ ParScore.final a = [y] := by
  show (Option.bind (s i) fun a => match ParScore.final a with
    | [x] => some x
    | _ => none) = some y ↔ _
  rw [Option.bind_eq_some_iff]
  refine exists_congr fun a => and_congr_right fun _ => ?_
  split
  · next x hx => rw [hx]; simp
  · next hx => simp only [reduceCtorEq, false_iff]; exact hx y

theorem helpers_laws : (helpers n q threads).Laws n where
  init i := rfl
  start := by
    rintro s i x t ⟨hi, hst, sl, s0, -, -, rfl⟩
    exact ⟨hi, congrArg Option.isSome hst, upd_isSome⟩
  step := by
    rintro s t ⟨i, a, b, ha, -, rfl⟩
    exact upd_isSome' ha
  out := by
    intro f s i y h hy
    obtain ⟨a, ha, -⟩ := helpers_out.1 hy
    exact congrArg Option.isSome ha
  stableStart := by
    rintro f s t i j y h ⟨hj, hst, sl, s0, -, -, rfl⟩ hy
    obtain ⟨a, ha, hf⟩ := helpers_out.1 hy
    refine helpers_out.2 ⟨a, ?_, hf⟩
    have hij : i ≠ j := by rintro rfl; rw [hst] at ha; cases ha
    exact (Function.update_of_ne hij _ _).trans ha
  stableStep := by
    rintro f s t i y h ⟨j, b, c, hb, hbc, rfl⟩ hy
    obtain ⟨a, ha, hf⟩ := helpers_out.1 hy
    refine helpers_out.2 ?_
    by_cases hij : i = j
    · subst hij
      have : a = b := Option.some.inj (ha.symm.trans hb)
      subst this
      refine ⟨c, Function.update_self .., ?_⟩
      rw [(ParScore.calm_step (helpers_run h ha).2.1 hbc).2 (by rw [hf]; simp)]
      exact hf
    · exact ⟨a, (Function.update_of_ne hij _ _).trans ha, hf⟩

/-- The nodes compute independently of each other. -/
theorem run_helpers {f : Nat → (List Edge × List Nat) × Counts EdgeKey × Counts NodeKey} {par : Nat → ParScore}
    (h : ∀ i < n, ∃ s0, Job q threads (f i) s0 ∧ ParScore.Reachable s0 (par i)) :
    ∃ s, (helpers n q threads).Run f s ∧ ∀ i < n, s i = some (par i) := by
  suffices ∀ k ≤ n, ∃ s : Nat → Option ParScore, (helpers n q threads).Run f s ∧ (∀ i < k, s i = some (par i)) ∧ ∀ i, k ≤ i → s i = none by
    obtain ⟨s, h1, h2, -⟩ := this n le_rfl
    exact ⟨s, h1, h2⟩
  intro k
  induction k with
  | zero => exact fun _ => ⟨_, .init, fun i hi => absurd hi (by omega), fun _ _ => rfl⟩
  | succ k ih =>
    intro hk
    obtain ⟨s, h1, h2, h3⟩ := ih (by omega)
    obtain ⟨s0, ⟨sl, hsl, hs0⟩, hr⟩ := h k hk
    have key : ∀ {a : ParScore}, ParScore.Reachable s0 a → (helpers n q threads).Run f (Function.update s k (some a)) := by
      intro a ha
      induction ha with
      | init => exact .start (i := k) h1 ⟨hk, h3 k le_rfl, sl, s0, hsl, hs0, rfl⟩
      | @step b c _ hbc ih =>
        refine .step ih ⟨k, b, c, ?_, hbc, ?_⟩
        · exact Function.update_self ..
        · exact (Function.update_idem ..).symm
    refine ⟨_, key hr, fun i hi => ?_, fun i hi => ?_⟩
    · by_cases hik : i = k
      · subst hik; exact Function.update_self ..
      · rw [Function.update_of_ne hik]; exact h2 i (by omega)
    · rw [Function.update_of_ne (by omega)]; exact h3 i (by omega)

end Joint
end S2G
