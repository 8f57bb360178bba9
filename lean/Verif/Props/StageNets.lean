import Verif.Props.Stage

/-!
# The protocols as stages
-/

namespace S2G

namespace DirectNet
variable {P : Type}

/-- A node which has announced completion is not waiting for messages. -/
theorem done_idle {incl : Bool} {n : Nat} {s : DirectNet P} (h : Reachable incl n s) {i : Nat} (hi : i < n) (hd : s.done i = 1) :
    (s.proto i).isRunning = false ∧ s.started i = true := by
  have hI := inv_reachable h
  cases hs : s.started i with
  | false =>
    obtain ⟨h1, h2, h3, h4, h5⟩ := hI.idle i hi hs
    omega
  | true =>
    obtain ⟨h1, h2, h3, h4, h5⟩ := hI.active i hi hs
    have hc : (s.processed i).length = total incl n := by
      by_contra hcon; rw [if_neg hcon] at h5; omega
    simp [Proto.isRunning, h1, h2, h3, hc]

theorem done_handle {incl : Bool} {n : Nat} {s : DirectNet P} (h : Reachable incl n s) {i : Nat} (hi : i < n) (hd : s.done i = 1)
    (m : DMsg P) (rest : List (DMsg P)) : (handleStep s m rest).done i = 1 ∧ (handleStep s m rest).processed i = s.processed i := by
  cases hr : (s.proto m.dst).isRunning with
  | false =>
    obtain ⟨h1, h2, -, -⟩ := handleStep_idle (rest := rest) hr
    rw [h1, h2]
    exact ⟨hd, rfl⟩
  | true =>
    have hne : i ≠ m.dst := by
      rintro rfl
      rw [(done_idle h hi hd).1] at hr
      cases hr
    obtain ⟨h1, h2, -, -⟩ := handleStep_running (rest := rest) hr
    rw [h1, h2]
    split
    · exact ⟨hd, Function.update_of_ne hne ..⟩
    · exact ⟨by rw [Function.update_of_ne hne]; exact hd, Function.update_of_ne hne ..⟩

theorem done_start (incl : Bool) (n : Nat) (s : DirectNet P) {i j : Nat} (hij : i ≠ j) (f : Nat → P) :
    (startStep incl n s j f).done i = s.done i := by
  unfold startStep
  dsimp only
  split
  · rw [Function.update_of_ne hij]
  · rfl

theorem handleStep_pay (s : DirectNet P) (g : Nat → Nat → P) (m : DMsg P) (rest : List (DMsg P)) :
    handleStep { s with pay := g } m rest = { handleStep s m rest with pay := g } := by
  unfold handleStep
  dsimp only
  split <;> rfl

theorem startStep_pay (incl : Bool) (n : Nat) (s : DirectNet P) (g : Nat → Nat → P) (i : Nat) :
    startStep incl n { s with pay := g } i (g i) = { startStep incl n s i (g i) with pay := g } := by
  unfold startStep
  simp

theorem handleStep_started (s : DirectNet P) (m : DMsg P) (rest : List (DMsg P)) : (handleStep s m rest).started = s.started := by
  unfold handleStep
  dsimp only
  split <;> rfl

end DirectNet

namespace Stage
variable {I O : Type} {n : Nat}

/-! ### Exchanges -/

section
variable {L P : Type} {prep : Nat → I → Option L} {body : L → Nat → P} {result : Nat → L → List (DMsg P) → O} {pay : Nat → Nat → P}

theorem direct_run {f : Nat → I} {s : (direct n prep body result pay).S} (h : (direct n prep body result pay).Run f s) :
    DirectNet.Reachable false n s.2 ∧ (∀ i, s.1 i = if s.2.started i then prep i (f i) else none) ∧
    ∀ i, s.2.started i = true → i < n ∧ ∃ l, prep i (f i) = some l := by
  induction h with
  | init => exact ⟨.init _, fun i => rfl, fun i hi => by cases hi⟩
  | @start s t i _ hs ih =>
    obtain ⟨hi, hst, l, hl, rfl⟩ := hs
    refine ⟨.step ih.1 (.start _ i _ hi hst), fun j => ?_, fun j hj => ?_⟩
    · show Function.update s.1 i (some l) j = if Function.update s.2.started i true j then _ else _
      by_cases hji : j = i
      · subst hji; simp [hl]
      · rw [Function.update_of_ne hji, Function.update_of_ne hji]; exact ih.2.1 j
    · have hj : Function.update s.2.started i true j = true := hj
      by_cases hji : j = i
      · subst hji; exact ⟨hi, l, hl⟩
      · rw [Function.update_of_ne hji] at hj
        exact ih.2.2 j hj
  | @step s t _ hs ih =>
    obtain ⟨pre, m, post, hm, rfl⟩ := hs
    refine ⟨.step ih.1 (.handle _ pre post m hm), ?_, ?_⟩
    · dsimp only
      rw [DirectNet.handleStep_started]
      exact ih.2.1
    · dsimp only
      rw [DirectNet.handleStep_started]
      exact ih.2.2

theorem direct_out {f : Nat → I} {s : (direct n prep body result pay).S} (h : (direct n prep body result pay).Run f s) {i : Nat} {y : O} :
    (direct n prep body result pay).out s i = some y ↔
      i < n ∧ s.2.done i = 1 ∧ ∃ l, prep i (f i) = some l ∧ y = result i l (s.2.processed i) := by
  show (if i < n ∧ s.2.done i = 1 then (s.1 i).map (fun l => result i l (s.2.processed i)) else none) = some y ↔ _
  obtain ⟨h1, h2, -⟩ := direct_run h
  constructor
  · intro hy
    split at hy
    · next hc =>
      obtain ⟨l, hl, rfl⟩ := Option.map_eq_some_iff.1 hy
      rw [h2, if_pos (DirectNet.done_idle h1 hc.1 hc.2).2] at hl
      exact ⟨hc.1, hc.2, l, hl, rfl⟩
    · cases hy
  · rintro ⟨hi, hd, l, hl, rfl⟩
    rw [if_pos ⟨hi, hd⟩, h2, if_pos (DirectNet.done_idle h1 hi hd).2, hl]
    rfl

theorem direct_laws : (direct n prep body result pay).Laws n where
  init i := rfl
  start := by
    rintro s i x t ⟨hi, hst, l, hl, rfl⟩
    exact ⟨hi, hst, rfl⟩
  step := by
    rintro s t ⟨pre, m, post, hm, rfl⟩
    exact DirectNet.handleStep_started ..
  out := by
    intro f s i y h hy
    obtain ⟨hi, hd, -⟩ := (direct_out h).1 hy
    exact (DirectNet.done_idle (direct_run h).1 hi hd).2
  stableStart := by
    intro f s t i j y h hs hy
    refine (direct_out (.start (i := j) h hs)).2 ?_
    obtain ⟨hi, hd, l, hl, rfl⟩ := (direct_out h).1 hy
    obtain ⟨hj, hst, l', hl', rfl⟩ := hs
    have hij : i ≠ j := by
      rintro rfl
      rw [(DirectNet.done_idle (direct_run h).1 hi hd).2] at hst
      cases hst
    exact ⟨hi, by dsimp only; rw [DirectNet.done_start _ _ _ hij]; exact hd, l, hl, rfl⟩
  stableStep := by
    intro f s t i y h hs hy
    refine (direct_out (.step h hs)).2 ?_
    obtain ⟨hi, hd, l, hl, rfl⟩ := (direct_out h).1 hy
    obtain ⟨pre, m, post, hm, rfl⟩ := hs
    obtain ⟨h1, h2⟩ := DirectNet.done_handle (direct_run h).1 hi hd m (pre ++ post)
    exact ⟨hi, h1, l, hl, by dsimp only; rw [h2]⟩

/-- The exchange of the stage is the one with the contents `body (l i)`. -/
theorem direct_with {f : Nat → I} {s : (direct n prep body result pay).S} (h : (direct n prep body result pay).Run f s) {l : Nat → L}
    (hl : ∀ i, s.2.started i = true → prep i (f i) = some (l i)) :
    DirectNet.ReachableWith false n (fun i => body (l i)) { s.2 with pay := fun i => body (l i) } := by
  induction h with
  | init => exact .init
  | @start s t i hr hs ih =>
    obtain ⟨hi, hst, l', hl', rfl⟩ := hs
    have e : l' = l i := by
      have := hl i (Function.update_self ..)
      rw [hl'] at this
      exact Option.some.inj this
    subst e
    have h1 := ih fun j hj => hl j (by
      show Function.update s.2.started i true j = true
      by_cases hji : j = i
      · subst hji; simp
      · rw [Function.update_of_ne hji]; exact hj)
    have h2 := DirectNet.StepWith.start (incl := false) (n := n) (f := fun i => body (l i)) _ i hi
      (show ({ s.2 with pay := fun i => body (l i) } : DirectNet P).started i = false from hst)
    have h3 := DirectNet.startStep_pay false n s.2 (fun i => body (l i)) i
    rw [h3] at h2
    exact .step h1 h2
  | @step s t hr hs ih =>
    obtain ⟨pre, m, post, hm, rfl⟩ := hs
    have h1 := ih fun j hj => hl j (by dsimp only; rw [DirectNet.handleStep_started]; exact hj)
    have h2 := DirectNet.StepWith.handle (incl := false) (n := n) (f := fun i => body (l i)) _ pre post m
      (show ({ s.2 with pay := fun i => body (l i) } : DirectNet P).pool = pre ++ m :: post from hm)
    rw [DirectNet.handleStep_pay] at h2
    exact .step h1 h2

theorem with_direct {f : Nat → I} {l : Nat → L} {d : DirectNet P} (h : DirectNet.ReachableWith false n (fun i => body (l i)) d)
    (hl : ∀ i < n, prep i (f i) = some (l i)) :
    ∃ s, (direct n prep body result pay).Run f s ∧ d = { s.2 with pay := fun i => body (l i) } := by
  induction h with
  | init => exact ⟨_, .init, rfl⟩
  | step hr hs ih =>
    obtain ⟨s, hs', rfl⟩ := ih
    cases hs with
    | start i hi hst =>
      refine ⟨_, .start (i := i) hs' ⟨hi, hst, l i, hl i hi, rfl⟩, ?_⟩
      exact DirectNet.startStep_pay false n s.2 (fun i => body (l i)) i
    | handle pre post m hm =>
      refine ⟨_, .step hs' ⟨pre, m, post, hm, rfl⟩, ?_⟩
      exact DirectNet.handleStep_pay ..

end

/-! ### Rings -/

section
variable {P : Type} {pay : Nat → P} {result : P → List (RMsg P) → Nat → O}

theorem ring_run {f : Nat → P} {s : (ring n pay result).S} (h : (ring n pay result).Run f s) :
    RingNet.Reachable true n s ∧ ∀ i, RingNet.started s i = true → RingNet.pay s i = f i := by
  induction h with
  | init => exact ⟨.init _, fun i hi => by cases hi⟩
  | @start s t i _ hs ih =>
    obtain ⟨hi, hst, hb, rfl⟩ := hs
    refine ⟨.step ih.1 (.start s i _ hi hst fun _ => hb), fun j hj => ?_⟩
    show Function.update s.pay i (f i) j = f j
    have hj : Function.update s.started i true j = true := hj
    by_cases hji : j = i
    · subst hji; simp
    · rw [Function.update_of_ne hji] at hj ⊢
      exact ih.2 j hj
  | @step s t _ hs ih =>
    obtain ⟨i, m, rest, hi, hm, rfl⟩ | ⟨i, m, rest, hi, hm, rfl⟩ := hs
    · exact ⟨.step ih.1 (.arrive s i m rest hi hm), ih.2⟩
    · exact ⟨.step ih.1 (.handle s i m rest hi hm), fun j hj =>
        (congrFun RingNet.handle_pay j).trans (ih.2 j ((congrFun RingNet.handle_started j).symm.trans hj))⟩

theorem ring_out {s : RingNet P} {i : Nat} {y : O} : (ring n pay result).out s i = some y ↔
    i < n ∧ s.done i = 1 ∧ y = result (s.pay i) (s.processed i) i := by
  show (if i < n ∧ s.done i = 1 then some (result (s.pay i) (s.processed i) i) else none) = some y ↔ _
  split
  · next hc => simp [hc, eq_comm]
  · next hc =>
    constructor
    · intro h; cases h
    · rintro ⟨h1, h2, -⟩; exact absurd ⟨h1, h2⟩ hc

theorem ring_done_step (hn : 2 ≤ n) {s t : RingNet P} (h : RingNet.Reachable true n s) {i : Nat} (hi : i < n) (hd : s.done i = 1)
    (hs : (ring n pay result).step s t) : t.done i = 1 ∧ t.processed i = s.processed i ∧ t.pay i = s.pay i := by
  obtain ⟨j, m, rest, hj, hm, rfl⟩ | ⟨j, m, rest, hj, hm, rfl⟩ := hs
  · exact ⟨hd, rfl, rfl⟩
  · have hI := RingNet.inv_reachable hn h
    have hij : i ≠ j := by
      rintro rfl
      have h1 := RingNet.processed_lt hn hI hi hm
      have h2 := (RingNet.done_history hn hI hi hd).2.1
      omega
    refine ⟨?_, ?_, by rw [RingNet.handle_pay]⟩
    · unfold RingNet.handleStep
      split
      · exact hd
      · split
        · exact hd
        · exact (Function.update_of_ne hij ..).trans hd
    · unfold RingNet.handleStep
      split
      · rfl
      · split
        · exact Function.update_of_ne hij ..
        · exact Function.update_of_ne hij ..

theorem ring_laws (hn : 2 ≤ n) : (ring n pay result).Laws n where
  init i := rfl
  start := by
    rintro s i x t ⟨hi, hst, hb, rfl⟩
    exact ⟨hi, hst, rfl⟩
  step := by
    rintro s t (⟨i, m, rest, hi, hm, rfl⟩ | ⟨i, m, rest, hi, hm, rfl⟩)
    · rfl
    · exact RingNet.handle_started
  out := by
    intro f s i y h hy
    obtain ⟨hi, hd, -⟩ := ring_out.1 hy
    exact ((RingNet.C18_done_once hn (ring_run h).1 hi).2.1.1 hd).1
  stableStart := by
    intro f s t i j y h hs hy
    refine ring_out.2 ?_
    obtain ⟨hi, hd, rfl⟩ := ring_out.1 hy
    obtain ⟨hj, hst, hb, rfl⟩ := hs
    have hij : i ≠ j := by
      rintro rfl
      rw [((RingNet.C18_done_once hn (ring_run h).1 hi).2.1.1 hd).1] at hst
      cases hst
    refine ⟨hi, hd, ?_⟩
    show _ = result (Function.update s.pay j (f j) i) (s.processed i) i
    rw [Function.update_of_ne hij]
  stableStep := by
    intro f s t i y h hs hy
    refine ring_out.2 ?_
    obtain ⟨hi, hd, rfl⟩ := ring_out.1 hy
    obtain ⟨h1, h2, h3⟩ := ring_done_step hn (ring_run h).1 hi hd hs
    exact ⟨hi, h1, by rw [h2, h3]⟩

/-- What a node has processed when it is done: determined by the contributions. -/
theorem ring_processed (hn : 2 ≤ n) {s : RingNet P} (h : RingNet.Reachable true n s) {i : Nat} (hi : i < n) (hd : s.done i = 1) :
    s.processed i = (List.range (n - 1)).map (fun j => ⟨(i + n - (j + 1)) % n, s.pay ((i + n - (j + 1)) % n)⟩) := by
  have hl := ((RingNet.C18_done_once hn h hi).2.1.1 hd).2
  apply List.ext_getElem
  · simp [hl]
  · intro j h1 h2
    have := RingNet.C18_processing_order hn h hi (List.getElem?_eq_getElem h1)
    generalize (s.processed i)[j] = m at this ⊢
    obtain ⟨o, bd⟩ := m
    simp only [List.getElem_map, List.getElem_range]
    simp only at this
    obtain ⟨rfl, rfl⟩ := this
    rfl

/-- A node is done only when all nodes have entered the stage. -/
theorem ring_done_all (hn : 2 ≤ n) {s : RingNet P} (h : RingNet.Reachable true n s) {i : Nat} (hi : i < n) (hd : s.done i = 1)
    {j : Nat} (hj : j < n) : s.started j = true := by
  by_cases hji : j = i
  · subst hji; exact ((RingNet.C18_done_once hn h hi).2.1.1 hd).1
  · have h1 : RMsg.mk j (s.pay j) ∈ s.processed i := by
      rw [((RingNet.C18_rotation_complete hn h hi).2 hd).mem_iff]
      exact List.mem_map.2 ⟨j, DirectNet.mem_peers.2 ⟨hj, Or.inr hji⟩, rfl⟩
    obtain ⟨x, hx, hxm⟩ := List.getElem_of_mem h1
    have hq := RingNet.queue_reachable hn h
    have h2 : (RingNet.history s i)[x]? = some (RMsg.mk j (s.pay j)) := by
      unfold RingNet.history
      rw [List.getElem?_append_left hx, List.getElem?_eq_getElem hx, hxm]
    rw [hq i hi] at h2
    obtain ⟨h3, h4⟩ := RingNet.sentOn_origin hn hq x _ (RingNet.prv_lt hn) _ h2
    rw [show j = _ from congrArg RMsg.origin h4]
    exact h3

/-- All nodes enter the stage at once. -/
theorem ring_sync (f : Nat → P) : ∀ k ≤ n, ∃ s : RingNet P, (ring n pay result).Sync f k s ∧ (∀ i, s.started i = decide (i < k)) ∧
    (∀ i, (s.proto i).buffer = []) := by
  intro k
  induction k with
  | zero => intro _; exact ⟨_, .init, fun i => by simp [ring, RingNet.init], fun i => by simp [ring, RingNet.init]⟩
  | succ k ih =>
    intro hk
    obtain ⟨s, h1, h2, h3⟩ := ih (by omega)
    refine ⟨_, .start h1 ⟨by omega, by rw [h2]; simp, Or.inr (h3 k), rfl⟩, fun i => ?_, fun i => ?_⟩
    · by_cases hi : i = k
      · subst hi; simp [RingNet.startStep]
      · simp only [RingNet.startStep, Function.update_of_ne hi, h2]
        congr 1; rw [eq_iff_iff]; omega
    · by_cases hi : i = k
      · subst hi; simp [RingNet.startStep, Proto.resolveBuffer, Proto.sent, Proto.start]
      · simp only [RingNet.startStep, Function.update_of_ne hi, h3]

/-- When all nodes have entered the stage, handling messages leads to completion. -/
theorem ring_finish (hn : 2 ≤ n) : ∀ (k : Nat) {s : RingNet P}, RingNet.remaining n s ≤ k → RingNet.Reachable true n s →
    (∀ i < n, s.started i = true) → ∃ t : RingNet P, (ring n pay result).Steps s t ∧ RingNet.Reachable true n t ∧ t.pay = s.pay ∧
      ∀ i < n, t.done i = 1 := by
  intro k
  induction k using Nat.strong_induction_on with
  | _ k ih =>
    intro s hk h hall
    have key : ∀ t, (ring n pay result).Steps s t → RingNet.Step true n s t → t.started = s.started → t.pay = s.pay →
        ∃ t : RingNet P, (ring n pay result).Steps s t ∧ RingNet.Reachable true n t ∧ t.pay = s.pay ∧ ∀ i < n, t.done i = 1 := by
      intro t ht hst hs hp
      have hlt := RingNet.C18_terminates hn h hst
      obtain ⟨u, h1, h2, h3, h4⟩ := ih (RingNet.remaining n t) (by omega) le_rfl (.step h hst) (by rw [hs]; exact hall)
      exact ⟨u, ht.trans h1, h2, h3.trans hp, h4⟩
    by_cases h2 : ∃ i < n, s.mailbox i ≠ []
    · obtain ⟨i, hi, hne⟩ := h2
      obtain ⟨m, rest, hm⟩ := List.exists_cons_of_ne_nil hne
      exact key (RingNet.handleStep n s i m rest) (.step (.refl (A := ring n pay result) s) (.inr ⟨i, m, rest, hi, hm, rfl⟩)) (.handle s i m rest hi hm)
        RingNet.handle_started RingNet.handle_pay
    · by_cases h3 : ∃ i < n, s.net i ≠ []
      · obtain ⟨i, hi, hne⟩ := h3
        obtain ⟨m, rest, hm⟩ := List.exists_cons_of_ne_nil hne
        exact key (RingNet.arriveStep s i m rest) (.step (.refl (A := ring n pay result) s) (.inl ⟨i, m, rest, hi, hm, rfl⟩)) (.arrive s i m rest hi hm) rfl rfl
      · push Not at h2 h3
        exact ⟨s, .refl (A := ring n pay result) s, h, rfl, fun i hi => RingNet.C18_quiescent_done hn h hall (fun j hj => ⟨h2 j hj, h3 j hj⟩) hi⟩

/-- The rotation can be completed, with all nodes entering at once. -/
theorem ring_complete (hn : 2 ≤ n) (f : Nat → P) : ∃ s t : RingNet P, (ring n pay result).Sync f n s ∧ (ring n pay result).Steps s t ∧
    ∀ i < n, t.done i = 1 := by
  obtain ⟨s, h1, h2, -⟩ := ring_sync (pay := pay) (result := result) f n le_rfl
  obtain ⟨t, h3, -, -, h4⟩ := ring_finish (pay := pay) (result := result) hn _ le_rfl (ring_run h1.run).1
    (fun i hi => by rw [h2]; simpa using hi)
  exact ⟨s, t, h1, h3, h4⟩

/-- The result of a node which is done does not depend on the schedule. -/
theorem ring_result (hn : 2 ≤ n) {f : Nat → P} {s : (ring n pay result).S} (h : (ring n pay result).Run f s) {i : Nat} (hi : i < n)
    (hd : RingNet.done s i = 1) : RingNet.pay s i = f i ∧
      RingNet.processed s i = (List.range (n - 1)).map (fun j => ⟨(i + n - (j + 1)) % n, f ((i + n - (j + 1)) % n)⟩) := by
  obtain ⟨h1, h2⟩ := ring_run h
  refine ⟨h2 i (ring_done_all hn h1 hi hd hi), ?_⟩
  rw [ring_processed hn h1 hi hd]
  refine List.map_congr_left fun j _ => ?_
  rw [h2 _ (ring_done_all hn h1 hi hd (Nat.mod_lt _ (by omega)))]

end
end Stage
end S2G
