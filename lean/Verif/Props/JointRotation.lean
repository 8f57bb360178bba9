import Verif.Model.JointRotation
import Verif.Props.JointLive

/-!
# Runs with overlapping stages from the rotation on (C86)
-/

namespace S2G

namespace RotNet
variable {M R : Type} {k d : Nat} {threads : Bool} {init : Nat → Nat → M} {comb : M → M → M} {rotm : (Nat → Option (M × List (Nat × Nat))) → R}

/-- Only results are added. -/
structure Keeps (s t : RotNet M R) : Prop where
  phase : t.phase = s.phase
  applied : t.applied = s.applied
  fin : s.fin <+: t.fin

theorem Keeps.trans {s t u : RotNet M R} (h : Keeps s t) (h' : Keeps t u) : Keeps s u :=
  ⟨h'.phase.trans h.phase, h'.applied.trans h.applied, h.fin.trans h'.fin⟩

theorem keeps_perform {s t : RotNet M R} {i : Nat} {b : Branch} (h : perform k s i b = some t) : Keeps s t := by
  cases b with
  | send b =>
    obtain ⟨r, -, rfl⟩ := Option.map_eq_some_iff.1 h
    exact ⟨rfl, rfl, List.prefix_rfl⟩
  | finalize =>
    obtain ⟨r, -, rfl⟩ := Option.map_eq_some_iff.1 h
    exact ⟨rfl, rfl, List.prefix_append _ _⟩
  | wait => cases h; exact ⟨rfl, rfl, List.prefix_rfl⟩
  | skip => cases h

theorem keeps_sof {s t : RotNet M R} {i : Nat} (h : sendOrFinalize k s i = some t) : Keeps s t := by
  unfold sendOrFinalize at h
  obtain ⟨b, -, h⟩ := Option.bind_eq_some_iff.1 h
  cases b with
  | skip =>
    obtain ⟨b', -, h⟩ := Option.bind_eq_some_iff.1 h
    have h1 := keeps_perform h
    exact ⟨h1.phase, h1.applied, h1.fin⟩
  | send b => exact keeps_perform h
  | finalize => exact keeps_perform h
  | wait => exact keeps_perform h

theorem grows_ready {s t : RotNet M R} {i : Nat} (h : ready k threads init s i = some t) :
    t.phase = Function.update s.phase i 2 ∧ t.applied = s.applied ∧ s.fin <+: t.fin := by
  unfold ready at h
  simp only [Option.bind_eq_bind, Option.bind_eq_some_iff] at h
  obtain ⟨u, hu, h⟩ := h
  have h1 := keeps_sof hu
  have h2 : u.phase = Function.update s.phase i 2 ∧ u.applied = s.applied ∧ s.fin <+: u.fin := by
    refine ⟨?_, ?_, ?_⟩
    · rw [h1.phase]; split <;> rfl
    · rw [h1.applied]; split <;> rfl
    · refine List.IsPrefix.trans ?_ h1.fin
      split <;> exact List.prefix_rfl
  cases threads <;> cases h <;> exact h2

theorem grows_runPca {s t : RotNet M R} {i : Nat} (h : runPca k threads init s i = some t) :
    (∃ a, a ≠ 0 ∧ t.phase = Function.update s.phase i a) ∧ t.applied = s.applied ∧ s.fin <+: t.fin := by
  cases threads with
  | true =>
    cases h
    exact ⟨⟨1, by decide, rfl⟩, rfl, List.prefix_rfl⟩
  | false =>
    obtain ⟨u, hu, h⟩ := Option.bind_eq_some_iff.1 (show (ready k false init (s.clear i) i).bind _ = some t from h)
    cases h
    obtain ⟨h1, h2, h3⟩ := grows_ready hu
    exact ⟨⟨2, by decide, h1.trans (Function.update_idem ..)⟩, h2, h3⟩

theorem grows_handle {s t : RotNet M R} {i : Nat} {x : StageMsg M R} (h : handle k d threads init comb rotm s i x = some t) :
    (∀ a, t.phase a = 0 ↔ s.phase a = 0) ∧ (∀ a, s.applied a <+: t.applied a) ∧ s.fin <+: t.fin := by
  have same : ∀ {u : RotNet M R}, Keeps s u → (∀ a, u.phase a = 0 ↔ s.phase a = 0) ∧ (∀ a, s.applied a <+: u.applied a) ∧ s.fin <+: u.fin :=
    fun h => ⟨fun a => by rw [h.phase], fun a => by rw [h.applied], h.fin⟩
  cases x with
  | means dim j =>
    simp only [handle] at h
    split at h <;> cases h <;> exact same ⟨rfl, rfl, List.prefix_rfl⟩
  | dec dim count r =>
    simp only [handle] at h
    split at h
    · split at h
      · simp only [Option.bind_eq_bind, Option.bind_eq_some_iff] at h
        obtain ⟨u, hu, h⟩ := h
        cases h
        have h1 := keeps_sof hu
        exact same ⟨h1.phase, h1.applied, h1.fin⟩
      · cases h; exact same ⟨rfl, rfl, List.prefix_rfl⟩
    · cases h; exact same ⟨rfl, rfl, List.prefix_rfl⟩
  | comps x => cases h; exact same ⟨rfl, rfl, List.prefix_rfl⟩
  | done =>
    simp only [handle] at h
    split at h
    · cases h
    · next h0 =>
      simp only [Option.bind_eq_bind, Option.bind_eq_some_iff] at h
      obtain ⟨u, hu, h⟩ := h
      obtain ⟨y, -, rfl⟩ := Option.map_eq_some_iff.1 hu
      split at h
      · obtain ⟨⟨a, ha, h1⟩, h2, h3⟩ := grows_runPca h
        refine ⟨fun b => ?_, fun b => by rw [h2], h3⟩
        rw [h1]
        by_cases hb : b = i
        · subst hb
          rw [Function.update_self]
          exact ⟨fun h => absurd h ha, fun h => absurd h h0⟩
        · rw [Function.update_of_ne hb]
      · cases h
        refine same ⟨?_, ?_, ?_⟩
        all_goals
          unfold broadcast
          split <;> (try simp only) <;> split <;> rfl
  | rot m =>
    simp only [handle] at h
    split at h
    · cases h
      refine ⟨fun _ => Iff.rfl, fun a => ?_, List.prefix_rfl⟩
      show s.applied a <+: Function.update s.applied i (s.applied i ++ [m]) a
      by_cases ha : a = i
      · subst ha; rw [Function.update_self]; exact List.prefix_append _ _
      · rw [Function.update_of_ne ha]
    · cases h; exact same ⟨rfl, rfl, List.prefix_rfl⟩

/-- The states of a run of the stage are the reachable states. -/
theorem rotation_run {f : Nat → Unit} {s : (Joint.rotation k d threads init comb rotm).S} :
    (Joint.rotation k d threads init comb rotm).Run f s ↔ Reachable k d threads init comb rotm NotEarly s := by
  constructor
  · intro h
    induction h with
    | init => exact .init
    | start _ ht ih => exact .step ih (.enter ht.1 ht.2.1 ht.2.2)
    | step _ ht ih =>
      obtain ⟨i, h1, h2, h3, h4⟩ | ⟨i, j, x, rest, h1, h2, h3, h4, h5⟩ := ht
      · exact .step ih (.ready h1 h2 h3 h4)
      · exact .step ih (.deliver h1 h2 h3 h4 h5)
  · intro h
    induction h with
    | init => exact .init
    | @step s t _ ht ih =>
      cases ht with
      | @enter i h1 h2 h3 => exact .start (i := i) ih ⟨h1, h2, h3⟩
      | ready h1 h2 h3 h4 => exact .step ih (.inl ⟨_, h1, h2, h3, h4⟩)
      | deliver h1 h2 h3 h4 h5 => exact .step ih (.inr ⟨_, _, _, _, h1, h2, h3, h4, h5⟩)

theorem rotation_move {f : Nat → Unit} {s t : RotNet M R} :
    (Joint.rotation k d threads init comb rotm).Move f s t ↔ Step k d threads init comb rotm NotEarly s t := by
  constructor
  · rintro ((⟨i, h1, h2, h3, h4⟩ | ⟨i, j, x, rest, h1, h2, h3, h4, h5⟩) | ⟨i, h1, h2, h3⟩)
    · exact .ready h1 h2 h3 h4
    · exact .deliver h1 h2 h3 h4 h5
    · exact .enter h1 h2 h3
  · rintro (⟨h1, h2, h3⟩ | ⟨h1, h2, h3, h4⟩ | ⟨h1, h2, h3, h4, h5⟩)
    · exact .inr ⟨_, h1, h2, h3⟩
    · exact .inl (.inl ⟨_, h1, h2, h3, h4⟩)
    · exact .inl (.inr ⟨_, _, _, _, h1, h2, h3, h4, h5⟩)

theorem rotation_out {s : RotNet M R} {i : Nat} {y : (Nat → Option (M × List (Nat × Nat))) × R} :
    (Joint.rotation k d threads init comb rotm).out s i = some y ↔ i < k ∧ s.applied i = [y.2] ∧ s.reduced i = y.1 := by
  show (match s.applied i with
    | [m] => if i < k then some (s.reduced i, m) else none
    | _ => none) = some y ↔ _
  rcases h : s.applied i with _ | ⟨m, _ | ⟨m', l⟩⟩
  · simp
  · by_cases hi : i < k
    · simp only [if_pos hi, Option.some.injEq, List.cons.injEq, and_true]
      constructor
      · rintro rfl; exact ⟨hi, rfl, rfl⟩
      · rintro ⟨-, h1, h2⟩; rw [h1, h2]
    · simp [hi]
  · simp

theorem grows_step {s t : RotNet M R} (h : Step k d threads init comb rotm NotEarly s t) :
    (∀ a, s.phase a ≠ 0 → t.phase a ≠ 0) ∧ (∀ a, s.applied a <+: t.applied a) ∧ s.fin <+: t.fin := by
  cases h with
  | @enter i h1 h2 h3 =>
    obtain ⟨⟨a, ha, h4⟩, h5, h6⟩ := grows_runPca h3
    refine ⟨fun b hb => ?_, fun b => by rw [h5], h6⟩
    rw [h4]
    by_cases hbi : b = i
    · subst hbi; rwa [Function.update_self]
    · rwa [Function.update_of_ne hbi]
  | @ready i h1 h2 h3 h4 =>
    obtain ⟨h5, h6, h7⟩ := grows_ready h4
    refine ⟨fun b hb => ?_, fun b => by rw [h6], h7⟩
    rw [h5]
    by_cases hbi : b = i
    · subst hbi; rw [Function.update_self]; decide
    · rwa [Function.update_of_ne hbi]
  | deliver h1 h2 h3 h4 h5 =>
    obtain ⟨h6, h7, h8⟩ := grows_handle h5
    exact ⟨fun b hb hb' => hb ((h6 b).1 hb'), h7, h8⟩

/-- The results of a node do not change any more. -/
theorem rotation_stable {s t : RotNet M R} (hk : 0 < k) (hk3 : k ≤ 3) (hd : 0 < d) (hs : Reachable k d threads init comb rotm NotEarly s)
    (h : Step k d threads init comb rotm NotEarly s t) {i : Nat} (hi : i < k) {m : R} (hm : s.applied i = [m]) :
    t.applied i = [m] ∧ t.reduced i = s.reduced i := by
  obtain ⟨-, h1, h2⟩ := grows_step h
  obtain ⟨_, is⟩ := inv_reachable hk hd (notEarly_reachable hk hk3 hd hs)
  obtain ⟨_, it⟩ := inv_reachable hk hd (notEarly_reachable hk hk3 hd (.step hs h))
  obtain ⟨g1, g2, g3⟩ := (used is hi).2.resolve_left (by rw [hm]; simp)
  obtain ⟨g4, g5, g6⟩ := (used it hi).2.resolve_left (by
    intro h0
    have := h1 i
    rw [h0, hm] at this
    simp at this)
  have h3 : s.fin = t.fin := h2.eq_of_length (by rw [g2, g5])
  refine ⟨by rw [g4, ← hm, g1, h3], funext fun a => by rw [g3, g6, h3]⟩

theorem rotation_laws (hk : 0 < k) (hk3 : k ≤ 3) (hd : 0 < d) : (Joint.rotation k d threads init comb rotm).Laws k where
  init i := rfl
  start := by
    rintro s i x t ⟨h1, h2, h3⟩
    obtain ⟨⟨a, ha, h4⟩, -, -⟩ := grows_runPca h3
    refine ⟨h1, decide_eq_false (fun h => h h2), funext fun b => ?_⟩
    show decide (t.phase b ≠ 0) = Function.update (fun j => decide (s.phase j ≠ 0)) i true b
    rw [h4]
    by_cases hb : b = i
    · subst hb
      simpa using ha
    · rw [Function.update_of_ne hb, Function.update_of_ne hb]
  step := by
    rintro s t (⟨i, h1, h2, h3, h4⟩ | ⟨i, j, x, rest, h1, h2, h3, h4, h5⟩)
    · obtain ⟨h5, -, -⟩ := grows_ready h4
      funext b
      show decide (t.phase b ≠ 0) = decide (s.phase b ≠ 0)
      rw [h5]
      by_cases hb : b = i
      · subst hb
        simp [h3]
      · rw [Function.update_of_ne hb]
    · obtain ⟨h6, -, -⟩ := grows_handle h5
      funext b
      exact decide_eq_decide.2 (not_congr (h6 b))
  out := by
    intro f s i y h hy
    obtain ⟨hi, h1, -⟩ := rotation_out.1 hy
    obtain ⟨nets, hI⟩ := inv_reachable hk hd (notEarly_reachable hk hk3 hd (rotation_run.1 h))
    refine decide_eq_true fun h0 => ?_
    obtain ⟨-, h2, h3⟩ := (used hI hi).2.resolve_left (by rw [h1]; simp)
    have hn : s.n i = 0 := by
      rcases hI.base.num i with h | h
      · exact h.2
      · exact absurd h0 h.1
    have := (hI.node i hi).mode
    rcases this with ⟨q1, _⟩ | ⟨q, _⟩
    · omega
    · exact q hn
  stableStart := by
    intro f s t i j y h ht hy
    obtain ⟨hi, h1, h2⟩ := rotation_out.1 hy
    obtain ⟨g1, g2⟩ := rotation_stable hk hk3 hd (rotation_run.1 h) (.enter ht.1 ht.2.1 ht.2.2) hi h1
    exact rotation_out.2 ⟨hi, g1, g2.trans h2⟩
  stableStep := by
    intro f s t i y h ht hy
    obtain ⟨hi, h1, h2⟩ := rotation_out.1 hy
    obtain ⟨g1, g2⟩ := rotation_stable hk hk3 hd (rotation_run.1 h) (rotation_move (f := f).1 (.inl ht)) hi h1
    exact rotation_out.2 ⟨hi, g1, g2.trans h2⟩

/-- Nothing is stuck. -/
theorem rotation_live (hk : 0 < k) (hk3 : k ≤ 3) (hd : 0 < d) (f : Nat → Unit) : (Joint.rotation k d threads init comb rotm).Live k f where
  ready := by
    intro s h i hi hst
    obtain ⟨nets, hI⟩ := inv_reachable hk hd (notEarly_reachable hk hk3 hd (rotation_run.1 h))
    have hp : s.phase i = 0 := by simpa using of_decide_eq_false hst
    have hn : s.n i = 0 := by
      rcases hI.base.num i with h | h
      · exact h.2
      · exact absurd hp h.1
    have hbt : Between k s i := by
      rcases (hI.node i hi).mode with ⟨q1, q2, q3, q4, q5⟩ | ⟨q, _⟩
      · refine ⟨by omega, q2, q4, q5, fun e => ?_⟩
        rw [(hI.node i hi).red e, q5, hn]
        simp
      · exact absurd hn q
    obtain ⟨t, ht⟩ := runPca_total hk hI.calm hI.base (fun j hj _ => hI.node j hj) hi hbt (by omega)
    exact .inr ⟨t, hi, hp, ht⟩
  finish := by
    intro s h hall
    obtain ⟨nets, hI⟩ := inv_reachable hk hd (notEarly_reachable hk hk3 hd (rotation_run.1 h))
    by_cases hst : ∃ t, (Joint.rotation k d threads init comb rotm).step s t
    · exact .inl hst
    · refine .inr fun i hi => ?_
      have hp := progress hk hk3 hd hI fun t ht => by
        cases inTime_notEarly ht with
        | @enter i h1 h2 h3 => exact of_decide_eq_true (hall i h1) h2
        | ready h1 h2 h3 h4 => exact hst ⟨t, .inl ⟨_, h1, h2, h3, h4⟩⟩
        | deliver h1 h2 h3 h4 h5 => exact hst ⟨t, .inr ⟨_, _, _, _, h1, h2, h3, h4, h5⟩⟩
      exact ⟨(RotNet.reduced s i, _), rotation_out.2 ⟨hi, (hp i hi).1, rfl⟩⟩

/-- Every run of the stage ends. -/
theorem rotation_terminates (hk : 0 < k) (hk3 : k ≤ 3) (hd : 0 < d) (f : Nat → Unit) :
    (Joint.rotation k d threads init comb rotm).Terminates f := by
  have key : ∀ c m (run : Nat → RotNet M R), run 0 = {} → (∀ j < m, Step k d threads init comb rotm NotEarly (run j) (run (j + 1))) →
      d * (k * (1 + Nat.clog 2 k) * (Nat.clog 2 k + 3) + 2 * k) + k * (2 * d + 6) < m + c →
      Acc (fun t s : RotNet M R => (Joint.rotation k d threads init comb rotm).Run f s ∧ (Joint.rotation k d threads init comb rotm).Move f s t)
        (run m) := by
    intro c
    induction c with
    | zero =>
      intro m run h0 h1 h2
      have := C68_terminates hk hk3 hd h0 h1
      omega
    | succ c ih =>
      intro m run h0 h1 h2
      refine Acc.intro _ fun t ht => ?_
      have := ih (m + 1) (Function.update run (m + 1) t) (by rw [Function.update_of_ne (by omega), h0]) (fun j hj => ?_) (by omega)
      · rwa [Function.update_self] at this
      · rw [Function.update_of_ne (show j ≠ m + 1 by omega)]
        by_cases hjm : j = m
        · subst hjm
          rw [Function.update_self]
          exact rotation_move.1 ht.2
        · rw [Function.update_of_ne (by omega)]
          exact h1 j (by omega)
  have path : ∀ {s : RotNet M R}, Reachable k d threads init comb rotm NotEarly s → ∃ (m : Nat) (run : Nat → RotNet M R),
      run 0 = {} ∧ (∀ j < m, Step k d threads init comb rotm NotEarly (run j) (run (j + 1))) ∧ run m = s := by
    intro s h
    induction h with
    | init => exact ⟨0, fun _ => {}, rfl, fun j hj => absurd hj (by omega), rfl⟩
    | @step s t _ ht ih =>
      obtain ⟨m, run, h0, h1, rfl⟩ := ih
      refine ⟨m + 1, Function.update run (m + 1) t, by rw [Function.update_of_ne (by omega), h0], fun j hj => ?_, Function.update_self ..⟩
      rw [Function.update_of_ne (show j ≠ m + 1 by omega)]
      by_cases hjm : j = m
      · subst hjm
        rwa [Function.update_self]
      · rw [Function.update_of_ne (by omega)]
        exact h1 j (by omega)
  refine ⟨fun s => Acc.intro _ fun t ht => ?_⟩
  obtain ⟨m, run, h0, h1, rfl⟩ := path (.step (rotation_run.1 ht.1) (rotation_move.1 ht.2))
  exact key (d * (k * (1 + Nat.clog 2 k) * (Nat.clog 2 k + 3) + 2 * k) + k * (2 * d + 6) + 1) m run h0 h1 (by omega)

end RotNet

namespace Stage
variable {I O : Type} {A : Stage I O} {f : Nat → I} {k : Nat}

/-- A run which ends can be continued to its end. -/
theorem Terminates.stuck (h : A.Terminates f) {s : A.S} (hs : A.Run f s) :
    ∃ t, A.Run f t ∧ Relation.ReflTransGen (A.Move f) s t ∧ ¬ ∃ u, A.Move f t u := by
  induction h.apply s with
  | intro s _ ih =>
    by_cases hm : ∃ t, A.Move f s t
    · obtain ⟨t, ht⟩ := hm
      obtain ⟨u, h1, h2, h3⟩ := ih t ⟨hs, ht⟩ (hs.move ht)
      exact ⟨u, h1, .head ht h2, h3⟩
    · exact ⟨s, hs, .refl, hm⟩

theorem Laws.stable (hA : A.Laws k) {s t : A.S} (hs : A.Run f s) (h : Relation.ReflTransGen (A.Move f) s t) {i : Nat} {y : O}
    (hy : A.out s i = some y) : A.Run f t ∧ A.out t i = some y := by
  induction h with
  | refl => exact ⟨hs, hy⟩
  | tail _ hm ih =>
    refine ⟨ih.1.move hm, ?_⟩
    obtain hm | ⟨j, hm⟩ := hm
    · exact hA.stableStep ih.1 hm ih.2
    · exact hA.stableStart ih.1 hm ih.2

end Stage

namespace Joint
open Stage Cluster Whole Points Pca Rotation

variable {e w : Nat} {lib : Lib w} {resolution order : Nat} {p : Parameters} {series : List (Fin (e + 1) → ℝ)} {parts : Nat → List (Fin (e + 1) → ℝ)} {n : Nat}
  {first : List (Fin (e + 1) → ℝ)} {ps : Nat → List (List (Fin (e + 1) → ℝ))} {xs : Nat → Nat → Summary (w + 1)} {pts mirrored eff : Nat → List Point}

local notation "N" => Parameters.nClusterNodes p

/-- The points of a node as a function and as a relation. -/
theorem nodePoints_iff {s : (rotating lib p first xs).S} {i : Nat} (hi : i < N) {q : List Point} :
    NodePoints lib p n ps xs s i q ↔ ∃ y, (rotating lib p first xs).out s i = some y ∧ nodePoints lib p n ps xs i y = some q := by
  constructor
  · rintro ⟨R, c, h1, h2, h3⟩
    refine ⟨(RotNet.reduced s i, some R), RotNet.rotation_out.2 ⟨hi, h1, rfl⟩, ?_⟩
    have h4 : ∀ m : Fin (e + 1), ((RotNet.reduced s i m).bind (resultOf lib xs)).isSome := fun m => by rw [h2 m]; rfl
    have h5 : ∀ m : Fin (e + 1), ((RotNet.reduced s i m).bind (resultOf lib xs)).get (h4 m) = c m := fun m =>
      Option.some.inj ((Option.some_get _).trans (h2 m))
    show (if h : ∀ m : Fin (e + 1), ((RotNet.reduced s i m).bind (resultOf lib xs)).isSome then _ else none) = some q
    rw [dif_pos h4]
    simp only [h5]
    exact h3
  · rintro ⟨⟨red, M⟩, h1, h2⟩
    obtain ⟨-, h3, h4⟩ := RotNet.rotation_out.1 h1
    obtain ⟨R, rfl, h5⟩ := Option.bind_eq_some_iff.1 (show M.bind _ = some q from h2)
    have h6 : (if h : ∀ m : Fin (e + 1), ((red m).bind (resultOf lib xs)).isSome then
      applyRotation R ((List.range (ps i).length).map (fun r m => reduced (((red m).bind (resultOf lib xs)).get (h m)).1
        (((red m).bind (resultOf lib xs)).get (h m)).2 ((column (ps i) m).getD r 0))) n p.nClusterNodes i p.rate
      else none) = some q := h5
    split at h6
    · next h =>
      refine ⟨R, fun m => ((red m).bind (resultOf lib xs)).get (h m), h3, fun m => ?_, h6⟩
      have : RotNet.reduced s i = red := h4
      rw [this]
      exact (Option.some_get _).symm
    · cases h6

theorem run_laws (hp : p.WellFormed) (hn : 2 ≤ N) {clu : List (List ℝ) → Option (List Nat)} {len : Nat} {points : Nat → Nat} :
    (run e clu p len points mirrored eff).Laws N :=
  comp_laws (segmentation_laws hp hn) (scoring_laws hn)

/-- **C86 (overlap from the rotation on).** On two or three nodes, a run in which every node enters each stage from the rotation on as soon as it has finished the
one before can deliver a vector on node `i` exactly if a run can in which all nodes have rotated before the first one begins with the segmentation. -/
theorem C86_overlap (hp : p.WellFormed) (hn : 2 ≤ N) (hk3 : N ≤ 3) {i : Nat} (v : Option (List (Option ℚ))) :
    TrainingDelivers lib resolution order p series i v ↔ Joint.Delivers lib resolution order p series i v := by
  have hA : ∀ {first : List (Fin (e + 1) → ℝ)} {xs}, (rotating lib p first xs).Laws N := fun {first xs} =>
    RotNet.rotation_laws (by omega) hk3 (by omega)
  constructor
  · rintro ⟨parts, n, first, ps, xs, hl, pts, mirrored, eff, s, hs, ⟨hc1, hc2, hc3⟩, r, hr, rfl⟩
    obtain ⟨h1, h2⟩ := comp_started hA (run_laws hp hn) hs
    have h3 := (run_comp hA hs).2 pts hc1
    have h4 : ∀ j < N, NodePoints lib p n ps xs s.1 j (pts j) := by
      intro j hj
      have h5 := (C78_behind hp hn h3 hr hj).1
      obtain ⟨y, hy⟩ := Option.isSome_iff_exists.1 h5
      have h6 := (segmentation_laws hp hn).out (run_comp (segmentation_laws hp hn) h3).1 hy
      obtain ⟨-, u, q, hu, hq⟩ := h2 j h6
      exact (nodePoints_iff hj).2 ⟨u, hu, by rw [hq, hc1 j u q hu hq]⟩
    exact ⟨pts, mirrored, eff, ⟨parts, n, first, ps, xs, s.1, hl, RotNet.rotation_run.1 h1, h4⟩, hc2, s.2, h3, hc3, r, hr, rfl⟩
  · rintro ⟨pts, mirrored, eff, ⟨parts, n, first, ps, xs, a, hl, ha, hpts⟩, hm, s, hs, heff, r, hr, rfl⟩
    refine ⟨parts, n, first, ps, xs, hl, pts, mirrored, eff, (a, s), ?_, ⟨fun j y q hy hq => ?_, hm, heff⟩, r, hr, rfl⟩
    · exact comp_run (run_laws hp hn) (RotNet.rotation_run.2 ha) (fun j hj => (nodePoints_iff hj).1 (hpts j hj)) hs
    · have hj := (RotNet.rotation_out.1 hy).1
      obtain ⟨y', h1, h2⟩ := (nodePoints_iff hj).1 (hpts j hj)
      cases h1.symm.trans hy
      exact Option.some.inj (h2.symm.trans hq)

/-- **C86 (no infinite run).** On two or three nodes every run from the rotation on ends. -/
theorem C86_terminates (hp : p.WellFormed) (hn : 2 ≤ N) (hk3 : N ≤ 3) (pts mirrored eff : Nat → List Point) :
    (training lib resolution order p series n first ps xs pts mirrored eff).Terminates fun _ => () :=
  comp_terminates (RotNet.rotation_laws (by omega) hk3 (by omega)) (RotNet.rotation_terminates (by omega) hk3 (by omega) _)
    fun g => C80_terminates hp hn g mirrored eff

/-- Every node which has rotated has its part of the points of one node, whatever the others are doing. -/
theorem rotating_points (hqr : ∀ A, gram (lib.qr A) = gram A) (hs : ∀ m, Settled lib (windows w p series m)) (hr : 0 < p.rate) (hk3 : N ≤ 3)
    (hf : Fits p series.length) {q : List Point} (hq : PointsOf lib p series q) (h : Loaded lib p series parts n first ps xs) {f : Nat → Unit}
    {s : (rotating lib p first xs).S} (hrun : (rotating lib p first xs).Run f s) {i : Nat}
    {y : (Nat → Option (List (Row (w + 1)) × List (Nat × Nat))) × Option (Fin (e + 1) → Matrix (Fin 3) (Fin 3) ℝ)}
    (hy : (rotating lib p first xs).out s i = some y) : nodePoints lib p n ps xs i y = some (slice p series.length q i) := by
  have hA : (rotating lib p first xs).Laws N := RotNet.rotation_laws hf.pos hk3 (by omega)
  obtain ⟨t, h1, h2, h3⟩ := (RotNet.rotation_terminates (k := N) (d := e + 1) (threads := decide (1 < p.nThreads))
    (init := fun m i => (xs i m).r) (comb := combine lib.qr) (rotm := matrices lib xs first) hf.pos hk3 (by omega) f).stuck hrun
  have h4 := RotNet.rotation_run.1 h1
  obtain ⟨pts, h5, h6⟩ := C74_complete hqr hs hf hk3 hq h h4 fun u hu => h3 ⟨u, RotNet.rotation_move.2 hu⟩
  have hi := (RotNet.rotation_out.1 hy).1
  obtain ⟨y', h7, h8⟩ := (nodePoints_iff hi).1 (h5 i hi)
  cases h7.symm.trans (hA.stable hrun h2 hy).2
  rw [h8, parts_of_points hqr hs hr hk3 hf hq ⟨parts, n, first, ps, xs, t, h, h4, h5⟩ i hi]

theorem crashed_cases (hp : p.WellFormed) (hsc : p.selfCorrection = false) {s : (segmentation p mirrored).S} (hc : ¬crashed p mirrored s) {i : Nat}
    (hi : i < N) (hst : (segmentation p mirrored).started s i = false) (x : List Point) : ∃ t, (segmentation p mirrored).start s i x t := by
  have hseg : segmentation p mirrored = plain p := if_neg (by simp [hsc])
  have key : ∀ (A : Stage (List Point) (List Trans × NodeQuestions × Bool)) (hA : A = plain p) (s : A.S),
      SegNet.crashed (cast (congrArg Stage.S hA) s) ≠ true → A.started s i = false → ∃ t, A.start s i x t := by
    rintro _ rfl s h1 h2
    exact plain_ready (f := fun _ => x) hp (eq_false_of_ne_true h1) hi h2
  exact key _ hseg s (fun h => hc ⟨hseg, h⟩) hst

theorem crashed_cause (hp : p.WellFormed) (hv : ∀ i < N, validSteps p.rate ((pts i).map toPt) ≠ []) {s : (segmentation p mirrored).S}
    (h : (segmentation p mirrored).Run pts s) (hc : crashed p mirrored s) : ∃ i < N, (segmentation p mirrored).started s i = false := by
  obtain ⟨hseg, hc⟩ := hc
  have key : ∀ (A : Stage (List Point) (List Trans × NodeQuestions × Bool)) (hA : A = plain p) (s : A.S), A.Run pts s →
      SegNet.crashed (cast (congrArg Stage.S hA) s) = true → ∃ i < N, A.started s i = false := by
    rintro _ rfl s h1 h2
    exact (C80_entering hp hv h1).2.1 h2
  exact key _ hseg s h hc

/-- **C86 (the end of every run).** Two or three nodes, from the rotation on, under the conditions of C75, where one node delivers the vector `v`;
`pts`, `mirrored` and `eff` are the points of the nodes. In every state of every run, whatever the other nodes are doing:

* what a node delivers is `v`;
* when nothing more can happen, all nodes have delivered `v`, or a node has crashed in the segmentation without self correction, which it had not
entered yet (the first point of its neighbour reached it too early, C28); with self correction (shown for two nodes) all nodes have delivered. -/
theorem C86_over (hqr : ∀ A, gram (lib.qr A) = gram A) (hs : ∀ m, Settled lib (windows w p series m)) (hp : p.WellFormed)
    (hk : 2 ≤ N) (hk3 : N ≤ 3) (hsc : p.selfCorrection = true → N = 2) (hf : Fits p series.length)
    (hc : ∀ i < N, 0 < count p series.length i ∧ Chunked p.nThreads (count p series.length i)) {q m : List Point}
    (hq : PointsOf lib p series q) (hm : q.mapM (mirrorPoint p.rate) = some m) (hdec : SameDecision p series.length q)
    (g : Good p series.length (Cluster.parts p series.length q m)) {v : Option (List (Option ℚ))}
    (hv : Whole.Delivers lib resolution order { p with nClusterNodes := 1 } series v)
    (h : Loaded lib p series parts n first ps xs) (hpts : ∀ i < N, pts i = slice p series.length q i)
    (hmi : p.selfCorrection = true → ∀ i < N, (pts i).mapM (mirrorPoint p.rate) = some (mirrored i)) (heff : Effective p pts mirrored eff)
    {s : (training lib resolution order p series n first ps xs pts mirrored eff).S}
    (hrun : (training lib resolution order p series n first ps xs pts mirrored eff).Run (fun _ => ()) s) :
    (∀ i r, (training lib resolution order p series n first ps xs pts mirrored eff).out s i = some r → SubScores.finalize N r = v) ∧
    ((¬ ∃ t, (training lib resolution order p series n first ps xs pts mirrored eff).Move (fun _ => ()) s t) →
      (∀ i < N, ∃ r, (training lib resolution order p series n first ps xs pts mirrored eff).out s i = some r ∧ SubScores.finalize N r = v) ∨
      (p.selfCorrection = false ∧ crashed p mirrored s.2.1 ∧ ∃ i < N, (segmentation p mirrored).started s.2.1 i = false)) := by
  have hB := base_of_points hp hk hf hq hm
  have hA : (rotating lib p first xs).Laws N := RotNet.rotation_laws hf.pos hk3 (by omega)
  obtain ⟨h1, h2⟩ := run_comp hA hrun
  have hout : ∀ {s : (rotating lib p first xs).S}, (rotating lib p first xs).Run (fun _ => ()) s → ∀ i y z, (rotating lib p first xs).out s i = some y →
      nodePoints lib p n ps xs i y = some z → pts i = z := by
    intro s hs' i y z hy hz
    rw [rotating_points hqr hs hB.rate hk3 hf hq h hs' hy] at hz
    rw [hpts i (RotNet.rotation_out.1 hy).1]
    exact Option.some.inj hz
  have h3 := h2 pts (hout h1)
  obtain ⟨t, t1, -, t2⟩ := (RotNet.rotation_terminates (k := N) (d := e + 1) (threads := decide (1 < p.nThreads))
    (init := fun m i => (xs i m).r) (comb := combine lib.qr) (rotm := matrices lib xs first) hf.pos hk3 (by omega) (fun _ => ())).stuck h1
  have t3 := RotNet.rotation_run.1 t1
  obtain ⟨pts', t4, -⟩ := C74_complete hqr hs hf hk3 hq h t3 fun u hu => t2 ⟨u, RotNet.rotation_move.2 hu⟩
  have hall : PointsOfAll lib p RotNet.NotEarly series pts := by
    refine ⟨parts, n, first, ps, xs, t, h, t3, fun i hi => ?_⟩
    obtain ⟨y, hy, hz⟩ := (nodePoints_iff hi).1 (t4 i hi)
    rw [hout t1 i y _ hy hz]
    exact t4 i hi
  obtain ⟨c1, c2, c3⟩ := C80_deliver hqr hs hp hk hk3 hsc hf hc hq hm hdec g hv hall hmi heff
  have hL : (runOf resolution order p series pts mirrored eff).Laws N := run_laws hp hk
  refine ⟨fun i r hr => c3 s.2 h3 i (started_lt hL h3 (hL.out h3 hr)) r hr, fun hst => ?_⟩
  by_cases hcr : p.selfCorrection = false ∧ crashed p mirrored s.2.1
  · refine .inr ⟨hcr.1, hcr.2, crashed_cause hp (fun i hi => ?_) (run_comp (segmentation_laws hp hk) h3).1 hcr.2⟩
    have := g.valid i hi
    rwa [Cluster.parts, Whole.corrected, if_neg (by simp [hcr.1]), slice_map, ← hpts i hi] at this
  left
  have hrot : ∀ i < N, ∃ y, (rotating lib p first xs).out s.1 i = some y := by
    refine ((RotNet.rotation_live (by omega) hk3 (by omega) (fun _ => ())).move h1).resolve_left ?_
    rintro ⟨u, hu | ⟨i, hu⟩⟩
    · exact hst ⟨(u, s.2), .inl (.inl ⟨u, hu, rfl⟩)⟩
    · exact hst ⟨(u, s.2), .inr ⟨i, u, hu, rfl⟩⟩
  have henter : ∀ i < N, ∀ u, ¬(runOf resolution order p series pts mirrored eff).start s.2 i (pts i) u := by
    intro i hi u hu
    obtain ⟨y, hy⟩ := hrot i hi
    refine hst ⟨(s.1, u), .inl (.inr (.inr ⟨i, y, pts i, u, hy, ?_, hu, rfl⟩))⟩
    rw [rotating_points hqr hs hB.rate hk3 hf hq h h1 hy, hpts i hi]
  have hstep : ∀ u, ¬(runOf resolution order p series pts mirrored eff).step s.2 u :=
    fun u hu => hst ⟨(s.1, u), .inl (.inr (.inl ⟨u, hu, rfl⟩))⟩
  have hstarted : ∀ i < N, (runOf resolution order p series pts mirrored eff).started s.2 i = true := by
    intro i hi
    by_contra hns
    replace hns : (runOf resolution order p series pts mirrored eff).started s.2 i = false := by simpa using hns
    by_cases hsc' : p.selfCorrection = true
    · obtain ⟨u, hu⟩ | ⟨u, hu⟩ := (c2 hsc').ready h3 i hi hns
      · exact hstep u hu
      · exact henter i hi u hu
    · replace hsc' : p.selfCorrection = false := by simpa using hsc'
      obtain ⟨u, hu⟩ := crashed_cases hp hsc' (fun hx => hcr ⟨hsc', hx⟩) hi (show (segmentation p mirrored).started s.2.1 i = false from hns) (pts i)
      exact henter i hi (u, s.2.2) ⟨u, hu, rfl⟩
  intro i hi
  obtain ⟨r, hr⟩ := (c1 s.2 h3 hstarted).resolve_left (fun ⟨u, hu⟩ => hstep u hu) i hi
  exact ⟨r, hr, c3 s.2 h3 i hi r hr⟩

/-- A node which enters the segmentation while its neighbour has not can crash it. -/
theorem plain_race (hp : p.WellFormed) {i : Nat} (hi : i + 1 < N) (hv : validSteps p.rate ((pts (i + 1)).map toPt) ≠ []) :
    ∃ s : (plain p).S, (plain p).Run pts s ∧ SegNet.crashed s = true ∧ ∀ j, (plain p).started s j = decide (j = i + 1) := by
  obtain ⟨l, hl, hb⟩ := SegState.buildSegments_built hp (i + 1) {} ((pts (i + 1)).map toPt)
  obtain ⟨t, ht⟩ : ∃ t, l.sendTransition = some t := by
    rw [hb.sendTransition]
    obtain ⟨t, r, hr⟩ := List.exists_cons_of_ne_nil hv
    exact ⟨t, by rw [hr]; rfl⟩
  obtain ⟨pt, hpt⟩ : ∃ pt, l.sendPoint = some pt := by
    rw [hb.sendPoint, if_pos (by omega)]
    obtain ⟨x, r, hr⟩ := List.exists_cons_of_ne_nil (l := (pts (i + 1)).map toPt) (by
      intro h0
      rw [h0] at hv
      exact hv rfl)
    exact ⟨x, by rw [hr]; rfl⟩
  have h1 : (SegNet.segment p (fun _ => (pts (i + 1)).map toPt) SegNet.init (i + 1)).crashed = false ∧
      (SegNet.segment p (fun _ => (pts (i + 1)).map toPt) SegNet.init (i + 1)).first i = some (pt, t) ∧
      ∀ j, ((SegNet.segment p (fun _ => (pts (i + 1)).map toPt) SegNet.init (i + 1)).loc j).isSome = decide (j = i + 1) := by
    have hf : SegNet.trySend p SegNet.init.first (i + 1) l.sendPoint l.sendTransition i = some (pt, t) := by
      rw [hpt, ht]
      simp [SegNet.trySend, show ¬p.nClusterNodes ≤ 1 by omega]
    have hloc : ∀ (x : SegState) j, ((Function.update SegNet.init.loc (i + 1) (some x)) j).isSome = decide (j = i + 1) := by
      intro x j
      by_cases hj : j = i + 1
      · subst hj; simp
      · rw [Function.update_of_ne hj]
        simp [SegNet.init, hj]
    simp only [SegNet.segment, hl]
    split
    · exact ⟨rfl, hf, hloc _⟩
    · exact ⟨rfl, hf, hloc _⟩
  obtain ⟨h2, h3, h4⟩ := h1
  refine ⟨SegNet.handleFirst p (SegNet.segment p (fun _ => (pts (i + 1)).map toPt) SegNet.init (i + 1)) i pt t,
    .step (.start (i := i + 1) .init ⟨hi, rfl, rfl, rfl, h2⟩) ⟨h2, .inl ⟨i, pt, t, h3, rfl⟩⟩, ?_, ?_⟩
  · have h5 := h4 i
    rw [decide_eq_false (by omega)] at h5
    have h6 : (SegNet.segment p (fun _ => (pts (i + 1)).map toPt) SegNet.init (i + 1)).loc i = none := by simpa using h5
    simp only [SegNet.handleFirst, h6]
  · intro j
    have h5 := h4 i
    rw [decide_eq_false (by omega)] at h5
    have h6 : (SegNet.segment p (fun _ => (pts (i + 1)).map toPt) SegNet.init (i + 1)).loc i = none := by simpa using h5
    show ((SegNet.handleFirst p _ i pt t).loc j).isSome = _
    simp only [SegNet.handleFirst, h6]
    exact h4 j

/-- **C86 (the race).** Without self correction, under the same conditions, the crash can happen: there is a run in which node `i` has rotated its points but
not begun with the segmentation when the first point of node `i + 1` arrives, and node `i` crashes. -/
theorem C86_race (hqr : ∀ A, gram (lib.qr A) = gram A) (hs : ∀ m, Settled lib (windows w p series m)) (hp : p.WellFormed)
    (hk : 2 ≤ N) (hk3 : N ≤ 3) (hsc : p.selfCorrection = false) (hf : Fits p series.length) {q m : List Point}
    (hq : PointsOf lib p series q) (hm : q.mapM (mirrorPoint p.rate) = some m) (g : Good p series.length (Cluster.parts p series.length q m))
    (h : Loaded lib p series parts n first ps xs) (hpts : ∀ i < N, pts i = slice p series.length q i) {i : Nat} (hi : i + 1 < N) :
    ∃ s, (training lib resolution order p series n first ps xs pts mirrored eff).Run (fun _ => ()) s ∧ crashed p mirrored s.2.1 ∧
      ∀ j, (segmentation p mirrored).started s.2.1 j = decide (j = i + 1) := by
  have hB := base_of_points hp hk hf hq hm
  have hv : validSteps p.rate ((pts (i + 1)).map toPt) ≠ [] := by
    have := g.valid (i + 1) hi
    rwa [Cluster.parts, Whole.corrected, if_neg (by simp [hsc]), slice_map, ← hpts (i + 1) hi] at this
  have hseg : segmentation p mirrored = plain p := if_neg (by simp [hsc])
  have key : ∀ (A : Stage (List Point) (List Trans × NodeQuestions × Bool)) (hA : A = plain p), ∃ s : A.S, A.Run pts s ∧
      SegNet.crashed (cast (congrArg Stage.S hA) s) = true ∧ ∀ j, A.started s j = decide (j = i + 1) := by
    rintro _ rfl
    exact plain_race hp hi hv
  obtain ⟨s, h1, h2, h3⟩ := key _ hseg
  obtain ⟨t, t1, -, t2⟩ := (RotNet.rotation_terminates (k := N) (d := e + 1) (threads := decide (1 < p.nThreads))
    (init := fun m i => (xs i m).r) (comb := combine lib.qr) (rotm := matrices lib xs first) hf.pos hk3 (by omega) (fun _ => ())).stuck .init
  have hout : ∀ j < N, ∃ y, (rotating lib p first xs).out t j = some y :=
    ((RotNet.rotation_live (by omega) hk3 (by omega) (fun _ => ())).move t1).resolve_left t2
  refine ⟨(t, (s, _)), comp_run (run_laws hp hk) t1 (fun j hj => ?_) (comp_run_left h1), ⟨hseg, h2⟩, h3⟩
  obtain ⟨y, hy⟩ := hout j hj
  exact ⟨y, hy, by rw [rotating_points hqr hs hB.rate hk3 hf hq h t1 hy, hpts j hj]⟩

/-- **C86 (one node).** Under these conditions a run on two or three nodes with overlapping stages from the rotation on can deliver exactly the vectors of
one node, on every node. -/
theorem C86_one_node (hqr : ∀ A, gram (lib.qr A) = gram A) (hs : ∀ m, Settled lib (windows w p series m)) (hp : p.WellFormed)
    (hk : 2 ≤ N) (hk3 : N ≤ 3) (hf : Fits p series.length)
    (hc : ∀ i < N, 0 < count p series.length i ∧ Chunked p.nThreads (count p series.length i)) {q m : List Point}
    (hq : PointsOf lib p series q) (hm : q.mapM (mirrorPoint p.rate) = some m) (hdec : SameDecision p series.length q)
    (g : Good p series.length (Cluster.parts p series.length q m)) {i : Nat} (hi : i < N) (v : Option (List (Option ℚ))) :
    TrainingDelivers lib resolution order p series i v ↔ Whole.Delivers lib resolution order { p with nClusterNodes := 1 } series v :=
  (C86_overlap hp hk hk3 v).trans (C78_one_node hqr hs hp hk hk3 hf hc hq hm hdec g hi v)

theorem hCount : ∀ i < 2, 0 < count hP hSeries.length i ∧ Chunked hP.nThreads (count hP hSeries.length i) := by
  intro i _
  refine ⟨?_, .inl le_rfl⟩
  unfold count
  split <;> simp [hP, hSeries]

/-- The hypotheses hold for the wave of `ClusterRunExample.lean`: both nodes can deliver, and what they deliver is the vector of one node. -/
example (resolution order : Nat) : ∃ v, TrainingDelivers hLib resolution order hP hSeries 1 v ∧
    ∀ i < 2, ∀ v', TrainingDelivers hLib resolution order hP hSeries i v' ↔
      Whole.Delivers hLib resolution order { hP with nClusterNodes := 1 } hSeries v' := by
  obtain ⟨m, hm, _⟩ := mirrored_some (rate := hP.rate) (by decide) (hPoints.numbered (by decide)).2.2.coords
  have key : ∀ i < 2, ∀ v', TrainingDelivers hLib resolution order hP hSeries i v' ↔
      Whole.Delivers hLib resolution order { hP with nClusterNodes := 1 } hSeries v' := by
    intro i hi v'
    refine C86_one_node hLib_gram hLib_settled ⟨by decide, by decide⟩ (by decide) (by decide) hFits hCount hPoints hm (fun h => by cases h) ?_ hi v'
    show Good hP 9 (Cluster.parts hP 9 hPts m)
    rw [hParts_eq]
    exact hGood
  obtain ⟨v, hv⟩ := hDelivers resolution order
  exact ⟨v, (key 1 (by decide) v).2 hv, key⟩

/-- The hypotheses of `C86_over` and `C86_race` hold for the wave: there are data and points, and node 0 can crash. -/
example (resolution order : Nat) : ∃ parts n first ps xs, Loaded (e := 0) hLib hP hSeries parts n first ps xs ∧
    ∃ pts s, (training hLib resolution order hP hSeries n first ps xs pts pts pts).Run (fun _ => ()) s ∧ crashed hP pts s.2.1 := by
  obtain ⟨m, hm, _⟩ := mirrored_some (rate := hP.rate) (by decide) (hPoints.numbered (by decide)).2.2.coords
  obtain ⟨parts, n, first, ps, xs, h⟩ := loaded_exists (e := 0) (series := hSeries) hLib (w := 2) rfl hFits (by decide) hCount
  obtain ⟨s, h1, h2, -⟩ := C86_race (resolution := resolution) (order := order) (mirrored := slice hP hSeries.length hPts)
    (eff := slice hP hSeries.length hPts) hLib_gram hLib_settled ⟨by decide, by decide⟩ (by decide) (by decide) rfl hFits hPoints hm (by
      show Good hP 9 (Cluster.parts hP 9 hPts m)
      rw [hParts_eq]
      exact hGood) h (fun _ _ => rfl) (i := 0) (by decide)
  exact ⟨parts, n, first, ps, xs, h, _, s, h1, h2⟩

end Joint
end S2G
