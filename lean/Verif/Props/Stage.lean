import Verif.Model.Stage
import Verif.Props.NodeQA
import Verif.Props.RingExact

/-!
# Overlapping stages: every stage sees a run of its own
-/

namespace S2G
namespace Stage
variable {I O J Q C : Type} {n : Nat}

/-- What is needed of a stage: a node enters it at most once, only nodes which have entered it have a result, and results do not change. -/
structure Laws (A : Stage I O) (n : Nat) : Prop where
  init : ∀ i, A.started A.init i = false
  start : ∀ {s i x t}, A.start s i x t → i < n ∧ A.started s i = false ∧ A.started t = Function.update (A.started s) i true
  step : ∀ {s t}, A.step s t → A.started t = A.started s
  out : ∀ {f s i y}, A.Run f s → A.out s i = some y → A.started s i = true
  stableStart : ∀ {f s t i j y}, A.Run f s → A.start s j (f j) t → A.out s i = some y → A.out t i = some y
  stableStep : ∀ {f s t i y}, A.Run f s → A.step s t → A.out s i = some y → A.out t i = some y

section
variable {A : Stage I O} {B : Stage J Q} {glue : Nat → O → Option J}

theorem started_lt (hA : A.Laws n) {f : Nat → I} {s : A.S} (h : A.Run f s) {i : Nat} (hi : A.started s i = true) : i < n := by
  induction h with
  | init => rw [hA.init i] at hi; cases hi
  | @start s t j _ hs ih =>
    obtain ⟨h1, -, h2⟩ := hA.start hs
    rw [h2] at hi
    by_cases hji : i = j
    · subst hji; exact h1
    · rw [Function.update_of_ne hji] at hi
      exact ih hi
  | step _ hs ih => rw [hA.step hs] at hi; exact ih hi

/-- Only the inputs of the nodes which have entered the stage matter. -/
theorem run_congr (hA : A.Laws n) {f g : Nat → I} {s : A.S} (h : A.Run f s) (hfg : ∀ i, A.started s i = true → f i = g i) : A.Run g s := by
  induction h with
  | init => exact .init
  | @start s t i _ hs ih =>
    obtain ⟨-, h1, h2⟩ := hA.start hs
    have h3 : f i = g i := hfg i (by rw [h2]; exact Function.update_self ..)
    refine .start (i := i) (ih fun j hj => hfg j ?_) (h3 ▸ hs)
    rw [h2]
    by_cases hji : j = i
    · subst hji; exact Function.update_self ..
    · rw [Function.update_of_ne hji]; exact hj
  | step _ hs ih => exact .step (ih fun j hj => hfg j (by rw [hA.step hs]; exact hj)) hs

/-! ### One stage after the other -/

/-- A node which has entered the second stage has a result of the first one. -/
theorem comp_started (hA : A.Laws n) (hB : B.Laws n) {f : Nat → I} {s : (comp A glue B).S} (h : (comp A glue B).Run f s) :
    A.Run f s.1 ∧ ∀ i, B.started s.2 i = true → i < n ∧ ∃ y z, A.out s.1 i = some y ∧ glue i y = some z := by
  induction h with
  | init => exact ⟨.init, fun i hi => by rw [show B.started (comp A glue B).init.2 i = false from hB.init i] at hi; cases hi⟩
  | start _ hs ih =>
    obtain ⟨a, ha, rfl⟩ := hs
    refine ⟨.start ih.1 ha, fun i hi => ?_⟩
    obtain ⟨h1, y, z, h2, h3⟩ := ih.2 i hi
    exact ⟨h1, y, z, hA.stableStart ih.1 ha h2, h3⟩
  | step _ hs ih =>
    obtain ⟨a, ha, rfl⟩ | ⟨b, hb, rfl⟩ | ⟨i, y, z, b, hy, hz, hb, rfl⟩ := hs
    · refine ⟨.step ih.1 ha, fun i hi => ?_⟩
      obtain ⟨h1, y, z, h2, h3⟩ := ih.2 i hi
      exact ⟨h1, y, z, hA.stableStep ih.1 ha h2, h3⟩
    · exact ⟨ih.1, fun i hi => ih.2 i (by rw [← hB.step hb]; exact hi)⟩
    · refine ⟨ih.1, fun j hj => ?_⟩
      obtain ⟨h1, -, h2⟩ := hB.start hb
      by_cases hji : j = i
      · subst hji; exact ⟨h1, y, z, hy, hz⟩
      · refine ih.2 j ?_
        have : B.started b j = true := hj
        rwa [h2, Function.update_of_ne hji] at this

/-- **Projection.** In a run of both stages at the same time, the first one runs as if it were alone, and the second one runs as if its
inputs had been there from the beginning. -/
theorem run_comp (hA : A.Laws n) {f : Nat → I} {s : (comp A glue B).S} (h : (comp A glue B).Run f s) :
    A.Run f s.1 ∧ ∀ g : Nat → J, (∀ i y z, A.out s.1 i = some y → glue i y = some z → g i = z) → B.Run g s.2 := by
  induction h with
  | init => exact ⟨.init, fun g _ => .init⟩
  | start _ hs ih =>
    obtain ⟨a, ha, rfl⟩ := hs
    exact ⟨.start ih.1 ha, fun g hg => ih.2 g fun i y z hy hz => hg i y z (hA.stableStart ih.1 ha hy) hz⟩
  | step _ hs ih =>
    obtain ⟨a, ha, rfl⟩ | ⟨b, hb, rfl⟩ | ⟨i, y, z, b, hy, hz, hb, rfl⟩ := hs
    · exact ⟨.step ih.1 ha, fun g hg => ih.2 g fun i y z hy hz => hg i y z (hA.stableStep ih.1 ha hy) hz⟩
    · exact ⟨ih.1, fun g hg => .step (ih.2 g hg) hb⟩
    · refine ⟨ih.1, fun g hg => ?_⟩
      have := hg i y z hy hz
      exact .start (i := i) (ih.2 g hg) (this ▸ hb)

/-- Inputs of the second stage which fit a state of the first one. -/
theorem exists_inputs [Nonempty J] (A : Stage I O) (glue : Nat → O → Option J) (a : A.S) :
    ∃ g : Nat → J, ∀ i y z, A.out a i = some y → glue i y = some z → g i = z := by
  refine ⟨fun i => ((A.out a i).bind (glue i)).getD (Classical.arbitrary J), fun i y z hy hz => ?_⟩
  simp [hy, hz]

theorem comp_laws [Nonempty J] (hA : A.Laws n) (hB : B.Laws n) : (comp A glue B).Laws n where
  init := hA.init
  start := by
    rintro s i x t ⟨a, ha, rfl⟩
    exact hA.start ha
  step := by
    rintro s t (⟨a, ha, rfl⟩ | ⟨b, hb, rfl⟩ | ⟨i, y, z, b, hy, hz, hb, rfl⟩)
    · exact hA.step ha
    · rfl
    · rfl
  out := by
    intro f s i y h hy
    obtain ⟨g, hg⟩ := exists_inputs A glue s.1
    have h1 := hB.out ((run_comp hA h).2 g hg) hy
    obtain ⟨-, y', z, h2, -⟩ := (comp_started hA hB h).2 i h1
    exact hA.out (comp_started hA hB h).1 h2
  stableStart := by
    rintro f s t i j y h ⟨a, ha, rfl⟩ hy
    exact hy
  stableStep := by
    rintro f s t i y h (⟨a, ha, rfl⟩ | ⟨b, hb, rfl⟩ | ⟨j, x, z, b, hx, hz, hb, rfl⟩) hy
    · exact hy
    · obtain ⟨g, hg⟩ := exists_inputs A glue s.1
      exact hB.stableStep ((run_comp hA h).2 g hg) hb hy
    · obtain ⟨g, hg⟩ := exists_inputs A glue s.1
      have := hg j x z hx hz
      exact hB.stableStart ((run_comp hA h).2 g hg) (this ▸ hb) hy

theorem comp_first {f : Nat → I} {a : A.S} (ha : A.Run f a) : (comp A glue B).Run f (a, B.init) := by
  induction ha with
  | init => exact .init
  | @start s t i _ hs ih => exact .start (i := i) ih ⟨t, hs, rfl⟩
  | @step s t _ hs ih => exact .step ih (.inl ⟨t, hs, rfl⟩)

/-- **Sequential runs are runs.** First the first stage until every node has its result, then the second one. -/
theorem comp_run (hB : B.Laws n) {f : Nat → I} {g : Nat → J} {a : A.S} {b : B.S} (ha : A.Run f a)
    (ho : ∀ i < n, ∃ y, A.out a i = some y ∧ glue i y = some (g i)) (hb : B.Run g b) : (comp A glue B).Run f (a, b) := by
  induction hb with
  | init => exact comp_first ha
  | @start s t i _ hs ih =>
    obtain ⟨y, hy, hz⟩ := ho i (hB.start hs).1
    exact .step ih (.inr (.inr ⟨i, y, g i, t, hy, hz, hs, rfl⟩))
  | @step s t _ hs ih => exact .step ih (.inr (.inl ⟨t, hs, rfl⟩))

/-! ### Keeping something for later -/

theorem run_carry (hA : A.Laws n) {f : Nat → I × C} {s : (carry C A).S} (h : (carry C A).Run f s) :
    A.Run (fun i => (f i).1) s.1 ∧ s.2 = fun i => if A.started s.1 i then some (f i).2 else none := by
  induction h with
  | init => exact ⟨.init, funext fun i => by rw [show A.started (carry C A).init.1 i = false from hA.init i]; rfl⟩
  | @start s t i _ hs ih =>
    obtain ⟨a, ha, rfl⟩ := hs
    refine ⟨.start (i := i) ih.1 ha, funext fun j => ?_⟩
    dsimp only
    rw [(hA.start ha).2.2, ih.2]
    by_cases hji : j = i
    · subst hji; simp
    · rw [Function.update_of_ne hji, Function.update_of_ne hji]
  | step _ hs ih =>
    obtain ⟨a, ha, rfl⟩ := hs
    refine ⟨.step ih.1 ha, ?_⟩
    dsimp only
    rw [hA.step ha]
    exact ih.2

theorem carry_out (hA : A.Laws n) {f : Nat → I × C} {s : (carry C A).S} (h : (carry C A).Run f s) (i : Nat) :
    (carry C A).out s i = (A.out s.1 i).map (fun y => (y, (f i).2)) := by
  obtain ⟨h1, h2⟩ := run_carry hA h
  show (A.out s.1 i).bind (fun y => (s.2 i).map (fun c => (y, c))) = _
  cases hy : A.out s.1 i with
  | none => rfl
  | some y => rw [h2]; simp [hA.out h1 hy]

theorem carry_laws (hA : A.Laws n) : (carry C A).Laws n where
  init := hA.init
  start := by
    rintro s i x t ⟨a, ha, rfl⟩
    exact hA.start ha
  step := by
    rintro s t ⟨a, ha, rfl⟩
    exact hA.step ha
  out := by
    intro f s i y h hy
    rw [carry_out hA h] at hy
    obtain ⟨z, hz, -⟩ := Option.map_eq_some_iff.1 hy
    exact hA.out (run_carry hA h).1 hz
  stableStart := by
    intro f s t i j y h hs hy
    rw [carry_out hA (.start (i := j) h hs)]
    rw [carry_out hA h] at hy
    obtain ⟨z, hz, rfl⟩ := Option.map_eq_some_iff.1 hy
    obtain ⟨a, ha, rfl⟩ := hs
    rw [hA.stableStart (run_carry hA h).1 ha hz]
    rfl
  stableStep := by
    intro f s t i y h hs hy
    rw [carry_out hA (.step h hs)]
    rw [carry_out hA h] at hy
    obtain ⟨z, hz, rfl⟩ := Option.map_eq_some_iff.1 hy
    obtain ⟨a, ha, rfl⟩ := hs
    rw [hA.stableStep (run_carry hA h).1 ha hz]
    rfl

theorem carry_run {f : Nat → I × C} {a : A.S} (h : A.Run (fun i => (f i).1) a) : ∃ s, (carry C A).Run f s ∧ s.1 = a := by
  induction h with
  | init => exact ⟨_, .init, rfl⟩
  | @start s t i _ hs ih =>
    obtain ⟨u, hu, rfl⟩ := ih
    exact ⟨_, .start (i := i) hu ⟨t, hs, rfl⟩, rfl⟩
  | @step s t _ hs ih =>
    obtain ⟨u, hu, rfl⟩ := ih
    exact ⟨_, .step hu ⟨t, hs, rfl⟩, rfl⟩

/-! ### Two stages at the same time -/

theorem run_both (hA : A.Laws n) (hB : B.Laws n) {f : Nat → I × J} {s : (both A B).S} (h : (both A B).Run f s) :
    A.Run (fun i => (f i).1) s.1 ∧ B.Run (fun i => (f i).2) s.2 ∧ A.started s.1 = B.started s.2 := by
  induction h with
  | init => exact ⟨.init, .init, funext fun i => (hA.init i).trans (hB.init i).symm⟩
  | @start s t i _ hs ih =>
    obtain ⟨a, b, ha, hb, rfl⟩ := hs
    refine ⟨.start (i := i) ih.1 ha, .start (i := i) ih.2.1 hb, ?_⟩
    dsimp only
    rw [(hA.start ha).2.2, (hB.start hb).2.2, ih.2.2]
  | step _ hs ih =>
    obtain ⟨a, ha, rfl⟩ | ⟨b, hb, rfl⟩ := hs
    · exact ⟨.step ih.1 ha, ih.2.1, (hA.step ha).trans ih.2.2⟩
    · exact ⟨ih.1, .step ih.2.1 hb, ih.2.2.trans (hB.step hb).symm⟩

theorem both_out_iff {s : (both A B).S} {i : Nat} {y : O} {z : Q} :
    (both A B).out s i = some (y, z) ↔ A.out s.1 i = some y ∧ B.out s.2 i = some z := by
  show (A.out s.1 i).bind (fun y => (B.out s.2 i).map (fun z => (y, z))) = _ ↔ _
  cases A.out s.1 i <;> cases B.out s.2 i <;> simp

theorem both_laws (hA : A.Laws n) (hB : B.Laws n) : (both A B).Laws n where
  init := hA.init
  start := by
    rintro s i x t ⟨a, b, ha, hb, rfl⟩
    exact hA.start ha
  step := by
    rintro s t (⟨a, ha, rfl⟩ | ⟨b, hb, rfl⟩)
    · exact hA.step ha
    · rfl
  out := by
    rintro f s i ⟨y, z⟩ h hy
    exact hA.out (run_both hA hB h).1 (both_out_iff.1 hy).1
  stableStart := by
    rintro f s t i j ⟨y, z⟩ h ⟨a, b, ha, hb, rfl⟩ hy
    obtain ⟨h1, h2, -⟩ := run_both hA hB h
    obtain ⟨h3, h4⟩ := both_out_iff.1 hy
    exact both_out_iff.2 ⟨hA.stableStart h1 ha h3, hB.stableStart h2 hb h4⟩
  stableStep := by
    rintro f s t i ⟨y, z⟩ h (⟨a, ha, rfl⟩ | ⟨b, hb, rfl⟩) hy
    all_goals
      obtain ⟨h1, h2, -⟩ := run_both hA hB h
      obtain ⟨h3, h4⟩ := both_out_iff.1 hy
    · exact both_out_iff.2 ⟨hA.stableStep h1 ha h3, h4⟩
    · exact both_out_iff.2 ⟨h3, hB.stableStep h2 hb h4⟩

/-- Runs in which all nodes enter the stage before anything else happens. -/
inductive Sync (A : Stage I O) (f : Nat → I) : Nat → A.S → Prop
  | init : Sync A f 0 A.init
  | start {s t : A.S} {i : Nat} : Sync A f i s → A.start s i (f i) t → Sync A f (i + 1) t

/-- Messages are handled. -/
inductive Steps (A : Stage I O) : A.S → A.S → Prop
  | refl (s) : Steps A s s
  | step {s t u : A.S} : Steps A s t → A.step t u → Steps A s u

theorem Sync.run {f : Nat → I} {k : Nat} {s : A.S} (h : A.Sync f k s) : A.Run f s := by
  induction h with
  | init => exact .init
  | @start s t i _ hs ih => exact .start (i := i) ih hs

theorem Steps.run {f : Nat → I} {s t : A.S} (h : A.Steps s t) (hs : A.Run f s) : A.Run f t := by
  induction h with
  | refl => exact hs
  | step _ h ih => exact .step ih h

theorem Steps.trans {s t u : A.S} (h : A.Steps s t) (h' : A.Steps t u) : A.Steps s u := by
  induction h' with
  | refl => exact h
  | step _ hs ih => exact .step ih hs

theorem both_sync {f : Nat → I × J} : ∀ {k : Nat} {a : A.S} {b : B.S}, A.Sync (fun i => (f i).1) k a → B.Sync (fun i => (f i).2) k b →
    (both A B).Sync f k (a, b) := by
  intro k
  induction k with
  | zero => intro a b ha hb; cases ha; cases hb; exact .init
  | succ k ih =>
    intro a b ha hb
    cases ha with
    | start ha h1 => cases hb with
      | start hb h2 => exact .start (ih ha hb) ⟨_, _, h1, h2, rfl⟩

theorem both_run {f : Nat → I × J} {k : Nat} {a a' : A.S} {b b' : B.S} (ha : A.Sync (fun i => (f i).1) k a)
    (hb : B.Sync (fun i => (f i).2) k b) (ha' : A.Steps a a') (hb' : B.Steps b b') : (both A B).Run f (a', b') := by
  have h0 : (both A B).Run f (a, b) := (both_sync ha hb).run
  have h1 : (both A B).Run f (a', b) := by
    induction ha' with
    | refl => exact h0
    | step _ h ih => exact .step ih (.inl ⟨_, h, rfl⟩)
  induction hb' with
  | refl => exact h1
  | step _ h ih => exact .step ih (.inr ⟨_, h, rfl⟩)

/-! ### Runs which are over on all nodes -/

/-- The stage can end with the results `y` on the nodes `0 … n - 1`. -/
def Ends (A : Stage I O) (n : Nat) (f : Nat → I) (y : Nat → O) : Prop :=
  ∃ s, A.Run f s ∧ ∀ i < n, A.out s i = some (y i)

theorem Ends.congr (hA : A.Laws n) {f g : Nat → I} {y z : Nat → O} (h : A.Ends n f y) (hf : ∀ i < n, f i = g i) (hy : ∀ i < n, y i = z i) :
    A.Ends n g z := by
  obtain ⟨s, h1, h2⟩ := h
  exact ⟨s, run_congr hA h1 fun i hi => hf i (started_lt hA h1 hi), fun i hi => (h2 i hi).trans (congrArg some (hy i hi))⟩

/-- **Overlapping stages end exactly as the same stages one after the other.** -/
theorem comp_ends [Nonempty O] [Nonempty J] (hA : A.Laws n) (hB : B.Laws n) {f : Nat → I} {z : Nat → Q} :
    (comp A glue B).Ends n f z ↔ ∃ y g, A.Ends n f y ∧ (∀ i < n, glue i (y i) = some (g i)) ∧ B.Ends n g z := by
  constructor
  · rintro ⟨s, hs, hz⟩
    obtain ⟨h1, h2⟩ := comp_started hA hB hs
    obtain ⟨-, h3⟩ := run_comp hA hs
    obtain ⟨g0, hg0⟩ := exists_inputs A glue s.1
    have h4 : ∀ i, ∃ yg : O × J, i < n → A.out s.1 i = some yg.1 ∧ glue i yg.1 = some yg.2 := by
      intro i
      by_cases hi : i < n
      · obtain ⟨-, y, g, hy, hg⟩ := h2 i (hB.out (h3 g0 hg0) (hz i hi))
        exact ⟨(y, g), fun _ => ⟨hy, hg⟩⟩
      · exact ⟨Classical.arbitrary _, fun h => absurd h hi⟩
    choose yg hyg using h4
    refine ⟨fun i => (yg i).1, fun i => (yg i).2, ⟨s.1, h1, fun i hi => (hyg i hi).1⟩, fun i hi => (hyg i hi).2, s.2, h3 _ ?_, hz⟩
    intro i y z hy hz
    have hi : i < n := started_lt hA h1 (hA.out h1 hy)
    obtain ⟨h5, h6⟩ := hyg i hi
    cases h5.symm.trans hy
    exact Option.some.inj (h6.symm.trans hz)
  · rintro ⟨y, g, ⟨a, ha, hya⟩, hg, b, hb, hz⟩
    exact ⟨(a, b), comp_run hB ha (fun i hi => ⟨y i, hya i hi, hg i hi⟩) hb, hz⟩

theorem carry_ends (hA : A.Laws n) {f : Nat → I × C} {y : Nat → O × C} :
    (carry C A).Ends n f y ↔ A.Ends n (fun i => (f i).1) (fun i => (y i).1) ∧ ∀ i < n, (y i).2 = (f i).2 := by
  constructor
  · rintro ⟨s, hs, hy⟩
    have h1 : ∀ i < n, A.out s.1 i = some (y i).1 ∧ (y i).2 = (f i).2 := by
      intro i hi
      have := hy i hi
      rw [carry_out hA hs] at this
      obtain ⟨z, hz, hzy⟩ := Option.map_eq_some_iff.1 this
      rw [← hzy]
      exact ⟨hz, rfl⟩
    exact ⟨⟨s.1, (run_carry hA hs).1, fun i hi => (h1 i hi).1⟩, fun i hi => (h1 i hi).2⟩
  · rintro ⟨⟨a, ha, hy⟩, h2⟩
    obtain ⟨s, hs, rfl⟩ := carry_run ha
    refine ⟨s, hs, fun i hi => ?_⟩
    rw [carry_out hA hs, hy i hi, Option.map_some, ← h2 i hi]

theorem both_ends (hA : A.Laws n) (hB : B.Laws n) {f : Nat → I × J} {y : Nat → O × Q} (h : (both A B).Ends n f y) :
    A.Ends n (fun i => (f i).1) (fun i => (y i).1) ∧ B.Ends n (fun i => (f i).2) (fun i => (y i).2) := by
  obtain ⟨s, hs, hy⟩ := h
  obtain ⟨h1, h2, -⟩ := run_both hA hB hs
  exact ⟨⟨s.1, h1, fun i hi => (both_out_iff.1 (hy i hi)).1⟩, s.2, h2, fun i hi => (both_out_iff.1 (hy i hi)).2⟩

end
end Stage
end S2G
