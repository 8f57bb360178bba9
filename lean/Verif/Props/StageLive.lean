import Verif.Props.JointRun

/-!
# Overlapping stages: no deadlock, no infinite run
-/

namespace S2G
namespace Stage
variable {I O J Q C : Type} {n : Nat}

/-- One step of a run with the inputs `f`: a message is handled or a node enters the stage. -/
def Move (A : Stage I O) (f : Nat → I) (s t : A.S) : Prop := A.step s t ∨ ∃ i, A.start s i (f i) t

/-- Nothing is stuck: a node which has not entered the stage can enter it, or a message can be handled first; and when all nodes have entered
the stage, all have a result or a message can be handled. -/
structure Live (A : Stage I O) (n : Nat) (f : Nat → I) : Prop where
  ready : ∀ {s}, A.Run f s → ∀ i < n, A.started s i = false → (∃ t, A.step s t) ∨ ∃ t, A.start s i (f i) t
  finish : ∀ {s}, A.Run f s → (∀ i < n, A.started s i = true) → (∃ t, A.step s t) ∨ ∀ i < n, ∃ y, A.out s i = some y

/-- When all nodes have entered the stage, all have a result or a message can be handled. -/
def Finishes (A : Stage I O) (n : Nat) (f : Nat → I) : Prop :=
  ∀ s, A.Run f s → (∀ i < n, A.started s i = true) → (∃ t, A.step s t) ∨ ∀ i < n, ∃ y, A.out s i = some y

/-- There is no infinite run. -/
def Terminates (A : Stage I O) (f : Nat → I) : Prop := WellFounded (fun t s : A.S => A.Run f s ∧ A.Move f s t)

section
variable {A : Stage I O} {B : Stage J Q} {glue : Nat → O → Option J}

theorem Run.move {f : Nat → I} {s t : A.S} (h : A.Run f s) (hm : A.Move f s t) : A.Run f t := by
  obtain hm | ⟨i, hm⟩ := hm
  · exact .step h hm
  · exact .start (i := i) h hm

theorem Live.move {f : Nat → I} (h : A.Live n f) {s : A.S} (hs : A.Run f s) : (∃ t, A.Move f s t) ∨ ∀ i < n, ∃ y, A.out s i = some y := by
  by_cases hall : ∀ i < n, A.started s i = true
  · obtain ⟨t, ht⟩ | h1 := h.finish hs hall
    · exact .inl ⟨t, .inl ht⟩
    · exact .inr h1
  · push Not at hall
    obtain ⟨i, hi, hne⟩ := hall
    obtain ⟨t, ht⟩ | ⟨t, ht⟩ := h.ready hs i hi (by simpa using hne)
    · exact .inl ⟨t, .inl ht⟩
    · exact .inl ⟨t, .inr ⟨i, ht⟩⟩

theorem Live.congr (hA : A.Laws n) {f g : Nat → I} (h : A.Live n f) (hfg : ∀ i < n, f i = g i) : A.Live n g where
  ready := fun {s} hs i hi hst => by
    rw [← hfg i hi]
    exact h.ready (run_congr hA hs fun j hj => (hfg j (started_lt hA hs hj)).symm) i hi hst
  finish := fun {s} hs => h.finish (run_congr hA hs fun j hj => (hfg j (started_lt hA hs hj)).symm)

theorem comp_finishes [Nonempty O] (hA : A.Laws n) (hB : B.Laws n) {f : Nat → I} (h : A.Finishes n f)
    (hg : ∀ y, A.Ends n f y → ∃ g, (∀ i < n, glue i (y i) = some (g i)) ∧ B.Live n g) : (comp A glue B).Finishes n f := by
  intro s hs hall
  obtain ⟨h1, h2⟩ := run_comp hA hs
  obtain ⟨t, ht⟩ | h3 := h s.1 h1 hall
  · exact .inl ⟨_, .inl ⟨t, ht, rfl⟩⟩
  · obtain ⟨y, hy⟩ : ∃ y : Nat → O, ∀ i < n, A.out s.1 i = some (y i) := by
      have : ∀ i, ∃ y, i < n → A.out s.1 i = some y := fun i => by
        by_cases hi : i < n
        · obtain ⟨y, hy⟩ := h3 i hi
          exact ⟨y, fun _ => hy⟩
        · exact ⟨Classical.arbitrary O, fun h => absurd h hi⟩
      choose y hy using this
      exact ⟨y, hy⟩
    obtain ⟨g, hg1, hg2⟩ := hg y ⟨s.1, h1, hy⟩
    have h4 : B.Run g s.2 := h2 g fun i u z hu hz => by
      have hi := started_lt hA h1 (hA.out h1 hu)
      cases (hy i hi).symm.trans hu
      exact Option.some.inj ((hg1 i hi).symm.trans hz)
    obtain ⟨t, ht | ⟨i, ht⟩⟩ | h5 := hg2.move h4
    · exact .inl ⟨_, .inr (.inl ⟨t, ht, rfl⟩)⟩
    · have hi := (hB.start ht).1
      exact .inl ⟨_, .inr (.inr ⟨i, y i, g i, t, hy i hi, hg1 i hi, ht, rfl⟩)⟩
    · exact .inr h5

/-- Stages one after the other which overlap: if the first one is never stuck, what happens between the two does not panic, and the second one is
never stuck with the inputs it gets, then nothing is stuck. -/
theorem comp_live [Nonempty O] (hA : A.Laws n) (hB : B.Laws n) {f : Nat → I} (h : A.Live n f)
    (hg : ∀ y, A.Ends n f y → ∃ g, (∀ i < n, glue i (y i) = some (g i)) ∧ B.Live n g) : (comp A glue B).Live n f where
  ready := by
    intro s hs i hi hst
    obtain ⟨t, ht⟩ | ⟨t, ht⟩ := h.ready (run_comp hA hs).1 i hi hst
    · exact .inl ⟨_, .inl ⟨t, ht, rfl⟩⟩
    · exact .inr ⟨_, t, ht, rfl⟩
  finish := fun {s} hs hall => comp_finishes hA hB (fun _ hs hall => h.finish hs hall) hg s hs hall

theorem comp_terminates [Nonempty J] (hA : A.Laws n) {f : Nat → I} (h : A.Terminates f) (hB : ∀ g, B.Terminates g) : (comp A glue B).Terminates f := by
  have key : ∀ a : A.S, ∀ b : B.S, Acc (fun t s : (comp A glue B).S => (comp A glue B).Run f s ∧ (comp A glue B).Move f s t) (a, b) := by
    intro a
    induction h.apply a with
    | intro a _ iha =>
      obtain ⟨g, hg⟩ := exists_inputs A glue a
      intro b
      induction (hB g).apply b with
      | intro b _ ihb =>
        refine ⟨_, ?_⟩
        rintro t ⟨hr, hm⟩
        obtain ⟨h1, h2⟩ := run_comp hA hr
        obtain (⟨a', ha, rfl⟩ | ⟨b', hb, rfl⟩ | ⟨i, y, z, b', hy, hz, hb, rfl⟩) | ⟨i, a', ha, rfl⟩ := hm
        · exact iha a' ⟨h1, .inl ha⟩ b
        · exact ihb b' ⟨h2 g hg, .inl hb⟩
        · refine ihb b' ⟨h2 g hg, .inr ⟨i, ?_⟩⟩
          rw [hg i y z hy hz]
          exact hb
        · exact iha a' ⟨h1, .inr ⟨i, ha⟩⟩ b
  exact ⟨fun s => key s.1 s.2⟩

theorem carry_live (hA : A.Laws n) {f : Nat → I × C} (h : A.Live n fun i => (f i).1) : (carry C A).Live n f where
  ready := by
    intro s hs i hi hst
    obtain ⟨t, ht⟩ | ⟨t, ht⟩ := h.ready (run_carry hA hs).1 i hi hst
    · exact .inl ⟨_, t, ht, rfl⟩
    · exact .inr ⟨_, t, ht, rfl⟩
  finish := by
    intro s hs hall
    obtain ⟨t, ht⟩ | h1 := h.finish (run_carry hA hs).1 hall
    · exact .inl ⟨_, t, ht, rfl⟩
    · refine .inr fun i hi => ?_
      obtain ⟨y, hy⟩ := h1 i hi
      exact ⟨_, (carry_out hA hs i).trans (by rw [hy]; rfl)⟩

theorem carry_terminates (hA : A.Laws n) {f : Nat → I × C} (h : A.Terminates fun i => (f i).1) : (carry C A).Terminates f := by
  refine Subrelation.wf (r := InvImage (fun t s : A.S => A.Run (fun i => (f i).1) s ∧ A.Move (fun i => (f i).1) s t) Prod.fst) ?_
    (InvImage.wf _ h)
  rintro t s ⟨hs, hm⟩
  refine ⟨(run_carry hA hs).1, ?_⟩
  obtain ⟨a, ha, rfl⟩ | ⟨i, a, ha, rfl⟩ := hm
  · exact .inl ha
  · exact .inr ⟨i, ha⟩

theorem both_live (hA : A.Laws n) (hB : B.Laws n) {f : Nat → I × J} (h : A.Live n fun i => (f i).1) (h' : B.Live n fun i => (f i).2) :
    (both A B).Live n f where
  ready := by
    intro s hs i hi hst
    obtain ⟨h1, h2, h3⟩ := run_both hA hB hs
    obtain ⟨t, ht⟩ | ⟨t, ht⟩ := h.ready h1 i hi hst
    · exact .inl ⟨_, .inl ⟨t, ht, rfl⟩⟩
    · obtain ⟨u, hu⟩ | ⟨u, hu⟩ := h'.ready h2 i hi (by rw [← h3]; exact hst)
      · exact .inl ⟨_, .inr ⟨u, hu, rfl⟩⟩
      · exact .inr ⟨_, t, u, ht, hu, rfl⟩
  finish := by
    intro s hs hall
    obtain ⟨h1, h2, h3⟩ := run_both hA hB hs
    obtain ⟨t, ht⟩ | h4 := h.finish h1 hall
    · exact .inl ⟨_, .inl ⟨t, ht, rfl⟩⟩
    · obtain ⟨u, hu⟩ | h5 := h'.finish h2 (fun i hi => by rw [← h3]; exact hall i hi)
      · exact .inl ⟨_, .inr ⟨u, hu, rfl⟩⟩
      · refine .inr fun i hi => ?_
        obtain ⟨y, hy⟩ := h4 i hi
        obtain ⟨z, hz⟩ := h5 i hi
        exact ⟨(y, z), both_out_iff.2 ⟨hy, hz⟩⟩

theorem both_terminates (hA : A.Laws n) (hB : B.Laws n) {f : Nat → I × J} (h : A.Terminates fun i => (f i).1) (h' : B.Terminates fun i => (f i).2) :
    (both A B).Terminates f := by
  have key : ∀ a : A.S, ∀ b : B.S, Acc (fun t s : (both A B).S => (both A B).Run f s ∧ (both A B).Move f s t) (a, b) := by
    intro a
    induction h.apply a with
    | intro a _ iha =>
      intro b
      induction h'.apply b with
      | intro b _ ihb =>
        refine ⟨_, ?_⟩
        rintro t ⟨hr, hm⟩
        obtain ⟨h1, h2, -⟩ := run_both hA hB hr
        obtain (⟨a', ha, rfl⟩ | ⟨b', hb, rfl⟩) | ⟨i, a', b', ha, hb, rfl⟩ := hm
        · exact iha a' ⟨h1, .inl ha⟩ b
        · exact ihb b' ⟨h2, .inl hb⟩
        · exact iha a' ⟨h1, .inr ⟨i, ha⟩⟩ b'
  exact ⟨fun s => key s.1 s.2⟩

/-- A measure which every step lowers. -/
theorem terminates_of {f : Nat → I} (μ : A.S → Nat) (h : ∀ s t, A.Run f s → A.Move f s t → μ t < μ s) : A.Terminates f :=
  Subrelation.wf (r := InvImage (· < ·) μ) (fun {t s} hm => h s t hm.1 hm.2) (InvImage.wf μ Nat.lt_wfRel.wf)

/-- Two measures of which every step lowers the first one, or keeps it and lowers the second one. -/
theorem terminates_of₂ {f : Nat → I} (μ ν : A.S → Nat) (h : ∀ s t, A.Run f s → A.Move f s t → μ t < μ s ∨ μ t = μ s ∧ ν t < ν s) : A.Terminates f :=
  Subrelation.wf (r := InvImage (Prod.Lex (· < ·) (· < ·)) fun s => (μ s, ν s)) (fun {t s} hm => by
    rcases h s t hm.1 hm.2 with h1 | ⟨h1, h2⟩
    · exact Prod.Lex.left _ _ h1
    · show Prod.Lex (· < ·) (· < ·) (μ t, ν t) (μ s, ν s)
      rw [h1]
      exact Prod.Lex.right _ h2) (InvImage.wf _ (WellFounded.prod_lex Nat.lt_wfRel.wf Nat.lt_wfRel.wf))

/-- In a stage which is never stuck and has no infinite run, every run can be continued until all nodes have a result — and, whatever is done, it is
at last. -/
theorem Live.over {f : Nat → I} (h : A.Live n f) (h' : A.Terminates f) {s : A.S} (hs : A.Run f s) :
    ∃ t, A.Run f t ∧ Relation.ReflTransGen (A.Move f) s t ∧ ∀ i < n, ∃ y, A.out t i = some y := by
  induction h'.apply s with
  | intro s _ ih =>
    obtain ⟨t, ht⟩ | h1 := h.move hs
    · obtain ⟨u, h2, h3, h4⟩ := ih t ⟨hs, ht⟩ (hs.move ht)
      exact ⟨u, h2, .head ht h3, h4⟩
    · exact ⟨s, hs, .refl, h1⟩

/-- When all nodes have entered the stage, every run can be continued by handling messages until all nodes have a result. -/
theorem Finishes.over (hA : A.Laws n) {f : Nat → I} (h : A.Finishes n f) (h' : A.Terminates f) {s : A.S} (hs : A.Run f s)
    (hall : ∀ i < n, A.started s i = true) : ∃ t, A.Run f t ∧ Relation.ReflTransGen A.step s t ∧ ∀ i < n, ∃ y, A.out t i = some y := by
  induction h'.apply s with
  | intro s _ ih =>
    obtain ⟨t, ht⟩ | h1 := h s hs hall
    · obtain ⟨u, h2, h3, h4⟩ := ih t ⟨hs, .inl ht⟩ (.step hs ht) fun i hi => by rw [hA.step ht]; exact hall i hi
      exact ⟨u, h2, .head ht h3, h4⟩
    · exact ⟨s, hs, .refl, h1⟩

/-- No infinite run, as sequences. -/
theorem Terminates.sequence {f : Nat → I} (h : A.Terminates f) : ¬ ∃ u : Nat → A.S, A.Run f (u 0) ∧ ∀ k, A.Move f (u k) (u (k + 1)) := by
  rintro ⟨u, h0, hu⟩
  have hr : ∀ k, A.Run f (u k) := fun k => by
    induction k with
    | zero => exact h0
    | succ k ih => exact ih.move (hu k)
  have key : ∀ s, ∀ k, u k ≠ s := by
    intro s
    induction h.apply s with
    | intro s _ ih =>
      rintro k rfl
      exact ih (u (k + 1)) ⟨hr k, hu k⟩ (k + 1) rfl
  exact key (u 0) 0 rfl

end

/-! ### Exchanges and rotations -/

section
variable {L P : Type} {prep : Nat → I → Option L} {body : L → Nat → P} {result : Nat → L → List (DMsg P) → O} {pay : Nat → Nat → P}

theorem direct_live {f : Nat → I} (h : ∀ i < n, ∃ l, prep i (f i) = some l) : (direct n prep body result pay).Live n f where
  ready := by
    intro s hs i hi hst
    obtain ⟨l, hl⟩ := h i hi
    exact .inr ⟨_, hi, hst, l, hl, rfl⟩
  finish := by
    intro s hs hall
    cases hp : s.2.pool with
    | cons m post => exact .inl ⟨_, [], m, post, hp, rfl⟩
    | nil =>
      refine .inr fun i hi => ?_
      obtain ⟨l, hl⟩ := h i hi
      exact ⟨_, (direct_out hs).2 ⟨hi, DirectNet.C17_quiescent_done (direct_run hs).1 hall hp hi, l, hl, rfl⟩⟩

theorem direct_terminates (f : Nat → I) : (direct n prep body result pay).Terminates f := by
  refine terminates_of (fun s => DirectNet.remaining n s.2) fun s t hs hm => ?_
  refine DirectNet.C17_terminates (direct_run hs).1 ?_
  obtain ⟨pre, m, post, hm, rfl⟩ | ⟨i, hi, hst, l, hl, rfl⟩ := hm
  · exact .handle _ pre post m hm
  · exact .start _ i _ hi hst

end

section
variable {P : Type} {pay : Nat → P} {result : P → List (RMsg P) → Nat → O}

theorem ring_live (hn : 2 ≤ n) (f : Nat → P) : (ring n pay result).Live n f where
  ready := by
    intro s hs i hi hst
    cases hm : RingNet.mailbox s i with
    | nil => exact .inr ⟨_, hi, hst, .inl hm, rfl⟩
    | cons m rest => exact .inl ⟨_, .inr ⟨i, m, rest, hi, hm, rfl⟩⟩
  finish := by
    intro s hs hall
    by_cases h1 : ∃ i < n, RingNet.mailbox s i ≠ []
    · obtain ⟨i, hi, hne⟩ := h1
      obtain ⟨m, rest, hm⟩ := List.exists_cons_of_ne_nil hne
      exact .inl ⟨_, .inr ⟨i, m, rest, hi, hm, rfl⟩⟩
    · by_cases h2 : ∃ i < n, RingNet.net s i ≠ []
      · obtain ⟨i, hi, hne⟩ := h2
        obtain ⟨m, rest, hm⟩ := List.exists_cons_of_ne_nil hne
        exact .inl ⟨_, .inl ⟨i, m, rest, hi, hm, rfl⟩⟩
      · push Not at h1 h2
        exact .inr fun i hi => ⟨_, ring_out.2 ⟨hi, RingNet.C18_quiescent_done hn (ring_run hs).1 hall (fun j hj => ⟨h1 j hj, h2 j hj⟩) hi, rfl⟩⟩

theorem ring_terminates (hn : 2 ≤ n) (f : Nat → P) : (ring n pay result).Terminates f := by
  refine terminates_of (fun s => RingNet.remaining n s) fun s t hs hm => ?_
  refine RingNet.C18_terminates hn (ring_run hs).1 ?_
  obtain (⟨i, m, rest, hi, hm, rfl⟩ | ⟨i, m, rest, hi, hm, rfl⟩) | ⟨i, hi, hst, hb, rfl⟩ := hm
  · exact .arrive s i m rest hi hm
  · exact .handle s i m rest hi hm
  · exact .start s i _ hi hst fun _ => hb

end
end Stage
end S2G
