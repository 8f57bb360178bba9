import Verif.Props.EdgesWalk
import Verif.Props.NodeQuestions
import Verif.Props.NodeQA

/-!
# C43: the edges of all nodes together
-/

namespace S2G

/-! ### Successions along the whole series -/

/-- Points and segments of the nodes of a series of steps, in temporal order and direction of travel. -/
def keysOf (rate : Nat) (ts : List Trans) : List (Nat × Nat) := ts.flatMap (stepKeys rate)

/-- Two keys as a question. -/
def niq (a b : Nat × Nat) : NIQ := ⟨a.1, a.2, b.1, b.2⟩

theorem niqPairs_append {l l' : List (Nat × Nat)} {a b : Nat × Nat} (ha : l.getLast? = some a) (hb : l'.head? = some b) :
    niqPairs (l ++ l') = niqPairs l ++ niq a b :: niqPairs l' := by
  obtain ⟨l'', rfl⟩ : ∃ l'', l' = b :: l'' := by
    cases l' with
    | nil => cases hb
    | cons c l' => cases hb; exact ⟨l', rfl⟩
  induction l with
  | nil => cases ha
  | cons c l ih =>
    cases l with
    | nil => cases ha; rfl
    | cons d l =>
      rw [List.getLast?_cons_cons] at ha
      have := ih ha
      simp only [List.cons_append, niqPairs] at this ⊢
      rw [this]

theorem mem_niqPairs {q : NIQ} {l : List (Nat × Nat)} :
    q ∈ niqPairs l ↔ ∃ A B, l = A ++ (q.prevId, q.prevSeg) :: (q.pointId, q.seg) :: B := by
  induction l with
  | nil => simp [niqPairs]
  | cons a l ih =>
    cases l with
    | nil =>
      simp only [niqPairs, List.not_mem_nil, false_iff, not_exists]
      intro A B h
      have := congrArg List.length h
      simp at this
      omega
    | cons b l =>
      rw [niqPairs, List.mem_cons, ih]
      constructor
      · rintro (rfl | ⟨A, B, h⟩)
        · exact ⟨[], l, rfl⟩
        · exact ⟨a :: A, B, by rw [h]; rfl⟩
      · rintro ⟨A, B, h⟩
        cases A with
        | nil =>
          simp only [List.nil_append, List.cons.injEq] at h
          obtain ⟨rfl, rfl, -⟩ := h
          exact Or.inl rfl
        | cons c A =>
          simp only [List.cons_append, List.cons.injEq] at h
          exact Or.inr ⟨A, B, h.2⟩

theorem mem_niqPairs_range (f : Nat → List (Nat × Nat)) (n : Nat) (hf : ∀ i < n, f i ≠ []) (q : NIQ) :
    q ∈ niqPairs ((List.range n).flatMap f) ↔ (∃ i < n, q ∈ niqPairs (f i)) ∨
      ∃ i, i + 1 < n ∧ ∃ a ∈ (f i).getLast?, ∃ b ∈ (f (i + 1)).head?, q = niq a b := by
  induction n with
  | zero => simp [niqPairs]
  | succ n ih =>
    have ih := ih (fun i hi => hf i (by omega))
    rw [List.range_succ, List.flatMap_append, List.flatMap_cons, List.flatMap_nil, List.append_nil]
    cases n with
    | zero => simp
    | succ m =>
      have hlast : ((List.range (m + 1)).flatMap f).getLast? = (f m).getLast? := by
        rw [List.range_succ, List.flatMap_append, List.flatMap_cons, List.flatMap_nil, List.append_nil,
          List.getLast?_append_of_ne_nil _ (hf m (by omega))]
      obtain ⟨a, ha⟩ : ∃ a, (f m).getLast? = some a :=
        Option.ne_none_iff_exists'.1 (by simpa using hf m (by omega))
      obtain ⟨b, hb⟩ : ∃ b, (f (m + 1)).head? = some b :=
        Option.ne_none_iff_exists'.1 (by simpa using hf (m + 1) (by omega))
      rw [niqPairs_append (hlast.trans ha) hb, List.mem_append, List.mem_cons, ih]
      constructor
      · rintro ((⟨i, hi, h⟩ | ⟨i, hi, h⟩) | rfl | h)
        · exact Or.inl ⟨i, by omega, h⟩
        · exact Or.inr ⟨i, by omega, h⟩
        · exact Or.inr ⟨m, by omega, a, ha, b, hb, rfl⟩
        · exact Or.inl ⟨m + 1, by omega, h⟩
      · rintro (⟨i, hi, h⟩ | ⟨i, hi, a', ha', b', hb', h⟩)
        · rcases Nat.lt_succ_iff_lt_or_eq.1 hi with hi | rfl
          · exact Or.inl (Or.inl ⟨i, hi, h⟩)
          · exact Or.inr (Or.inr h)
        · rcases Nat.lt_succ_iff_lt_or_eq.1 hi with hi | hi
          · exact Or.inl (Or.inr ⟨i, hi, a', ha', b', hb', h⟩)
          · have : i = m := by omega
            subst this
            rw [ha] at ha'
            rw [hb] at hb'
            cases ha'
            cases hb'
            exact Or.inr (Or.inl h)

/-- Valid steps of the circle. -/
def ValidStep (rate : Nat) (t : Trans) : Prop := t.src.seg < rate ∧ t.dst.seg < rate ∧ t.isValid rate = true

theorem stepKeys_getLast {rate : Nat} {t : Trans} (h : ValidStep rate t) : (stepKeys rate t).getLast? = some (lastKey t) := by
  obtain ⟨_, _, _, _, hl⟩ := Trans.C30_segments t h.1 h.2.1 h.2.2
  rw [stepKeys, List.getLast?_map, hl]
  rfl

/-- Point and segment of the first node of a step. -/
def firstKey (rate : Nat) (t : Trans) : Nat × Nat := (t.src.id, t.firstIntersectionSegment rate)

theorem stepKeys_head {rate : Nat} {t : Trans} (h : ValidStep rate t) :
    (stepKeys rate t).head? = some (firstKey rate t) := by
  obtain ⟨k, hk, hl, _, _⟩ := Trans.C30_segments t h.1 h.2.1 h.2.2
  rw [stepKeys, List.head?_map, hl, List.head?_map]
  obtain ⟨m, rfl⟩ : ∃ m, k = m + 1 := ⟨k - 1, by have := hk.1; omega⟩
  rw [List.range_succ_eq_map]
  rfl

theorem keysOf_getLast {rate : Nat} {ts : List Trans} (h : ∀ t ∈ ts, ValidStep rate t) {t : Trans}
    (ht : ts.getLast? = some t) : (keysOf rate ts).getLast? = some (lastKey t) := by
  obtain ⟨us, rfl⟩ := List.getLast?_eq_some_iff.1 ht
  have hl := stepKeys_getLast (h t (by simp))
  rw [keysOf, List.flatMap_append, List.flatMap_cons, List.flatMap_nil, List.append_nil,
    List.getLast?_append_of_ne_nil _ (by intro e; rw [e] at hl; cases hl), hl]

theorem keysOf_head {rate : Nat} {ts : List Trans} (h : ∀ t ∈ ts, ValidStep rate t) {t : Trans}
    (ht : ts.head? = some t) : (keysOf rate ts).head? = some (firstKey rate t) := by
  cases ts with
  | nil => cases ht
  | cons u ts =>
    cases ht
    have hl := stepKeys_head (h t (by simp))
    rw [keysOf, List.flatMap_cons, List.head?_append, hl]
    rfl

theorem mem_niqPairs_keysOf {rate : Nat} {ts : List Trans} (h : ∀ t ∈ ts, ValidStep rate t) (q : NIQ) :
    q ∈ niqPairs (keysOf rate ts) ↔ ∃ x ∈ withPrev ts, q ∈ successions rate x.1 x.2 := by
  induction ts using List.reverseRecOn with
  | nil => simp [keysOf, niqPairs, withPrev]
  | append_singleton ts t ih =>
    have ih := ih (fun t ht => h t (by simp [ht]))
    have ht := h t (by simp)
    rw [withPrev_append_singleton]
    have e : keysOf rate (ts ++ [t]) = keysOf rate ts ++ stepKeys rate t := by simp [keysOf]
    rw [e]
    simp only [List.mem_append, List.mem_singleton, or_and_right, exists_or, ← ih, exists_eq_left]
    cases hl : ts.getLast? with
    | none =>
      have : ts = [] := by simpa using hl
      subst this
      simp [keysOf, niqPairs, successions]
    | some pr =>
      rw [niqPairs_append (keysOf_getLast (fun t ht => h t (by simp [ht])) hl) (stepKeys_head ht), List.mem_append]
      have : successions rate (some pr) t = niq (lastKey pr) (firstKey rate t) :: niqPairs (stepKeys rate t) := by
        have hh := stepKeys_head ht
        simp only [successions, Option.map_some, Option.toList_some]
        rw [niqPairs_append (l := [lastKey pr]) (a := lastKey pr) rfl hh]
        rfl
      rw [this]

/-! ### The questions of the whole cluster -/

/-- What the first-point handler additionally asks if the step between the parts is not valid. -/
def borderAsk (p : Parameters) (pts : Nat → List Pt) (i : Nat) : List NIQ :=
  if i + 1 < p.nClusterNodes then
    match (pts i).getLast?, (pts (i + 1)).head?, (validSteps p.rate (pts i)).getLast?,
      (validSteps p.rate (pts (i + 1))).head? with
    | some lp, some pt, some lt, some f => if (Trans.mk lp pt).isValid p.rate then [] else askBetween p (some lt) f
    | _, _, _, _ => []
  else []

/-- All questions asked by node `i`. -/
def askedBy (p : Parameters) (pts : Nat → List Pt) (i : Nat) : List NIQ :=
  SegState.questionsAll p (validSteps p.rate (pts i ++ nextHead p.nClusterNodes pts i)) ++ borderAsk p pts i

/-- Every schedule of the segmentation: the questions of a node that has started to distribute its segments. -/
theorem SegNet.questions_started {p : Parameters} (hp : p.WellFormed) {pts : Nat → List Pt} {s : SegNet}
    (h : SegNet.Reachable p pts s) : ∀ i < p.nClusterNodes, s.net.started i = true →
      ∃ l, s.loc i = some l ∧ l.questions = (askedBy p pts i).foldl (addQ p) NodeQuestions.clear := by
  induction h with
  | init => intro i _ h; simp [SegNet.init, DirectNet.init] at h
  | @step s t hr hs ih =>
    have hI := SegNet.inv_reachable hp hr
    cases hs with
    | segment k hk hn hc =>
      intro i hi hst
      obtain ⟨l, hl, hb⟩ := SegState.buildSegments_built hp k {} (pts k)
      simp only [SegNet.segment, hl] at hst ⊢
      by_cases hw : p.nClusterNodes ≥ 2 ∧ k ≠ p.nClusterNodes - 1
      · rw [if_pos hw] at hst ⊢
        have hik : i ≠ k := by rintro rfl; simp only at hst; rw [hI.idle i hi hn] at hst; cases hst
        simp only at hst ⊢
        rw [Function.update_of_ne hik]
        exact ih i hi hst
      · rw [if_neg hw] at hst ⊢
        simp only [SegNet.distribute, SegNet.startStep_started] at hst ⊢
        by_cases hik : i = k
        · subst hik
          refine ⟨_, Function.update_self .., ?_⟩
          have hlast : ¬ i + 1 < p.nClusterNodes := by omega
          simp only [askedBy, borderAsk, nextHead, if_neg hlast, List.append_nil]
          exact hb.questions
        · rw [Function.update_of_ne hik] at hst ⊢
          exact ih i hi hst
    | first k pt t hf hc =>
      intro i hi hst
      obtain ⟨a1, a2, a3, a4, a5⟩ := hI.first k pt t hf
      have hih : ∀ i < p.nClusterNodes, s.net.started i = true →
        ∃ l, s.loc i = some l ∧ l.questions = (askedBy p pts i).foldl (addQ p) NodeQuestions.clear := ih
      unfold SegNet.handleFirst at hst ⊢
      simp only at hst ⊢
      cases hloc : s.loc k with
      | none =>
        rw [hloc] at hst
        exact hih i hi hst
      | some l =>
        rw [hloc] at hst
        simp only at hst ⊢
        cases hl : l.onFirstPoint p k pt t with
        | none =>
          rw [hl] at hst
          exact hih i hi hst
        | some l' =>
          rw [hl] at hst
          simp only [SegNet.distribute, SegNet.startStep_started] at hst ⊢
          by_cases hik : i = k
          · subst hik
            obtain ⟨_, l0, hb, rfl⟩ := hI.waiting i hi l hloc a5
            obtain ⟨_, _, lp, lt, e1, e2, e3⟩ := SegState.onFirstPoint_spec hp hb none none pt t hl
            refine ⟨_, Function.update_self .., ?_⟩
            simp only
            rw [e3]
            have hnh : nextHead p.nClusterNodes pts i = [pt] := by simp [nextHead, a1, a2]
            simp only [askedBy, borderAsk, a1, if_true, e1, a2, e2, a3, hnh]
            by_cases hv : (Trans.mk lp pt).isValid p.rate = true
            · rw [if_pos hv, if_pos hv, List.append_nil]
            · rw [if_neg hv, if_neg hv]
              have := validSteps_append_singleton p.rate (pts i) pt
              rw [e1] at this
              simp only [if_neg hv, List.append_nil] at this
              rw [this]
          · rw [Function.update_of_ne hik] at hst ⊢
            exact hih i hi hst
    | exchange pre post m hm hc =>
      intro i hi hst
      rw [SegNet.handleStep_started] at hst
      exact ih i hi hst

/-! ### Parts of the series -/

/-- The valid steps of node `i`'s part including the step to the next node's first point. -/
def part (p : Parameters) (pts : Nat → List Pt) (i : Nat) : List Trans :=
  validSteps p.rate (pts i ++ nextHead p.nClusterNodes pts i)

/-- The step between the last point of node `i` and the first point of node `i + 1` is not a valid step. -/
def SpanInvalid (p : Parameters) (pts : Nat → List Pt) (i : Nat) : Prop :=
  ∃ lp ∈ (pts i).getLast?, ∃ pt ∈ (pts (i + 1)).head?, (Trans.mk lp pt).isValid p.rate = false

/-- The succession across the border between nodes `i` and `i + 1` is known to its owner: it stays within one block, or
the step spanning the border is invalid and the first step of the next part starts in another block. -/
def BorderOK (p : Parameters) (pts : Nat → List Pt) (i : Nat) : Prop :=
  ∀ pr ∈ (part p pts i).getLast?, ∀ f ∈ (part p pts (i + 1)).head?,
    Cross p (niq (lastKey pr) (firstKey p.rate f)) →
      SpanInvalid p pts i ∧ owner p f.src.seg ≠ owner p pr.dst.seg

/-- The input of the stages: every node has points on the circle and at least one valid step. -/
structure GoodParts (p : Parameters) (pts : Nat → List Pt) : Prop where
  seg : ∀ i < p.nClusterNodes, ∀ x ∈ pts i, x.seg < p.rate
  valid : ∀ i < p.nClusterNodes, validSteps p.rate (pts i) ≠ []

theorem validSteps_prefix (rate : Nat) (l l' : List Pt) : ∃ m, validSteps rate (l ++ l') = validSteps rate l ++ m := by
  induction l' using List.reverseRecOn with
  | nil => exact ⟨[], by simp⟩
  | append_singleton l' x ih =>
    obtain ⟨m, hm⟩ := ih
    rw [← List.append_assoc, validSteps_append_singleton, hm, List.append_assoc]
    exact ⟨_, rfl⟩

theorem part_ne {p : Parameters} {pts : Nat → List Pt} (h : GoodParts p pts) {i : Nat} (hi : i < p.nClusterNodes) :
    part p pts i ≠ [] := by
  obtain ⟨m, hm⟩ := validSteps_prefix p.rate (pts i) (nextHead p.nClusterNodes pts i)
  rw [part, hm]
  have := h.valid i hi
  simp [this]

theorem part_head {p : Parameters} {pts : Nat → List Pt} (h : GoodParts p pts) {i : Nat} (hi : i < p.nClusterNodes) :
    (part p pts i).head? = (validSteps p.rate (pts i)).head? := by
  obtain ⟨m, hm⟩ := validSteps_prefix p.rate (pts i) (nextHead p.nClusterNodes pts i)
  rw [part, hm, List.head?_append]
  obtain ⟨t, ts, e⟩ := List.exists_cons_of_ne_nil (h.valid i hi)
  rw [e]
  rfl

theorem pts_ne {p : Parameters} {pts : Nat → List Pt} (h : GoodParts p pts) {i : Nat} (hi : i < p.nClusterNodes) :
    pts i ≠ [] := by
  intro e
  exact h.valid i hi (by rw [e]; rfl)

theorem part_valid {p : Parameters} {pts : Nat → List Pt} (h : GoodParts p pts) {i : Nat} (hi : i < p.nClusterNodes) :
    ∀ t ∈ part p pts i, ValidStep p.rate t := by
  apply validSteps_valid
  intro x hx
  rcases List.mem_append.1 hx with hx | hx
  · exact h.seg i hi x hx
  · unfold nextHead at hx
    split at hx
    · next hlt =>
      have : x ∈ pts (i + 1) := List.mem_of_mem_head? (by simpa using hx)
      exact h.seg (i + 1) hlt x this
    · cases hx

theorem series_parts {p : Parameters} {pts : Nat → List Pt} (h : GoodParts p pts) :
    validSteps p.rate (series p.nClusterNodes pts) = (List.range p.nClusterNodes).flatMap (part p pts) :=
  validSteps_series p.rate p.nClusterNodes pts (fun _ _ hi => pts_ne h hi)

theorem keysOf_series {p : Parameters} {pts : Nat → List Pt} (h : GoodParts p pts) :
    keysOf p.rate (validSteps p.rate (series p.nClusterNodes pts)) =
      (List.range p.nClusterNodes).flatMap (fun i => keysOf p.rate (part p pts i)) := by
  rw [series_parts h, keysOf, List.flatMap_assoc]
  rfl

theorem keysOf_ne {rate : Nat} {ts : List Trans} (h : ∀ t ∈ ts, ValidStep rate t) (hne : ts ≠ []) :
    keysOf rate ts ≠ [] := by
  obtain ⟨t, us, rfl⟩ := List.exists_cons_of_ne_nil hne
  have := keysOf_head h (t := t) rfl
  intro e
  rw [e] at this
  cases this

theorem mem_borderAsk {p : Parameters} {pts : Nat → List Pt} (h : GoodParts p pts) {i : Nat}
    (hi : i < p.nClusterNodes) (q : NIQ) : q ∈ borderAsk p pts i ↔ i + 1 < p.nClusterNodes ∧
      ∃ pr ∈ (part p pts i).getLast?, ∃ f ∈ (part p pts (i + 1)).head?, q = niq (lastKey pr) (firstKey p.rate f) ∧
        SpanInvalid p pts i ∧ owner p f.src.seg ≠ owner p pr.dst.seg := by
  unfold borderAsk
  by_cases hlt : i + 1 < p.nClusterNodes
  · rw [if_pos hlt]
    obtain ⟨lp, hlp⟩ : ∃ a, (pts i).getLast? = some a := Option.ne_none_iff_exists'.1 (by simpa using pts_ne h hi)
    obtain ⟨pt, hpt⟩ : ∃ a, (pts (i + 1)).head? = some a := Option.ne_none_iff_exists'.1 (by simpa using pts_ne h hlt)
    obtain ⟨lt, hlt'⟩ : ∃ a, (validSteps p.rate (pts i)).getLast? = some a :=
      Option.ne_none_iff_exists'.1 (by simpa using h.valid i hi)
    obtain ⟨f, hf⟩ : ∃ a, (validSteps p.rate (pts (i + 1))).head? = some a :=
      Option.ne_none_iff_exists'.1 (by simpa using h.valid (i + 1) hlt)
    rw [hlp, hpt, hlt', hf]
    simp only
    have hnh : nextHead p.nClusterNodes pts i = [pt] := by simp [nextHead, hlt, hpt]
    have hpart := validSteps_append_singleton p.rate (pts i) pt
    rw [hlp] at hpart
    simp only at hpart
    by_cases hv : (Trans.mk lp pt).isValid p.rate = true
    · rw [if_pos hv]
      constructor
      · intro h; cases h
      · rintro ⟨-, pr, -, f', -, -, ⟨lp', h1, pt', h2, h3⟩, -⟩
        rw [hlp] at h1
        rw [hpt] at h2
        cases h1
        cases h2
        rw [hv] at h3
        cases h3
    · rw [if_neg hv, List.append_nil] at hpart
      rw [if_neg hv]
      have hp1 : (part p pts i).getLast? = some lt := by rw [part, hnh, hpart, hlt']
      have hp2 : (part p pts (i + 1)).head? = some f := by rw [part_head h hlt, hf]
      rw [hp1, hp2]
      have hspan : SpanInvalid p pts i := ⟨lp, hlp, pt, hpt, by simpa using hv⟩
      simp only [askBetween, Option.mem_def, Option.some.injEq, exists_eq_left', hlt, true_and, hspan]
      split
      · next hc => simp [hc, niq, lastKey, firstKey]
      · next hc => simp at hc; simp [hc]
  · rw [if_neg hlt]
    simp [hlt]

/-- The questions of the cluster concerning two different nodes: the successions within the parts, the border
successions which are asked, and questions about nodes that do not exist. -/
theorem asked_iff {p : Parameters} (hp : p.WellFormed) {pts : Nat → List Pt} (h : GoodParts p pts) {q : NIQ}
    (hc : Cross p q) : (∃ i < p.nClusterNodes, q ∈ askedBy p pts i) ↔
      (∃ i < p.nClusterNodes, q ∈ niqPairs (keysOf p.rate (part p pts i))) ∨
      (∃ i < p.nClusterNodes, ∃ t ∈ (part p pts i).head?, q = phantom p.rate t) ∨
      ∃ i < p.nClusterNodes, q ∈ borderAsk p pts i := by
  have key : ∀ i < p.nClusterNodes, q ∈ askedBy p pts i ↔ q ∈ niqPairs (keysOf p.rate (part p pts i)) ∨
      (∃ t ∈ (part p pts i).head?, q = phantom p.rate t) ∨ q ∈ borderAsk p pts i := by
    intro i hi
    have h1 := mem_questionsAll hp (part_valid h hi) q
    rw [askedBy, List.mem_append, mem_niqPairs_keysOf (part_valid h hi)]
    simp only [hc, and_true] at h1
    rw [← or_assoc, ← h1]
    rfl
  constructor
  · rintro ⟨i, hi, hq⟩
    rcases (key i hi).1 hq with h | h | h
    · exact Or.inl ⟨i, hi, h⟩
    · exact Or.inr (Or.inl ⟨i, hi, h⟩)
    · exact Or.inr (Or.inr ⟨i, hi, h⟩)
  · rintro (⟨i, hi, h⟩ | ⟨i, hi, h⟩ | ⟨i, hi, h⟩)
    · exact ⟨i, hi, (key i hi).2 (Or.inl h)⟩
    · exact ⟨i, hi, (key i hi).2 (Or.inr (Or.inl h))⟩
    · exact ⟨i, hi, (key i hi).2 (Or.inr (Or.inr h))⟩

/-- The successions of the whole series: those within the parts and those across the borders. -/
theorem mem_series {p : Parameters} {pts : Nat → List Pt} (h : GoodParts p pts) (q : NIQ) :
    q ∈ niqPairs (keysOf p.rate (validSteps p.rate (series p.nClusterNodes pts))) ↔
      (∃ i < p.nClusterNodes, q ∈ niqPairs (keysOf p.rate (part p pts i))) ∨
      ∃ i, i + 1 < p.nClusterNodes ∧ ∃ pr ∈ (part p pts i).getLast?, ∃ f ∈ (part p pts (i + 1)).head?,
        q = niq (lastKey pr) (firstKey p.rate f) := by
  rw [keysOf_series h, mem_niqPairs_range _ _ (fun i hi => keysOf_ne (part_valid h hi) (part_ne h hi))]
  apply or_congr Iff.rfl
  constructor
  · rintro ⟨i, hi, a, ha, b, hb, rfl⟩
    obtain ⟨pr, hpr⟩ : ∃ x, (part p pts i).getLast? = some x :=
      Option.ne_none_iff_exists'.1 (by simpa using part_ne h (by omega))
    obtain ⟨f, hf⟩ : ∃ x, (part p pts (i + 1)).head? = some x :=
      Option.ne_none_iff_exists'.1 (by simpa using part_ne h hi)
    rw [keysOf_getLast (part_valid h (by omega)) hpr] at ha
    rw [keysOf_head (part_valid h hi) hf] at hb
    cases ha
    cases hb
    exact ⟨i, hi, pr, hpr, f, hf, rfl⟩
  · rintro ⟨i, hi, pr, hpr, f, hf, rfl⟩
    exact ⟨i, hi, _, keysOf_getLast (part_valid h (by omega)) hpr, _, keysOf_head (part_valid h hi) hf, rfl⟩

/-- What is asked is right. -/
theorem asked_sound {p : Parameters} (hp : p.WellFormed) {pts : Nat → List Pt} (h : GoodParts p pts) {q : NIQ}
    (hc : Cross p q) (hq : ∃ i < p.nClusterNodes, q ∈ askedBy p pts i) :
    q ∈ niqPairs (keysOf p.rate (validSteps p.rate (series p.nClusterNodes pts))) ∨
      ∃ t ∈ validSteps p.rate (series p.nClusterNodes pts), q = phantom p.rate t := by
  rcases (asked_iff hp h hc).1 hq with hq | ⟨i, hi, t, ht, rfl⟩ | ⟨i, hi, hq⟩
  · exact Or.inl ((mem_series h q).2 (Or.inl hq))
  · refine Or.inr ⟨t, ?_, rfl⟩
    rw [series_parts h, List.mem_flatMap]
    exact ⟨i, List.mem_range.2 hi, List.mem_of_mem_head? ht⟩
  · obtain ⟨hlt, pr, hpr, f, hf, rfl, -⟩ := (mem_borderAsk h hi q).1 hq
    exact Or.inl ((mem_series h _).2 (Or.inr ⟨i, hlt, pr, hpr, f, hf, rfl⟩))

/-- Everything needed is asked, if the borders are harmless. -/
theorem asked_complete {p : Parameters} (hp : p.WellFormed) {pts : Nat → List Pt} (h : GoodParts p pts)
    (hb : ∀ i, i + 1 < p.nClusterNodes → BorderOK p pts i) {q : NIQ} (hc : Cross p q)
    (hq : q ∈ niqPairs (keysOf p.rate (validSteps p.rate (series p.nClusterNodes pts)))) :
    ∃ i < p.nClusterNodes, q ∈ askedBy p pts i := by
  rw [asked_iff hp h hc]
  rcases (mem_series h q).1 hq with hq | ⟨i, hi, pr, hpr, f, hf, rfl⟩
  · exact Or.inl hq
  · obtain ⟨h1, h2⟩ := hb i hi pr hpr f hf hc
    exact Or.inr (Or.inr ⟨i, by omega, (mem_borderAsk h (by omega) _).2 ⟨hi, pr, hpr, f, hf, rfl, h1, h2⟩⟩)

/-! ### Keys are unique -/

theorem stepKeys_nodup {rate : Nat} {t : Trans} (h : ValidStep rate t) : (stepKeys rate t).Nodup := by
  obtain ⟨_, _, _, hnd, _⟩ := Trans.C30_segments t h.1 h.2.1 h.2.2
  exact hnd.map (fun a b e => by simpa using e)

theorem keysOf_nodup {rate : Nat} {ts : List Trans} (h : ∀ t ∈ ts, ValidStep rate t)
    (hs : ts.Pairwise (fun t u => t.src.id < u.src.id)) : (keysOf rate ts).Nodup := by
  unfold keysOf
  rw [List.nodup_flatMap]
  refine ⟨fun t ht => stepKeys_nodup (h t ht), ?_⟩
  apply hs.imp
  intro t u htu k hk1 hk2
  obtain ⟨_, _, rfl⟩ := List.mem_map.1 hk1
  obtain ⟨_, _, hk⟩ := List.mem_map.1 hk2
  have := congrArg Prod.fst hk
  simp only at this
  omega

/-- A step has no node in the segment it starts in. -/
theorem start_not_crossed {rate : Nat} {t : Trans} (h : ValidStep rate t) : t.src.seg ∉ t.intersectionSegments rate := by
  obtain ⟨k, hk, hl, _, _⟩ := Trans.C30_segments t h.1 h.2.1 h.2.2
  rw [hl]
  intro hm
  obtain ⟨j, hj, e⟩ := List.mem_map.1 hm
  rw [List.mem_range] at hj
  have := hk.2.1
  rw [Trans.mod_cases h.1 (by omega)] at e
  have h1 := h.1
  split at e <;> omega

theorem phantom_not_key {rate : Nat} {ts : List Trans} (h : ∀ t ∈ ts, ValidStep rate t)
    (hs : ts.Pairwise (fun t u => t.src.id < u.src.id)) {t : Trans} (ht : t ∈ ts) :
    (t.src.id, t.src.seg) ∉ keysOf rate ts := by
  intro hm
  obtain ⟨u, hu, hk⟩ := List.mem_flatMap.1 hm
  obtain ⟨s, hsm, e⟩ := List.mem_map.1 hk
  simp only [Prod.mk.injEq] at e
  obtain ⟨e1, rfl⟩ := e
  have : u = t := by
    by_contra hne
    have hpw : ts.Pairwise (fun t u => t.src.id ≠ u.src.id) := hs.imp (fun h => Nat.ne_of_lt h)
    have : Std.Symm (fun t u : Trans => t.src.id ≠ u.src.id) := ⟨fun _ _ h => Ne.symm h⟩
    exact (hpw.forall hu ht hne) e1
  subst this
  exact start_not_crossed (h u ht) hsm

theorem succ_unique {l : List (Nat × Nat)} (hnd : l.Nodup) {k a b : Nat × Nat} {A B C D : List (Nat × Nat)}
    (h1 : l = A ++ k :: a :: B) (h2 : l = C ++ k :: b :: D) : a = b ∧ B = D := by
  have e := h1.symm.trans h2
  have hA : A = C := by
    subst h1
    have hk1 : k ∉ A := by
      intro h
      rw [List.nodup_append] at hnd
      exact hnd.2.2 k h k (by simp) rfl
    have hk2 : k ∉ C := by
      intro h
      rw [e, List.nodup_append] at hnd
      exact hnd.2.2 k h k (by simp) rfl
    clear hnd h2
    induction A generalizing C with
    | nil =>
      cases C with
      | nil => rfl
      | cons c C =>
        simp only [List.nil_append, List.cons_append, List.cons.injEq] at e
        exact absurd e.1 (by rintro rfl; exact hk2 (by simp))
    | cons x A ih =>
      cases C with
      | nil =>
        simp only [List.nil_append, List.cons_append, List.cons.injEq] at e
        exact absurd e.1 (by rintro rfl; exact hk1 (by simp))
      | cons c C =>
        simp only [List.cons_append, List.cons.injEq] at e
        obtain ⟨rfl, e⟩ := e
        rw [ih e (fun h => hk1 (by simp [h])) (fun h => hk2 (by simp [h]))]
  subst hA
  simp only [List.append_cancel_left_eq, List.cons.injEq, true_and] at e
  exact e

/-- The succession across a border that is not harmless is not asked by anybody, nor any other successor of the same
node. -/
theorem border_unasked {p : Parameters} (hp : p.WellFormed) {pts : Nat → List Pt} (h : GoodParts p pts)
    (hs : (validSteps p.rate (series p.nClusterNodes pts)).Pairwise (fun t u => t.src.id < u.src.id)) {i : Nat}
    (hi : i + 1 < p.nClusterNodes) {pr f : Trans} (hpr : (part p pts i).getLast? = some pr)
    (hf : (part p pts (i + 1)).head? = some f)
    (hbad : ¬ (SpanInvalid p pts i ∧ owner p f.src.seg ≠ owner p pr.dst.seg)) {q : NIQ} (hc : Cross p q)
    (hkey : (q.prevId, q.prevSeg) = lastKey pr) : ¬ ∃ i < p.nClusterNodes, q ∈ askedBy p pts i := by
  have hval : ∀ t ∈ validSteps p.rate (series p.nClusterNodes pts), ValidStep p.rate t := by
    intro t ht
    rw [series_parts h] at ht
    obtain ⟨j, hj, ht⟩ := List.mem_flatMap.1 ht
    exact part_valid h (List.mem_range.1 hj) t ht
  have hnd := keysOf_nodup hval hs
  have hlast := keysOf_getLast (part_valid h (show i < p.nClusterNodes by omega)) hpr
  have hdisj : ∀ j < p.nClusterNodes, lastKey pr ∈ keysOf p.rate (part p pts j) → j = i := by
    intro j hj hm
    rw [keysOf_series h, List.nodup_flatMap] at hnd
    by_contra hne
    have : Std.Symm (Function.onFun List.Disjoint fun i => keysOf p.rate (part p pts i)) :=
      ⟨fun _ _ h x h1 h2 => h h2 h1⟩
    have := hnd.2.forall (List.mem_range.2 hj) (List.mem_range.2 (show i < p.nClusterNodes by omega)) hne
    exact this hm (List.mem_of_getLast? hlast)
  have hndi : (keysOf p.rate (part p pts i)).Nodup := by
    rw [keysOf_series h, List.nodup_flatMap] at hnd
    exact hnd.1 i (List.mem_range.2 (by omega))
  rw [asked_iff hp h hc]
  rintro (⟨j, hj, hq⟩ | ⟨j, hj, t, ht, rfl⟩ | ⟨j, hj, hq⟩)
  · obtain ⟨A, B, e⟩ := mem_niqPairs.1 hq
    have hji := hdisj j hj (by rw [e, hkey]; simp)
    subst hji
    rw [e, hkey] at hndi hlast
    rw [List.getLast?_append_of_ne_nil _ (by simp), List.getLast?_cons_cons] at hlast
    have hm := List.mem_of_getLast? hlast
    rw [List.nodup_append] at hndi
    exact (List.nodup_cons.1 hndi.2.1).1 hm
  · have htm : t ∈ validSteps p.rate (series p.nClusterNodes pts) := by
      rw [series_parts h, List.mem_flatMap]
      exact ⟨j, List.mem_range.2 hj, List.mem_of_mem_head? ht⟩
    apply phantom_not_key hval hs htm
    have : (t.src.id, t.src.seg) = lastKey pr := hkey
    rw [this, keysOf_series h, List.mem_flatMap]
    exact ⟨i, List.mem_range.2 (by omega), List.mem_of_getLast? hlast⟩
  · obtain ⟨hlt, pr', hpr', f', hf', rfl, h1, h2⟩ := (mem_borderAsk h hj q).1 hq
    have hkey' : lastKey pr' = lastKey pr := hkey
    have hji := hdisj j hj (by
      rw [← hkey']
      exact List.mem_of_getLast? (keysOf_getLast (part_valid h hj) hpr'))
    subst hji
    rw [hpr] at hpr'
    rw [hf] at hf'
    cases hpr'
    cases hf'
    exact hbad ⟨h1, h2⟩

/-! ### From questions to edges -/

namespace Edges

/-- The questions recorded at node `i` after segmentation. -/
def questionsOf (s : SegNet) (i : Nat) : NodeQuestions := ((s.loc i).map SegState.questions).getD NodeQuestions.clear

/-- A complete run of segmentation, node estimation and the exchange of successor nodes on at least two nodes. -/
structure Run (p : Parameters) (pts : Nat → List Pt) (len : Nat) (s : SegNet) (nodes : Nat → List Node) (q : QNet) :
    Prop where
  wf : p.WellFormed
  several : 2 ≤ p.nClusterNodes
  /-- points lie in segments of the circle, ids are in temporal order -/
  seg : ∀ i < p.nClusterNodes, ∀ x ∈ pts i, x.seg < p.rate
  ids : (series p.nClusterNodes pts).Pairwise (fun a b => a.id < b.id)
  bound : ∀ x ∈ series p.nClusterNodes pts, x.id < len
  /-- segmentation is over -/
  segmentation : SegNet.Reachable p pts s
  segmented : ∀ i < p.nClusterNodes, s.net.done i = 1
  /-- the nodes created by node estimation, see C33 -/
  keys : ∀ j < p.nClusterNodes, ((nodes j).map NodeEst.key).Perm
    (((validSteps p.rate (series p.nClusterNodes pts)).flatMap
      (fun t => (t.intersectionSegments p.rate).map (fun s => (t.src.id, s)))).filter (fun k => owner p k.2 = j))
  ascending : ∀ j < p.nClusterNodes, (nodes j).Pairwise (fun v w => v.seg ≤ w.seg)
  /-- the exchange of successor nodes -/
  exchange : QNet.Reachable p.nClusterNodes (questionsOf s) (fun a => NodeEst.nodesOf (nodes a)) q

theorem steps_sorted : ∀ {l : List Pt}, l.Pairwise (fun a b => a.id < b.id) →
    (steps l).Pairwise (fun t u => t.src.id < u.src.id)
  | a :: b :: l, h => by
    rw [steps]
    have h' := List.pairwise_cons.1 h
    refine List.pairwise_cons.2 ⟨?_, steps_sorted h'.2⟩
    intro t ht
    exact h'.1 _ (mem_steps ht).1
  | [_], _ => by simp [steps]
  | [], _ => by simp [steps]

section
variable {p : Parameters} {pts : Nat → List Pt} {len : Nat} {s : SegNet} {nodes : Nat → List Node} {q : QNet}

theorem Run.started (h : Run p pts len s nodes q) {i : Nat} (hi : i < p.nClusterNodes) : s.net.started i = true :=
  ((DirectNet.C17_done_complete (SegNet.inv_reachable h.wf h.segmentation).net hi).2 (h.segmented i hi)).1

theorem Run.good (h : Run p pts len s nodes q) : GoodParts p pts := by
  refine ⟨h.seg, fun i hi => ?_⟩
  have hI := SegNet.inv_reachable h.wf h.segmentation
  have h2 := h.several
  by_cases hlt : i + 1 < p.nClusterNodes
  · obtain ⟨_, _, _, _, h4⟩ := hI.started i hi (h.started hi)
    exact (h4 hlt).1.2
  · obtain ⟨_, _, _, _, h4⟩ := hI.started (i - 1) (by omega) (h.started (by omega))
    have := (h4 (by omega)).1.1
    rwa [Nat.sub_add_cancel (by omega)] at this

/-- The valid steps of the whole series. -/
abbrev allSteps (p : Parameters) (pts : Nat → List Pt) : List Trans := validSteps p.rate (series p.nClusterNodes pts)

theorem Run.steps (h : Run p pts len s nodes q) : Steps p.rate len (allSteps p pts) := by
  have hr : ∀ x ∈ series p.nClusterNodes pts, x.seg < p.rate := by
    intro x hx
    obtain ⟨i, hi, hx⟩ := List.mem_flatMap.1 hx
    exact h.seg i (List.mem_range.1 hi) x hx
  refine ⟨validSteps_valid hr, (steps_sorted h.ids).filter _, ?_⟩
  intro t ht
  exact h.bound _ (mem_steps (List.mem_filter.1 ht).1).1

theorem Run.localNodes (h : Run p pts len s nodes q) {j : Nat} (hj : j < p.nClusterNodes) :
    LocalNodes p (labels p nodes) (allSteps p pts) j (NodeEst.nodesOf (nodes j)) :=
  localNodes_of_keys h.steps.valid h.steps.sorted h.keys h.ascending hj

theorem mem_questionsOf (h : Run p pts len s nodes q) {i : Nat} (hi : i < p.nClusterNodes) (x : NIQ) (a b : Nat) :
    x ∈ questionsOf s i a b ↔ x ∈ askedBy p pts i ∧ a = owner p x.seg ∧ b = owner p x.prevSeg ∧ a ≠ b := by
  obtain ⟨l, hl, hq⟩ := SegNet.questions_started h.wf h.segmentation i hi (h.started hi)
  rw [questionsOf, hl]
  simp only [Option.map_some, Option.getD_some, hq]
  exact C42_recorded p _ x a b

theorem walk_keys (rate : Nat) (lab : Nat → Nat → Nat) (ts : List Trans) :
    (walk rate lab ts).map (fun v => (v.fromId, v.seg)) = keysOf rate ts := by
  unfold walk keysOf
  rw [List.map_flatMap]
  apply List.flatMap_congr
  intro t _
  rw [stepWalk, stepKeys, List.map_map]
  rfl

theorem mem_walk {rate : Nat} {lab : Nat → Nat → Nat} {ts : List Trans} {v : Node} :
    v ∈ walk rate lab ts ↔ (v.fromId, v.seg) ∈ keysOf rate ts ∧ v.cluster = lab v.fromId v.seg := by
  rw [← walk_keys rate lab]
  constructor
  · intro h
    refine ⟨List.mem_map_of_mem h, ?_⟩
    obtain ⟨t, _, hv⟩ := List.mem_flatMap.1 h
    obtain ⟨x, _, rfl⟩ := List.mem_map.1 hv
    rfl
  · rintro ⟨h, hc⟩
    obtain ⟨w, hw, e⟩ := List.mem_map.1 h
    have hw' : w.cluster = lab w.fromId w.seg := by
      obtain ⟨t, _, hv⟩ := List.mem_flatMap.1 hw
      obtain ⟨x, _, rfl⟩ := List.mem_map.1 hv
      rfl
    have : v = w := by
      cases v
      cases w
      simp only [Prod.mk.injEq] at e hc hw'
      obtain ⟨rfl, rfl⟩ := e
      rw [hc, hw']
    rw [this]
    exact hw

/-- The nodes of the data store of node `a` are the nodes of the walk owned by `a`. -/
theorem Run.mem_nodesOf (h : Run p pts len s nodes q) {a : Nat} (ha : a < p.nClusterNodes) (pid : Nat) (v : Node) :
    v ∈ NodeEst.nodesOf (nodes a) pid ↔
      v ∈ walk p.rate (labels p nodes) (allSteps p pts) ∧ owner p v.seg = a ∧ v.fromId = pid := by
  have hl := h.localNodes ha
  constructor
  · intro hv
    have hpid : v.fromId = pid := by simpa using (List.mem_filter.1 hv).2
    by_cases ht : ∃ t ∈ allSteps p pts, t.src.id = pid
    · obtain ⟨t, ht, rfl⟩ := ht
      have := (hl.1 t ht).1.mem_iff.1 hv
      obtain ⟨h1, h2⟩ := List.mem_filter.1 this
      exact ⟨List.mem_flatMap.2 ⟨t, ht, h1⟩, by simpa using h2, hpid⟩
    · push Not at ht
      rw [hl.2 pid ht] at hv
      cases hv
  · rintro ⟨h1, h2, h3⟩
    obtain ⟨t, ht, hv⟩ := List.mem_flatMap.1 h1
    have hid := stepWalk_fromId hv
    rw [← h3, hid]
    exact (hl.1 t ht).1.mem_iff.2 (List.mem_filter.2 ⟨hv, by simpa using h2⟩)

/-- What was asked concerns nodes of the walk. -/
theorem Run.asked_node (h : Run p pts len s nodes q) {x : NIQ} (hc : Cross p x)
    (hx : ∃ i < p.nClusterNodes, x ∈ askedBy p pts i) : (x.pointId, x.seg) ∈ keysOf p.rate (allSteps p pts) := by
  rcases asked_sound h.wf h.good hc hx with hx | ⟨t, ht, rfl⟩
  · obtain ⟨A, B, e⟩ := mem_niqPairs.1 hx
    rw [e]
    simp
  · rw [keysOf, List.mem_flatMap]
    exact ⟨t, ht, List.mem_of_mem_head? (stepKeys_head (h.steps.valid t ht))⟩

/-- Every question gets an answer: nobody crashes. -/
theorem C43_no_crash (h : Run p pts len s nodes q) : q.crashed = false := by
  by_contra hcr
  obtain ⟨a, ha, b, hb, hab, i, hi, x, hx, hl⟩ := QNet.C59_crash_cause h.several h.exchange (by simpa using hcr)
  obtain ⟨h1, rfl, rfl, -⟩ := (mem_questionsOf h hi x a b).1 hx
  have hk := h.asked_node (x := x) hab ⟨i, hi, h1⟩
  have hw : node (labels p nodes) x.pointId x.seg ∈ walk p.rate (labels p nodes) (allSteps p pts) :=
    mem_walk.2 ⟨hk, rfl⟩
  have := (h.mem_nodesOf ha x.pointId (node (labels p nodes) x.pointId x.seg)).2 ⟨hw, rfl, rfl⟩
  unfold NodeQA.lookup at hl
  rw [Option.map_eq_none_iff, List.find?_eq_none] at hl
  exact hl _ this (by simp [node])

theorem head_of_walk {rate : Nat} {lab : Nat → Nat → Nat} {ts : List Trans} (hnd : (keysOf rate ts).Nodup)
    {A B : List Node} {x : Node} (hw : walk rate lab ts = A ++ x :: B) {k : Nat × Nat} {C D : List (Nat × Nat)}
    (hk : keysOf rate ts = C ++ (x.fromId, x.seg) :: k :: D) :
    B.head? = some (node lab k.1 k.2) := by
  have hkeys : keysOf rate ts = A.map (fun v => (v.fromId, v.seg)) ++ (x.fromId, x.seg) ::
      B.map (fun v => (v.fromId, v.seg)) := by
    rw [← walk_keys rate lab, hw]
    simp
  cases B with
  | nil =>
    exfalso
    rw [hk] at hkeys
    have hm : (x.fromId, x.seg) ∈ k :: D := by
      have := congrArg List.getLast? hkeys
      rw [List.getLast?_append_of_ne_nil _ (by simp), List.getLast?_cons_cons] at this
      simp only [List.map_nil, List.getLast?_concat] at this
      exact List.mem_of_getLast? this
    rw [hk, List.nodup_append] at hnd
    exact (List.nodup_cons.1 hnd.2.1).1 hm
  | cons y B =>
    rw [List.map_cons] at hkeys
    obtain ⟨rfl, -⟩ := succ_unique hnd hk hkeys
    have hy : y ∈ walk rate lab ts := by rw [hw]; simp
    have := (mem_walk.1 hy).2
    cases y
    simp only at this
    subst this
    rfl

/-- Whatever happened before: the foreign successors known at the end are right. -/
theorem Run.sound (h : Run p pts len s nodes q) {j : Nat} (hj : j < p.nClusterNodes) (hf : q.fin j = 1) :
    Sound p (walk p.rate (labels p nodes) (allSteps p pts)) j (q.nfn j) := by
  intro A x B hw ho y hy
  obtain ⟨i, hi, a, ha, hab, z, hz, hk, hv, hs⟩ :=
    (QNet.C59_answers_complete h.several h.exchange (C43_no_crash h) hj hf).1 _ y hy
  obtain ⟨h1, rfl, hj', -⟩ := (mem_questionsOf h hi z a j).1 hz
  have hc : Cross p z := by unfold Cross; rw [← hj']; exact fun e => hab e.symm
  have hnd := keysOf_nodup h.steps.valid h.steps.sorted
  obtain ⟨hy1, hy2, hy3⟩ := (h.mem_nodesOf ha _ _).1 hv
  rcases asked_sound h.wf h.good hc ⟨i, hi, h1⟩ with hz | ⟨t, ht, rfl⟩
  · obtain ⟨C, D, e⟩ := mem_niqPairs.1 hz
    rw [← hk] at e
    refine ⟨?_, by rw [hs]; exact hab⟩
    rw [head_of_walk hnd hw e]
    have := (mem_walk.1 hy1).2
    rw [hy3, hs] at this
    cases y
    simp only at this hs hy3
    subst this hs hy3
    rfl
  · exfalso
    apply phantom_not_key h.steps.valid h.steps.sorted ht
    have : (t.src.id, t.src.seg) = (x.fromId, x.seg) := hk.symm
    rw [this]
    exact (mem_walk.1 (by rw [hw]; simp)).1

/-- If the borders are harmless, every node knows exactly the foreign successors of its nodes. -/
theorem Run.answered (h : Run p pts len s nodes q) (hb : ∀ i, i + 1 < p.nClusterNodes → BorderOK p pts i) {j : Nat}
    (hj : j < p.nClusterNodes) (hf : q.fin j = 1) :
    Answered p (walk p.rate (labels p nodes) (allSteps p pts)) j (q.nfn j) := by
  intro A x B hw ho
  cases hn : q.nfn j (x.fromId, x.seg) with
  | some y =>
    obtain ⟨h1, h2⟩ := h.sound hj hf A x B hw ho y hn
    rw [h1, Option.filter_some, if_pos (by simpa using h2)]
  | none =>
    symm
    rw [Option.filter_eq_none_iff]
    intro y hy
    simp only [decide_eq_true_eq, not_not]
    by_contra hne
    obtain ⟨B', rfl⟩ : ∃ B', B = y :: B' := by
      cases B with
      | nil => cases hy
      | cons b B => cases hy; exact ⟨B, rfl⟩
    have hkeys : keysOf p.rate (allSteps p pts) = A.map (fun v => (v.fromId, v.seg)) ++ (x.fromId, x.seg) ::
        (y.fromId, y.seg) :: B'.map (fun v => (v.fromId, v.seg)) := by
      rw [← walk_keys p.rate (labels p nodes), hw]
      simp
    have hc : Cross p (niq (x.fromId, x.seg) (y.fromId, y.seg)) := by
      change owner p x.seg ≠ owner p y.seg
      rw [ho]
      exact fun e => hne e.symm
    obtain ⟨i, hi, hq⟩ := asked_complete h.wf h.good hb hc (mem_niqPairs.2 ⟨_, _, hkeys⟩)
    have hq' := (mem_questionsOf h hi _ (owner p y.seg) j).2 ⟨hq, rfl, ho.symm, hne⟩
    have := (QNet.C59_answers_complete h.several h.exchange (C43_no_crash h) hj hf).2 i hi _
      (owner_lt h.wf y.seg) hne _ hq'
    have hk : (niq (x.fromId, x.seg) (y.fromId, y.seg)).prevId = x.fromId ∧
        (niq (x.fromId, x.seg) (y.fromId, y.seg)).prevSeg = x.seg := ⟨rfl, rfl⟩
    rw [hk.1, hk.2, hn] at this
    cases this

/-- C43 (what holds): if the successions across the borders of the parts are harmless, the edges of every node are the
consecutive pairs of the walk of the whole series starting at its own nodes, in temporal order. -/
theorem C43_edges_of_borders (h : Run p pts len s nodes q) (hb : ∀ i, i + 1 < p.nClusterNodes → BorderOK p pts i) {j : Nat}
    (hj : j < p.nClusterNodes) (hf : q.fin j = 1) :
    connectNodes len (NodeEst.nodesOf (nodes j)) (q.nfn j) =
      some ((pairs (walk p.rate (labels p nodes) (allSteps p pts))).filter (fun e => owner p e.src.seg = j)) :=
  connect_walk h.wf hj h.steps (h.localNodes hj) (h.answered hb hj hf) (fun _ _ hcr => by
    have := hcr.1
    have := h.several
    omega)

theorem filter_owner_perm {α : Type} (g : α → Nat) (l : List α) (n : Nat) (hn : ∀ a ∈ l, g a < n) :
    ((List.range n).flatMap (fun j => l.filter (fun a => g a = j))).Perm l := by
  induction l with
  | nil => simp
  | cons a l ih =>
    refine List.Perm.trans ?_ ((ih (fun b hb => hn b (by simp [hb]))).cons a)
    have ha := hn a (by simp)
    clear ih hn
    induction n with
    | zero => omega
    | succ n ih =>
      rw [List.range_succ, List.flatMap_append, List.flatMap_append]
      simp only [List.flatMap_cons, List.flatMap_nil, List.append_nil]
      by_cases hc : g a = n
      · have e : (List.range n).flatMap (fun j => (a :: l).filter (fun b => g b = j)) =
            (List.range n).flatMap (fun j => l.filter (fun b => g b = j)) := by
          apply List.flatMap_congr
          intro j hj
          rw [List.mem_range] at hj
          rw [List.filter_cons_of_neg (by simp; omega)]
        rw [e, List.filter_cons_of_pos (by simp [hc])]
        exact List.perm_middle
      · rw [List.filter_cons_of_neg (by simp [hc])]
        exact (ih (by omega)).append_right _

/-- C43 (what holds): then the edges of all nodes together are the edges of a run on one node with the same clusters
(see C41): the consecutive pairs of the walk. -/
theorem C43_union_of_borders (h : Run p pts len s nodes q) (hb : ∀ i, i + 1 < p.nClusterNodes → BorderOK p pts i)
    (hf : ∀ j < p.nClusterNodes, q.fin j = 1) {edges : Nat → List Edge}
    (he : ∀ j < p.nClusterNodes, connectNodes len (NodeEst.nodesOf (nodes j)) (q.nfn j) = some (edges j)) :
    ((List.range p.nClusterNodes).flatMap edges).Perm (pairs (walk p.rate (labels p nodes) (allSteps p pts))) := by
  have : (List.range p.nClusterNodes).flatMap edges = (List.range p.nClusterNodes).flatMap (fun j =>
      (pairs (walk p.rate (labels p nodes) (allSteps p pts))).filter (fun e => owner p e.src.seg = j)) := by
    apply List.flatMap_congr
    intro j hj
    rw [List.mem_range] at hj
    have h1 := he j hj
    rw [C43_edges_of_borders h hb hj (hf j hj)] at h1
    exact (Option.some.inj h1).symm
  rw [this]
  exact filter_owner_perm _ _ _ (fun e _ => owner_lt h.wf _)

theorem mem_pairs_of_split {W A B : List Node} {x y : Node} (h : W = A ++ x :: y :: B) : (⟨x, y⟩ : Edge) ∈ pairs W := by
  subst h
  induction A with
  | nil => simp [pairs]
  | cons a A ih =>
    cases A with
    | nil => simp [pairs]
    | cons b A => simp only [List.cons_append, pairs] at ih ⊢; exact List.mem_cons_of_mem _ ih

/-- C43 (what fails): if the succession across one border is not harmless, its edge is missing at all nodes, whatever
the schedule. -/
theorem C43_lost (h : Run p pts len s nodes q) {i : Nat} (hi : i + 1 < p.nClusterNodes) (hb : ¬ BorderOK p pts i)
    (hf : ∀ j < p.nClusterNodes, q.fin j = 1) :
    ∃ e ∈ pairs (walk p.rate (labels p nodes) (allSteps p pts)), ∀ j < p.nClusterNodes,
      ∃ es, connectNodes len (NodeEst.nodesOf (nodes j)) (q.nfn j) = some es ∧ e ∉ es := by
  unfold BorderOK at hb
  push Not at hb
  obtain ⟨pr, hpr, f, hff, hc, hbad⟩ := hb
  have hseries : niq (lastKey pr) (firstKey p.rate f) ∈ niqPairs (keysOf p.rate (allSteps p pts)) :=
    (mem_series h.good _).2 (Or.inr ⟨i, hi, pr, hpr, f, hff, rfl⟩)
  obtain ⟨A, B, e⟩ := mem_niqPairs.1 hseries
  obtain ⟨W1, W2, hW, h1, h2⟩ := List.map_eq_append_iff.1 ((walk_keys p.rate (labels p nodes) (allSteps p pts)).trans e)
  obtain ⟨x, W3, rfl, hx, h3⟩ := List.map_eq_cons_iff.1 h2
  obtain ⟨y, W4, rfl, hy, h4⟩ := List.map_eq_cons_iff.1 h3
  refine ⟨⟨x, y⟩, mem_pairs_of_split hW, fun j hj => ?_⟩
  have hxs : x.seg = (niq (lastKey pr) (firstKey p.rate f)).prevSeg := congrArg Prod.snd hx
  have hys : y.seg = (niq (lastKey pr) (firstKey p.rate f)).seg := congrArg Prod.snd hy
  refine connect_lost h.wf hj h.steps (h.localNodes hj) (h.sound hj (hf j hj)) (fun _ _ hcr => by
    have := hcr.1
    have := h.several
    omega) (by rw [hxs, hys]; exact hc) (fun ho => ?_)
  cases hn : q.nfn j (x.fromId, x.seg) with
  | none => rfl
  | some v =>
    exfalso
    obtain ⟨i', hi', a, ha, haj, z, hz, hk, -, -⟩ :=
      (QNet.C59_answers_complete h.several h.exchange (C43_no_crash h) hj (hf j hj)).1 _ v hn
    obtain ⟨hz1, ha', hj', -⟩ := (mem_questionsOf h hi' z a j).1 hz
    refine border_unasked h.wf h.good h.steps.sorted hi hpr hff (fun hh => hbad hh.1 |> fun e => hh.2 e) (q := z) ?_ ?_
      ⟨i', hi', hz1⟩
    · unfold Cross
      rw [← hj', ← ha']
      exact fun e => haj e.symm
    · rw [← hk]
      exact hx

end
/-! ### Two concrete runs -/

/-- the nodes of the points `SegNet.exPts` -/
def exNodes : Nat → List Node
  | 0 => [⟨0, 0, 3⟩, ⟨1, 0, 3⟩, ⟨2, 0, 0⟩, ⟨2, 0, 4⟩, ⟨3, 0, 0⟩, ⟨3, 1, 4⟩]
  | 1 => [⟨4, 0, 1⟩, ⟨5, 0, 1⟩, ⟨6, 0, 2⟩, ⟨7, 0, 2⟩]
  | _ => []

def exSeg : SegNet := (SegNet.exec SegNet.exP SegNet.exPts SegNet.init SegNet.exRun).getD SegNet.init

def exSched : List QNet.Act := [.start 0, .start 1, .ask 0, .ask 0, .ask 0, .ask 0, .ans 0, .ans 0, .ans 0, .ans 0]

def exQ : QNet := (QNet.exec 2 (questionsOf exSeg) (fun a => NodeEst.nodesOf (exNodes a)) (QNet.init (questionsOf exSeg))
  exSched).getD (QNet.init (questionsOf exSeg))

theorem exRun : Run SegNet.exP SegNet.exPts 6 exSeg exNodes exQ where
  wf := by decide
  several := by decide
  seg := by decide
  ids := by decide
  bound := by decide
  segmentation := by
    unfold exSeg
    cases h : SegNet.exec SegNet.exP SegNet.exPts SegNet.init SegNet.exRun with
    | none => exact .init
    | some s => exact SegNet.exec_reachable _ .init h
  segmented := by decide
  keys := by decide
  ascending := by decide
  exchange := by
    unfold exQ
    cases h : QNet.exec 2 (questionsOf exSeg) (fun a => NodeEst.nodesOf (exNodes a)) (QNet.init (questionsOf exSeg))
      exSched with
    | none => exact .init
    | some s => exact QNet.exec_reachable _ .init h

/-- C43 is false: a complete run of two nodes that loses the edge from the node of step 2 in segment 7 to the node of
step 3 in segment 0 and contains an edge that is not in the walk. -/
theorem C43_counterexample :
    Run SegNet.exP SegNet.exPts 6 exSeg exNodes exQ ∧ exQ.fin 0 = 1 ∧ exQ.fin 1 = 1 ∧
    pairs (walk 8 (labels SegNet.exP exNodes) (allSteps SegNet.exP SegNet.exPts)) =
      pairs [⟨2, 0, 0⟩, ⟨3, 0, 0⟩, ⟨4, 0, 1⟩, ⟨5, 0, 1⟩, ⟨6, 0, 2⟩, ⟨7, 0, 2⟩, ⟨0, 0, 3⟩, ⟨1, 0, 3⟩, ⟨2, 0, 4⟩, ⟨3, 1, 4⟩] ∧
    connectNodes 6 (NodeEst.nodesOf (exNodes 0)) (exQ.nfn 0) =
      some [⟨⟨2, 0, 0⟩, ⟨3, 0, 0⟩⟩, ⟨⟨3, 0, 0⟩, ⟨4, 0, 1⟩⟩, ⟨⟨0, 0, 3⟩, ⟨1, 0, 3⟩⟩, ⟨⟨1, 0, 3⟩, ⟨2, 0, 4⟩⟩,
        ⟨⟨2, 0, 4⟩, ⟨3, 1, 4⟩⟩] ∧
    connectNodes 6 (NodeEst.nodesOf (exNodes 1)) (exQ.nfn 1) =
      some [⟨⟨4, 0, 1⟩, ⟨5, 0, 1⟩⟩, ⟨⟨5, 0, 1⟩, ⟨6, 0, 2⟩⟩, ⟨⟨6, 0, 2⟩, ⟨7, 0, 2⟩⟩] :=
  ⟨exRun, by decide, by decide, by decide, by decide, by decide⟩

/-- Points whose border is harmless. -/
def okPts : Nat → List Pt
  | 0 => [⟨0, 1⟩, ⟨1, 3⟩, ⟨2, 2⟩]
  | 1 => [⟨3, 2⟩, ⟨4, 5⟩, ⟨5, 7⟩]
  | _ => []

def okNodes : Nat → List Node
  | 0 => [⟨2, 0, 0⟩, ⟨3, 0, 0⟩, ⟨3, 1, 3⟩]
  | 1 => [⟨4, 0, 3⟩, ⟨5, 0, 3⟩, ⟨6, 0, 4⟩, ⟨7, 0, 4⟩]
  | _ => []

def okSeg : SegNet := (SegNet.exec SegNet.exP okPts SegNet.init SegNet.exRun).getD SegNet.init

def okQ : QNet := (QNet.exec 2 (questionsOf okSeg) (fun a => NodeEst.nodesOf (okNodes a)) (QNet.init (questionsOf okSeg))
  exSched).getD (QNet.init (questionsOf okSeg))

theorem okRun : Run SegNet.exP okPts 6 okSeg okNodes okQ where
  wf := by decide
  several := by decide
  seg := by decide
  ids := by decide
  bound := by decide
  segmentation := by
    unfold okSeg
    cases h : SegNet.exec SegNet.exP okPts SegNet.init SegNet.exRun with
    | none => exact .init
    | some s => exact SegNet.exec_reachable _ .init h
  segmented := by decide
  keys := by decide
  ascending := by decide
  exchange := by
    unfold okQ
    cases h : QNet.exec 2 (questionsOf okSeg) (fun a => NodeEst.nodesOf (okNodes a)) (QNet.init (questionsOf okSeg))
      exSched with
    | none => exact .init
    | some s => exact QNet.exec_reachable _ .init h

example : (∀ i, i + 1 < SegNet.exP.nClusterNodes → BorderOK SegNet.exP okPts i) ∧ ∀ j < 2, okQ.fin j = 1 := by
  refine ⟨fun i hi => ?_, by decide⟩
  have h2 : i + 1 < 2 := hi
  obtain rfl : i = 0 := by omega
  have : (part SegNet.exP okPts 0).getLast? = some ⟨⟨0, 1⟩, ⟨1, 3⟩⟩ := by decide
  have h' : (part SegNet.exP okPts 1).head? = some ⟨⟨3, 2⟩, ⟨4, 5⟩⟩ := by decide
  intro pr hpr f hf hc
  simp only [this, h', Option.mem_some_iff] at hpr hf
  subst hpr hf
  exact absurd (by decide) hc

example : ((List.range 2).map (fun j => connectNodes 6 (NodeEst.nodesOf (okNodes j)) (okQ.nfn j))) =
    [some [⟨⟨2, 0, 0⟩, ⟨3, 0, 0⟩⟩, ⟨⟨3, 0, 0⟩, ⟨3, 1, 3⟩⟩, ⟨⟨3, 1, 3⟩, ⟨4, 0, 3⟩⟩],
     some [⟨⟨4, 0, 3⟩, ⟨5, 0, 3⟩⟩, ⟨⟨5, 0, 3⟩, ⟨6, 0, 4⟩⟩, ⟨⟨6, 0, 4⟩, ⟨7, 0, 4⟩⟩]] := by decide

end Edges
end S2G
