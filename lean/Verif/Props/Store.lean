import Verif.Model.Store

/-!
# The data store with shared points (C97)
-/

namespace S2G
namespace Store
variable {P : Type} {k : Kind P} {p : Parameters} {own : Nat} {pts F : List P}

/-! ## The reference: one node's segmentation by value -/

/-- What a node can do in the segmentation. -/
inductive Op (P : Type) where
  /-- `build_segments` -/
  | build
  /-- self correction: clear, mirror, build again -/
  | correct
  /-- the first point (and step) of the next node arrives -/
  | first (x : P) (t : P × P)
  /-- steps from another node arrive -/
  | receive (ts : List (P × P))
  /-- the steps for the other nodes are sent and forgotten -/
  | sent

/-- The node on shared points. -/
def Op.run (k : Kind P) (p : Parameters) (own : Nat) (s : Seg P) : Op P → Option (Seg P)
  | .build => buildSegments k p own s
  | .correct => Store.correct k p own s
  | .first x t => onFirstPoint k p own s x t
  | .receive ts => Store.receive k s ts
  | .sent => some { s with forNodes := fun _ => [], sendPoint := none, sendTransition := none }

/-- The node by value: its points, and its steps as in `Model/Segmentation.lean` and `Model/CorrNet.lean`. -/
def Op.value (k : Kind P) (p : Parameters) (own : Nat) (s : List P × SegState) : Op P → Option (List P × SegState)
  | .build => (SegState.buildSegments p own s.2 (s.1.map k.pt)).map (Prod.mk s.1)
  | .correct => do
    let pts ← s.1.mapM k.mirror
    (SegState.buildSegments p own (CorrNet.cleared s.2) (pts.map k.pt)).map (Prod.mk pts)
  | .first x t => (s.2.onFirstPoint p own (k.pt x) (k.trans t)).map (Prod.mk s.1)
  | .receive ts => some (s.1 ++ ts.flatMap (fun t => [t.1, t.2]), { s.2 with stored := s.2.stored ++ ts.map k.trans })
  | .sent => some (s.1, { s.2 with forNodes := fun _ => [], sendPoint := none, sendTransition := none })

/-! ## The relation between the two -/

/-- A value at a reference. -/
abbrev At (c : List P) (a : Nat) (x : P) : Prop := c[a]? = some x

/-- A step between points of a list; the second may be a first point which came from another node. -/
def Within (pts F : List P) (m : P × P) : Prop := m.1 ∈ pts ∧ (m.2 ∈ pts ∨ m.2 ∈ F)

/-- A step at references. -/
def StepAt (k : Kind P) (pts F c : List P) (t : Nat × Nat) (v : Trans) : Prop :=
  ∃ x y, At c t.1 x ∧ At c t.2 y ∧ v = k.trans (x, y) ∧ Within pts F (x, y)

theorem StepAt.materialize {s : DataStore P} {t : Nat × Nat} {v : Trans} (h : StepAt k pts F s.cells t v) :
    ∃ y, s.materialize t = some y ∧ v = k.trans y ∧ Within pts F y := by
  obtain ⟨x, y, hx, hy, hv, hw⟩ := h
  refine ⟨(x, y), ?_, hv, hw⟩
  unfold DataStore.materialize
  rw [hx, hy]; rfl

theorem StepAt.look {s : DataStore P} {t : Nat × Nat} {v : Trans} (h : StepAt k pts F s.cells t v) : k.look s t = some v := by
  obtain ⟨y, hy, hv, -⟩ := h.materialize
  rw [Kind.look, hy, hv]; rfl

/-- References in a store: the points are different cells, and all references are to cells. -/
structure Sound (s : DataStore P) : Prop where
  nodup : s.points.Nodup
  lt : ∀ a ∈ s.points, a < s.cells.length

/-- Fields of the segmentation on shared points and by value. -/
structure Rel (k : Kind P) (F : List P) (s : Seg P) (v : List P × SegState) : Prop where
  sound : Sound s.store
  points : List.Forall₂ (At s.store.cells) s.store.points v.1
  stored : List.Forall₂ (StepAt k v.1 F s.store.cells) s.store.transitions v.2.stored
  sendPoint : v.2.sendPoint = s.sendPoint.map k.pt
  sendTransition : v.2.sendTransition = s.sendTransition.map k.trans
  lastPoint : v.2.lastPoint = s.lastPoint.map k.pt
  lastTransition : Option.Rel (StepAt k v.1 F s.store.cells) s.lastTransition v.2.lastTransition
  questions : v.2.questions = s.questions
  forNodes : v.2.forNodes = fun a => (s.forNodes a).map k.trans
  invalid : v.2.invalid = s.invalid
  lastIn : ∀ x ∈ s.lastPoint, x ∈ v.1
  sendIn : ∀ x ∈ s.sendPoint, x ∈ v.1
  sendWithin : ∀ m ∈ s.sendTransition, Within v.1 F m
  within : ∀ a, ∀ m ∈ s.forNodes a, Within v.1 F m

/-- The loop of `build_segments`. -/
structure LRel (k : Kind P) (pts F : List P) (s0 : DataStore P) (l : Loop P) (v : SegState) : Prop where
  cells : l.seg.store.cells = s0.cells
  points : l.seg.store.points = s0.points
  stored : List.Forall₂ (StepAt k pts F s0.cells) l.seg.store.transitions v.stored
  sendPoint : v.sendPoint = l.seg.sendPoint.map k.pt
  sendTransition : v.sendTransition = l.seg.sendTransition.map k.trans
  last : Option.Rel (fun a q => ∃ x, At s0.cells a x ∧ q = k.pt x ∧ x ∈ pts) l.last v.lastPoint
  lastStep : Option.Rel (StepAt k pts F s0.cells) l.lastStep v.lastTransition
  lastTo : v.lastToNode = l.lastTo
  questions : v.questions = l.seg.questions
  forNodes : v.forNodes = fun a => (l.foreign a).map k.trans
  invalid : v.invalid = l.seg.invalid
  sendIn : ∀ x ∈ l.seg.sendPoint, x ∈ pts
  sendWithin : ∀ m ∈ l.seg.sendTransition, Within pts F m
  within : ∀ a, ∀ m ∈ l.foreign a, Within pts F m

theorem splitBetween_eq (s : SegState) (prev : Option Trans) (t : Trans) (f l : Nat) :
    s.splitBetween p prev t f l = (splitBetween p s.questions prev t f l).map (fun q => { s with questions := q }) := by
  unfold splitBetween SegState.splitBetween
  split
  · cases s.questions.ask p t prev false 1 <;> rfl
  · rfl

theorem findSplits_eq (s : SegState) (prev : Option Trans) (lastTo : Option Nat) (t : Trans) (f g : Nat) :
    s.findSplits p prev lastTo t f g = (splits p s.questions prev lastTo t f g).map (fun q => { s with questions := q }) := by
  have hw : ∀ s : SegState, s.splitWithin p prev t f g =
      (if f ≠ g then s.questions.ask p t prev true (clusterNodeDiff p f g) else some s.questions).map
        (fun q => { s with questions := q }) := by
    intro s
    unfold SegState.splitWithin
    split
    · cases s.questions.ask p t prev true (clusterNodeDiff p f g) <;> rfl
    · rfl
  unfold splits SegState.findSplits
  cases lastTo with
  | none =>
    simp only [Option.bind_eq_bind, Option.bind_some, hw, Option.map_map]
    rfl
  | some l =>
    simp only [Option.bind_eq_bind, splitBetween_eq s, splitBetween_eq { questions := s.questions }]
    cases splitBetween p s.questions prev t f l with
    | none => rfl
    | some q =>
      simp only [Option.map_some, Option.bind_some, hw, Option.map_map]
      rfl

theorem onValid_rel {s0 : DataStore P} {l : Loop P} {v : SegState} (h : LRel k pts F s0 l v) {t : Nat × Nat} {w : Trans}
    (ht : StepAt k pts F s0.cells t w) : Option.Rel (LRel k pts F s0) (onValid k p own l t) (v.onValid p own w) := by
  obtain ⟨y, hy, hw, hin⟩ := StepAt.materialize (s := l.seg.store) (h.cells ▸ ht)
  unfold onValid SegState.onValid
  simp only [hy, Option.bind_eq_bind, Option.bind_some]
  have e1 : w.src.seg = k.seg y.1 := by rw [hw]; rfl
  have e2 : w.dst.seg = k.seg y.2 := by rw [hw]; rfl
  rw [e1, e2]
  cases p.segmentIdToAssignment (k.seg y.1) with
  | none => exact .none
  | some f =>
  cases p.segmentIdToAssignment (k.seg y.2) with
  | none => exact .none
  | some g =>
  simp only [Option.bind_some]
  have hlast : l.lastStep.bind (k.look (if f = own then l.seg.store.addTransition t else l.seg.store)) = v.lastTransition := by
    have hc : (if f = own then l.seg.store.addTransition t else l.seg.store).cells = s0.cells := by
      split
      · exact h.cells
      · exact h.cells
    have hr := h.lastStep
    revert hr
    cases l.lastStep with
    | none => intro hr; cases hv : v.lastTransition with
      | none => rfl
      | some _ => rw [hv] at hr; cases hr
    | some u => intro hr; cases hv : v.lastTransition with
      | none => rw [hv] at hr; cases hr
      | some _ =>
        rw [hv] at hr
        cases hr with
        | some hr => exact StepAt.look (by rw [hc]; exact hr)
  rw [hlast, findSplits_eq, h.questions, h.lastTo, ← hw]
  cases splits p l.seg.questions v.lastTransition l.lastTo w f g with
  | none => exact .none
  | some q =>
    simp only [Option.map_some, Option.bind_some]
    refine .some ⟨?_, ?_, ?_, h.sendPoint, ?_, h.last, .some ht, rfl, rfl, ?_, h.invalid, h.sendIn, ?_, ?_⟩
    · simp only; split
      · exact h.cells
      · exact h.cells
    · simp only; split
      · exact h.points
      · exact h.points
    · simp only [SegState.record]
      by_cases hf : f = own
      · rw [if_pos hf, if_pos hf]
        exact List.rel_append h.stored (.cons ht .nil)
      · rw [if_neg hf, if_neg hf]
        exact h.stored
    · simp only [SegState.record, h.sendTransition, hw]
      cases l.seg.sendTransition <;> rfl
    · funext a
      simp only [SegState.record, h.forNodes]
      split
      · rw [List.map_append, hw]; rfl
      · rfl
    · simp only
      split
      · rintro m hm; cases hm; exact hin
      · exact h.sendWithin
    · intro a m hm
      simp only at hm
      split at hm
      · rcases List.mem_append.1 hm with hm | hm
        · exact h.within a m hm
        · rw [List.mem_singleton.1 hm]; exact hin
      · exact h.within a m hm

theorem onPoint_rel {s0 : DataStore P} {l : Loop P} {v : SegState} (h : LRel k pts F s0 l v) {a : Nat} {x : P} (hx : At s0.cells a x) (hin : x ∈ pts) :
    Option.Rel (LRel k pts F s0) (onPoint k p own l a) (SegState.onPoint p own v (k.pt x)) := by
  have key : ∀ (o : Option (Loop P)) (o' : Option SegState), Option.Rel (LRel k pts F s0) o o' →
      Option.Rel (LRel k pts F s0) (o.bind (fun l' => some { l' with last := some a }))
        (o'.bind (fun s' => some { s' with lastPoint := some (k.pt x) })) := by
    intro o o' ho
    cases ho with
    | none => exact .none
    | some ho =>
      exact .some ⟨ho.cells, ho.points, ho.stored, ho.sendPoint, ho.sendTransition, .some ⟨x, hx, rfl, hin⟩, ho.lastStep, ho.lastTo,
        ho.questions, ho.forNodes, ho.invalid, ho.sendIn, ho.sendWithin, ho.within⟩
  unfold onPoint SegState.onPoint
  simp only [Option.bind_eq_bind]
  have hl := h.last
  cases hl1 : l.last with
  | none =>
    rw [hl1] at hl
    cases hv : v.lastPoint with
    | some q => rw [hv] at hl; cases hl
    | none =>
      have hc : l.seg.store.cells[a]? = some x := by rw [h.cells]; exact hx
      simp only [visit, hl1, hc, Option.bind_eq_bind, Option.bind_some]
      split
      · exact key (some { l with seg := { l.seg with sendPoint := some x } }) (some { v with sendPoint := some (k.pt x) })
          (.some ⟨h.cells, h.points, h.stored, rfl, h.sendTransition, h.last, h.lastStep, h.lastTo, h.questions, h.forNodes,
          h.invalid, fun z hz => by cases hz; exact hin, h.sendWithin, h.within⟩)
      · exact key _ _ (.some h)
  | some b =>
    rw [hl1] at hl
    cases hv : v.lastPoint with
    | none => rw [hv] at hl; cases hl
    | some q =>
      rw [hv] at hl
      cases hl with
      | some hl =>
        obtain ⟨z, hz, rfl, hzin⟩ := hl
        have ht : StepAt k pts F s0.cells (b, a) (k.trans (z, x)) := ⟨z, x, hz, hx, rfl, hzin, .inl hin⟩
        have hlook : k.look l.seg.store (b, a) = some (k.trans (z, x)) := StepAt.look (s := l.seg.store) (h.cells ▸ ht)
        have e : (⟨k.pt z, k.pt x⟩ : Trans) = k.trans (z, x) := rfl
        simp only [visit, hl1, hlook, Option.bind_eq_bind, Option.bind_some, e]
        split
        · exact key _ _ (onValid_rel h ht)
        · split
          · exact key (some { l with seg := { l.seg with invalid := l.seg.invalid + 1 } }) (some { v with invalid := v.invalid + 1 })
              (.some ⟨h.cells, h.points, h.stored, h.sendPoint, h.sendTransition, h.last, h.lastStep, h.lastTo, h.questions,
              h.forNodes, congrArg (· + 1) h.invalid, h.sendIn, h.sendWithin, h.within⟩)
          · exact key _ _ (.some h)

theorem loop_rel {s0 : DataStore P} {as : List Nat} {xs : List P} (hx : List.Forall₂ (At s0.cells) as xs) (hin : ∀ x ∈ xs, x ∈ pts) {l : Loop P} {v : SegState}
    (h : LRel k pts F s0 l v) : Option.Rel (LRel k pts F s0) (as.foldlM (onPoint k p own) l) ((xs.map k.pt).foldlM (SegState.onPoint p own) v) := by
  induction hx generalizing l v with
  | nil => exact .some h
  | cons hx _ ih =>
    simp only [List.map_cons, List.foldlM_cons, Option.bind_eq_bind]
    have h1 := onPoint_rel (p := p) (own := own) h hx (hin _ (by simp))
    revert h1
    generalize onPoint k p own l _ = o
    generalize SegState.onPoint p own v _ = o'
    intro h1
    cases h1 with
    | none => exact .none
    | some h1 => exact ih (fun x hx => hin x (List.mem_cons_of_mem _ hx)) h1

theorem build_rel {s : Seg P} {v : List P × SegState} (hs : Sound s.store) (hp : List.Forall₂ (At s.store.cells) s.store.points v.1)
    (h1 : List.Forall₂ (StepAt k v.1 F s.store.cells) s.store.transitions v.2.stored) (h2 : v.2.sendPoint = s.sendPoint.map k.pt)
    (h3 : v.2.sendTransition = s.sendTransition.map k.trans) (h4 : v.2.questions = s.questions) (h5 : v.2.invalid = s.invalid)
    (h6 : ∀ x ∈ s.sendPoint, x ∈ v.1) (h7 : ∀ m ∈ s.sendTransition, Within v.1 F m) :
    Option.Rel (Rel k F) (buildSegments k p own s) ((SegState.buildSegments p own v.2 (v.1.map k.pt)).map (Prod.mk v.1)) := by
  have h0 : LRel k v.1 F s.store { seg := s }
      { v.2 with lastPoint := none, lastTransition := none, lastToNode := none, forNodes := fun _ => [] } :=
    ⟨rfl, rfl, h1, h2, h3, .none, .none, rfl, h4, rfl, h5, h6, h7, fun _ _ h => by simp at h⟩
  have h1 := loop_rel (p := p) (own := own) hp (fun _ h => h) h0
  unfold buildSegments SegState.buildSegments
  simp only [Option.bind_eq_bind]
  revert h1
  generalize List.foldlM (onPoint k p own) _ _ = o
  generalize List.foldlM (SegState.onPoint p own) _ _ = o'
  intro h1
  cases h1 with
  | none => exact .none
  | @some l w h1 =>
    simp only [Option.bind_some, Option.map_some]
    have hl : ∃ last, copyLast l.seg.store l.last = some last ∧ w.lastPoint = last.map k.pt ∧ ∀ x ∈ last, x ∈ v.1 := by
      have hr := h1.last
      revert hr
      cases l.last with
      | none => intro hr; cases hw : w.lastPoint with
        | none => exact ⟨none, rfl, rfl, fun _ h => by cases h⟩
        | some _ => rw [hw] at hr; cases hr
      | some a => intro hr; cases hw : w.lastPoint with
        | none => rw [hw] at hr; cases hr
        | some _ =>
          rw [hw] at hr
          cases hr with
          | some hr =>
            obtain ⟨x, hx, rfl, hin⟩ := hr
            exact ⟨some x, by rw [copyLast, h1.cells, hx]; rfl, rfl, fun _ h => by cases h; exact hin⟩
    obtain ⟨last, hl1, hl2, hl3⟩ := hl
    rw [hl1, Option.bind_some]
    refine .some ⟨⟨?_, ?_⟩, ?_, ?_, h1.sendPoint, h1.sendTransition, hl2, ?_, h1.questions, h1.forNodes, h1.invalid, hl3, h1.sendIn,
      h1.sendWithin, h1.within⟩
    · rw [h1.points]; exact hs.nodup
    · rw [h1.points, h1.cells]; exact hs.lt
    · simp only; rw [h1.points, h1.cells]; exact hp
    · simp only; rw [h1.cells]; exact h1.stored
    · simp only; rw [h1.cells]; exact h1.lastStep

theorem imp_mem {α β : Type} {R S : α → β → Prop} {as : List α} {xs : List β} (h : List.Forall₂ R as xs)
    (hi : ∀ a ∈ as, ∀ x, R a x → S a x) : List.Forall₂ S as xs := by
  induction h with
  | nil => exact .nil
  | cons h _ ih => exact .cons (hi _ (by simp) _ h) (ih (fun a ha => hi a (List.mem_cons_of_mem _ ha)))

theorem mirror_rel {as : List Nat} {xs : List P} (hnd : as.Nodup) {s : DataStore P} (h : List.Forall₂ (At s.cells) as xs) :
    match xs.mapM k.mirror with
    | none => as.foldlM (DataStore.mirrorCell k) s = none
    | some ys => ∃ c, as.foldlM (DataStore.mirrorCell k) s = some { s with cells := c } ∧ List.Forall₂ (At c) as ys ∧
        c.length = s.cells.length ∧ ∀ b, b ∉ as → c[b]? = s.cells[b]? := by
  induction as generalizing xs s with
  | nil =>
    cases h
    exact ⟨s.cells, rfl, .nil, rfl, fun _ _ => rfl⟩
  | cons a as ih =>
    cases h with
    | @cons _ x _ xs hx h =>
    obtain ⟨ha, hnd⟩ := List.nodup_cons.1 hnd
    have hlt : a < s.cells.length := (List.getElem?_eq_some_iff.1 hx).1
    simp only [List.mapM_cons, List.foldlM_cons, Option.bind_eq_bind, DataStore.mirrorCell, show s.cells[a]? = some x from hx,
      Option.bind_some, Option.pure_def]
    cases hm : k.mirror x with
    | none => simp
    | some y =>
      simp only [Option.bind_some]
      have h' : List.Forall₂ (At (s.cells.set a y)) as xs := by
        refine imp_mem h (fun b hb z hz => ?_)
        have hne : a ≠ b := fun e => ha (e ▸ hb)
        rw [At, List.getElem?_set_ne hne]; exact hz
      have := ih hnd (s := { s with cells := s.cells.set a y }) h'
      revert this
      cases xs.mapM k.mirror with
      | none => exact id
      | some ys =>
        simp only [Option.bind_some]
        rintro ⟨c, h1, h2, h3, h4⟩
        refine ⟨c, h1, .cons ?_ h2, by rw [h3]; simp, fun b hb => ?_⟩
        · rw [At, h4 a ha]; simp [hlt]
        · rw [h4 b (fun h => hb (List.mem_cons_of_mem _ h))]
          exact List.getElem?_set_ne (fun h => hb (by simp [h]))

theorem correct_rel {s : Seg P} {v : List P × SegState} (h : Rel k F s v) :
    Option.Rel (Rel k F) (correct k p own s) (Op.value k p own v .correct) := by
  have hm := mirror_rel (k := k) h.sound.nodup (s := (clearSegmentation s).store) h.points
  simp only [correct, Op.value, Option.bind_eq_bind, DataStore.mirrorPoints]
  revert hm
  cases v.1.mapM k.mirror with
  | none =>
    intro hm
    simp only at hm
    rw [show (clearSegmentation s).store.points = s.store.points from rfl, hm]
    exact .none
  | some ys =>
    rintro ⟨c, h1, h2, h3, h4⟩
    rw [show (clearSegmentation s).store.points = s.store.points from rfl, h1]
    simp only [Option.bind_some]
    refine build_rel (v := (ys, CorrNet.cleared v.2)) ⟨h.sound.nodup, fun a ha => ?_⟩ h2 .nil rfl rfl rfl h.invalid
      (fun _ h => by cases h) (fun _ h => by cases h)
    exact (h.sound.lt a ha).trans_eq h3.symm

theorem At.append {c d : List P} {a : Nat} {x : P} (h : At c a x) : At (c ++ d) a x := by
  rw [At, List.getElem?_append_left (List.getElem?_eq_some_iff.1 h).1]; exact h

theorem Within.mono {q : List P} {m : P × P} (h : Within pts F m) (hq : ∀ x ∈ pts, x ∈ q) : Within q F m :=
  ⟨hq _ h.1, h.2.imp (hq _) id⟩

theorem StepAt.append {c d q : List P} {t : Nat × Nat} {v : Trans} (h : StepAt k pts F c t v) (hq : ∀ x ∈ pts, x ∈ q) :
    StepAt k q F (c ++ d) t v := by
  obtain ⟨x, y, hx, hy, hv, hw⟩ := h
  exact ⟨x, y, hx.append, hy.append, hv, hw.mono hq⟩

theorem rel_append {c d q : List P} {o : Option (Nat × Nat)} {o' : Option Trans} (h : Option.Rel (StepAt k pts F c) o o')
    (hq : ∀ x ∈ pts, x ∈ q) : Option.Rel (StepAt k q F (c ++ d)) o o' := by
  cases h with
  | none => exact .none
  | some h => exact .some (h.append hq)

theorem first_rel {s : Seg P} {v : List P × SegState} (h : Rel k F s v) {x : P} (hF : x ∈ F) (first : P × P) :
    Option.Rel (Rel k F) (onFirstPoint k p own s x first) (Op.value k p own v (.first x first)) := by
  simp only [onFirstPoint, Op.value, SegState.onFirstPoint, Option.bind_eq_bind, h.lastPoint]
  cases hlp : s.lastPoint with
  | none => exact .none
  | some lp =>
  have hlpin : lp ∈ v.1 := h.lastIn lp (by rw [hlp]; rfl)
  have hwith : Within v.1 F (lp, x) := ⟨hlpin, .inr hF⟩
  simp only [Option.map_some, Option.bind_some, DataStore.newRef]
  have hlt := h.lastTransition
  cases hs : s.lastTransition with
  | none =>
    rw [hs] at hlt
    cases hv : v.2.lastTransition with
    | none => exact .none
    | some _ => rw [hv] at hlt; cases hlt
  | some t =>
  rw [hs] at hlt
  cases hv : v.2.lastTransition with
  | none => rw [hv] at hlt; cases hlt
  | some prev =>
  rw [hv] at hlt
  cases hlt with
  | some hlt =>
  have ha : At (s.store.cells ++ [lp] ++ [x]) s.store.cells.length lp := by simp [At]
  have hb : At (s.store.cells ++ [lp] ++ [x]) (s.store.cells ++ [lp]).length x := by simp [At]
  have hab : StepAt k v.1 F (s.store.cells ++ [lp] ++ [x]) (s.store.cells.length, (s.store.cells ++ [lp]).length) (k.trans (lp, x)) :=
    ⟨lp, x, ha, hb, rfl, hwith⟩
  have hprev : StepAt k v.1 F (s.store.cells ++ [lp] ++ [x]) t prev := by rw [List.append_assoc]; exact hlt.append (fun _ h => h)
  simp only [Option.bind_some]
  rw [StepAt.look (s := { s.store with cells := s.store.cells ++ [lp] ++ [x] }) hprev,
    StepAt.look (s := { s.store with cells := s.store.cells ++ [lp] ++ [x] }) hab]
  simp only [Option.bind_some]
  have hbase : ∀ (tr : List (Nat × Nat)) (sv : List Trans) (q : NodeQuestions) (fn : Nat → List (P × P)) (fv : Nat → List Trans),
      List.Forall₂ (StepAt k v.1 F (s.store.cells ++ [lp] ++ [x])) tr sv → (fv = fun a => (fn a).map k.trans) →
      (∀ a, ∀ m ∈ fn a, Within v.1 F m) →
      Rel k F { s with store := { s.store with cells := s.store.cells ++ [lp] ++ [x], transitions := tr }, lastPoint := none, questions := q,
                       forNodes := fn }
        (v.1, { v.2 with lastPoint := none, questions := q, stored := sv, forNodes := fv }) := by
    intro tr sv q fn fv h1 h2 h3
    refine ⟨⟨h.sound.nodup, fun a ha => ?_⟩, ?_, h1, h.sendPoint, h.sendTransition, rfl, ?_, rfl, h2, h.invalid, fun _ h => (by cases h),
      h.sendIn, h.sendWithin, h3⟩
    · have := h.sound.lt a ha
      simp only [List.length_append]; omega
    · exact imp_mem h.points (fun a _ z hz => by rw [List.append_assoc]; exact At.append hz)
    · rw [List.append_assoc]
      exact rel_append h.lastTransition (fun _ h => h)
  have hstored : List.Forall₂ (StepAt k v.1 F (s.store.cells ++ [lp] ++ [x])) s.store.transitions v.2.stored :=
    imp_mem h.stored (fun a _ z hz => by rw [List.append_assoc]; exact hz.append (fun _ h => h))
  have e : (⟨k.pt lp, k.pt x⟩ : Trans) = k.trans (lp, x) := rfl
  have e1 : (k.trans (lp, x)).src = k.pt lp := rfl
  have e2 : (k.trans (lp, x)).dst = k.pt x := rfl
  have e3 : ∀ b : Bool, (if b then ({ s.store with cells := s.store.cells ++ [lp] ++ [x] } : DataStore P).addTransition
        (s.store.cells.length, (s.store.cells ++ [lp]).length)
      else { s.store with cells := s.store.cells ++ [lp] ++ [x] }) =
      { s.store with
        cells := s.store.cells ++ [lp] ++ [x]
        transitions := if b then s.store.transitions ++ [(s.store.cells.length, (s.store.cells ++ [lp]).length)] else s.store.transitions } := by
    intro b; cases b <;> rfl
  simp only [e, e1, e2]
  split
  · cases p.segmentIdToAssignment (k.pt lp).seg with
    | none => exact .none
    | some f =>
    cases p.segmentIdToAssignment (k.pt x).seg with
    | none => exact .none
    | some g =>
    cases p.segmentIdToAssignment prev.dst.seg with
    | none => exact .none
    | some l =>
    simp only [Option.bind_some, findSplits_eq, h.questions]
    cases splits p s.questions (some prev) (some l) (k.trans (lp, x)) f g with
    | none => exact .none
    | some q =>
      simp only [Option.bind_some, Option.map_some]
      have e4 := e3 (decide (f = own))
      simp only [decide_eq_true_eq] at e4
      rw [e4]
      have hm : ({ s.store with
        cells := s.store.cells ++ [lp] ++ [x]
        transitions := if f = own then s.store.transitions ++ [(s.store.cells.length, (s.store.cells ++ [lp]).length)]
          else s.store.transitions } : DataStore P).materialize (s.store.cells.length, (s.store.cells ++ [lp]).length) = some (lp, x) := by
        simp only [DataStore.materialize]
        rw [show (s.store.cells ++ [lp] ++ [x])[s.store.cells.length]? = some lp from ha,
          show (s.store.cells ++ [lp] ++ [x])[(s.store.cells ++ [lp]).length]? = some x from hb]
        rfl
      rw [hm]
      simp only [Option.bind_some]
      have := hbase (if f = own then s.store.transitions ++ [(s.store.cells.length, (s.store.cells ++ [lp]).length)] else s.store.transitions)
        (if f = own then v.2.stored ++ [k.trans (lp, x)] else v.2.stored) q
        (fun c => if c = f then s.forNodes c ++ [(lp, x)] else s.forNodes c)
        (fun c => if c = f then v.2.forNodes c ++ [k.trans (lp, x)] else v.2.forNodes c)
        (by
          split
          · exact List.rel_append hstored (.cons hab .nil)
          · exact hstored)
        (by
          funext c
          rw [h.forNodes]
          split <;> simp)
        (by
          intro a m hm
          split at hm
          · rcases List.mem_append.1 hm with hm | hm
            · exact h.within a m hm
            · rw [List.mem_singleton.1 hm]; exact hwith
          · exact h.within a m hm)
      simp only [hs, hv] at this
      exact .some this
  · cases p.segmentIdToAssignment (k.trans first).src.seg with
    | none => exact .none
    | some f =>
    cases p.segmentIdToAssignment prev.dst.seg with
    | none => exact .none
    | some l =>
    simp only [Option.bind_some, splitBetween_eq, h.questions]
    cases splitBetween p s.questions (some prev) (k.trans first) f l with
    | none => exact .none
    | some q =>
      simp only [Option.bind_some, Option.map_some]
      have := hbase s.store.transitions v.2.stored q s.forNodes v.2.forNodes hstored h.forNodes h.within
      simp only [hs, hv] at this
      exact .some this

/-- `add_point_return` hands out the new cell. -/
theorem addPointReturn_eq (s : DataStore P) (x : P) :
    s.addPointReturn k x = some ({ s with
      cells := s.cells ++ [x]
      points := s.points ++ [s.cells.length]
      byId := Function.update s.byId (k.id x) (some s.cells.length) }, s.cells.length) := by
  simp [DataStore.addPointReturn, DataStore.newRef, DataStore.indexPointReturn, DataStore.indexPoint]

theorem addMaterialized_eq (s : DataStore P) (t : P × P) :
    ∃ ix, s.addMaterialized k t = some { s with
      cells := s.cells ++ [t.1, t.2]
      points := s.points ++ [s.cells.length, s.cells.length + 1]
      transitions := s.transitions ++ [(s.cells.length, s.cells.length + 1)]
      byId := ix } := by
  refine ⟨Function.update (Function.update s.byId (k.id t.1) (some s.cells.length)) (k.id t.2) (some (s.cells.length + 1)), ?_⟩
  simp [DataStore.addMaterialized, addPointReturn_eq, DataStore.addTransition]

theorem receive_rel {s : Seg P} {v : List P × SegState} (h : Rel k F s v) (ts : List (P × P)) :
    Option.Rel (Rel k F) (receive k s ts) (Op.value k p own v (.receive ts)) := by
  have key : ∃ st, ts.foldlM (DataStore.addMaterialized k) s.store = some st ∧
      Rel k F { s with store := st } (v.1 ++ ts.flatMap (fun t => [t.1, t.2]), { v.2 with stored := v.2.stored ++ ts.map k.trans }) := by
    induction ts generalizing s v with
    | nil => exact ⟨s.store, rfl, by simpa using h⟩
    | cons t ts ih =>
      obtain ⟨ix, hix⟩ := addMaterialized_eq (k := k) s.store t
      simp only [List.foldlM_cons, Option.bind_eq_bind, hix, Option.bind_some]
      have ha : At (s.store.cells ++ [t.1, t.2]) s.store.cells.length t.1 := by simp [At]
      have hb : At (s.store.cells ++ [t.1, t.2]) (s.store.cells.length + 1) t.2 := by simp [At]
      have hsub : ∀ x ∈ v.1, x ∈ v.1 ++ [t.1, t.2] := fun x hx => List.mem_append_left _ hx
      have h' : Rel k F { s with store := { s.store with
            cells := s.store.cells ++ [t.1, t.2]
            points := s.store.points ++ [s.store.cells.length, s.store.cells.length + 1]
            transitions := s.store.transitions ++ [(s.store.cells.length, s.store.cells.length + 1)]
            byId := ix } }
          (v.1 ++ [t.1, t.2], { v.2 with stored := v.2.stored ++ [k.trans t] }) := by
        refine ⟨⟨?_, ?_⟩, ?_, ?_, h.sendPoint, h.sendTransition, h.lastPoint,
          rel_append h.lastTransition hsub, h.questions, h.forNodes, h.invalid, fun x hx => hsub x (h.lastIn x hx),
          fun x hx => hsub x (h.sendIn x hx), fun m hm => (h.sendWithin m hm).mono hsub, fun a m hm => (h.within a m hm).mono hsub⟩
        · refine List.Nodup.append h.sound.nodup (by simp) ?_
          intro a ha hb
          have := h.sound.lt a ha
          simp at hb; omega
        · intro a ha
          simp only [List.length_append, List.length_cons, List.length_nil]
          rcases List.mem_append.1 ha with ha | ha
          · have := h.sound.lt a ha; omega
          · simp at ha; omega
        · exact List.rel_append (imp_mem h.points (fun _ _ _ hz => hz.append)) (.cons ha (.cons hb .nil))
        · exact List.rel_append (imp_mem h.stored (fun _ _ _ hz => hz.append hsub))
            (.cons ⟨t.1, t.2, ha, hb, rfl, by simp, .inl (by simp)⟩ .nil)
      obtain ⟨st, h1, h2⟩ := ih h'
      refine ⟨st, h1, ?_⟩
      simpa using h2
  obtain ⟨st, h1, h2⟩ := key
  simp only [receive, Op.value, h1, Option.bind_eq_bind, Option.bind_some]
  exact .some h2

theorem op_rel {s : Seg P} {v : List P × SegState} (h : Rel k F s v) (o : Op P) (ho : ∀ x t, o = .first x t → x ∈ F) :
    Option.Rel (Rel k F) (o.run k p own s) (o.value k p own v) := by
  cases o with
  | build => exact build_rel h.sound h.points h.stored h.sendPoint h.sendTransition h.questions h.invalid h.sendIn h.sendWithin
  | correct => exact correct_rel h
  | first x t => exact first_rel h (ho x t rfl) t
  | receive ts => exact receive_rel h ts
  | sent => exact .some ⟨h.sound, h.points, h.stored, rfl, rfl, h.lastPoint, h.lastTransition, h.questions, rfl, h.invalid, h.lastIn,
      fun _ h => (by cases h), fun _ h => (by cases h), fun _ _ h => (by cases h)⟩

theorem run_rel {s : Seg P} {v : List P × SegState} (h : Rel k F s v) (os : List (Op P)) (ho : ∀ x t, .first x t ∈ os → x ∈ F) :
    Option.Rel (Rel k F) (os.foldlM (Op.run k p own) s) (os.foldlM (Op.value k p own) v) := by
  induction os generalizing s v with
  | nil => exact .some h
  | cons o os ih =>
    simp only [List.foldlM_cons, Option.bind_eq_bind]
    have h1 := op_rel (p := p) (own := own) h o (fun x t e => ho x t (by simp [e]))
    revert h1
    generalize o.run k p own s = a
    generalize o.value k p own v = b
    intro h1
    cases h1 with
    | none => exact .none
    | some h1 => exact ih h1 (fun x t hx => ho x t (List.mem_cons_of_mem _ hx))

/-! ## What a user of the store sees -/

/-- The copies of a step carry the values the cells have now. -/
theorem getTransitions_eq {s : DataStore P} {l : List Trans} (h : List.Forall₂ (StepAt k pts F s.cells) s.transitions l) :
    ∃ ms, s.getTransitions = some ms ∧ ms.map k.trans = l ∧ ∀ m ∈ ms, Within pts F m := by
  unfold DataStore.getTransitions
  revert h
  generalize s.transitions = ts
  intro h
  induction h with
  | nil => exact ⟨[], rfl, rfl, by simp⟩
  | cons h _ ih =>
    obtain ⟨ms, h1, h2, h3⟩ := ih
    obtain ⟨y, hy, hv, hw⟩ := h.materialize
    refine ⟨y :: ms, ?_, by simp [h2, hv], ?_⟩
    · simp [List.mapM_cons, hy, h1]
    · intro m hm
      rcases List.mem_cons.1 hm with rfl | hm
      · exact hw
      · exact h3 m hm

theorem getPoints_eq {s : DataStore P} {l : List P} (h : List.Forall₂ (At s.cells) s.points l) : s.getPoints = some l := by
  unfold DataStore.getPoints
  revert h
  generalize s.points = as
  intro h
  induction h with
  | nil => rfl
  | cons h _ ih => simp [List.mapM_cons, show s.cells[_]? = some _ from h, ih]

/-- The points of a node after the rotation. -/
theorem add_rel {C : Type} (make : Nat → C → Option P) (offset : Nat) (cs : List C) {s : DataStore P} {l : List P} (hs : Sound s)
    (h : List.Forall₂ (At s.cells) s.points l) (ht : s.transitions = []) :
    Option.Rel (fun st xs => Sound st ∧ List.Forall₂ (At st.cells) st.points (l ++ xs) ∧ st.transitions = [])
      (s.addPointsWithOffset k make offset cs) ((cs.zipIdx offset).mapM (fun c => make c.2 c.1)) := by
  induction cs generalizing offset s l with
  | nil => exact .some ⟨hs, by simpa using h, ht⟩
  | cons c cs ih =>
    simp only [DataStore.addPointsWithOffset, List.zipIdx_cons, List.mapM_cons, Option.bind_eq_bind]
    cases make offset c with
    | none => exact .none
    | some x =>
      have he : s.addPoint k x = some { s with
          cells := s.cells ++ [x]
          points := s.points ++ [s.cells.length]
          byId := Function.update s.byId (k.id x) (some s.cells.length) } := by
        simp [DataStore.addPoint, DataStore.newRef, DataStore.indexPoint]
      simp only [he, Option.bind_some]
      have h' := ih (offset + 1) (l := l ++ [x]) (s := { s with
          cells := s.cells ++ [x]
          points := s.points ++ [s.cells.length]
          byId := Function.update s.byId (k.id x) (some s.cells.length) })
        ⟨by
          refine List.Nodup.append hs.nodup (by simp) ?_
          intro a ha hb
          have := hs.lt a ha
          simp at hb; omega,
        by
          intro a ha
          simp only [List.length_append, List.length_cons, List.length_nil]
          rcases List.mem_append.1 ha with ha | ha
          · have := hs.lt a ha; omega
          · simp at ha; omega⟩
        (List.rel_append (imp_mem h (fun _ _ _ hz => hz.append)) (.cons (by simp [At]) .nil)) ht
      revert h'
      generalize DataStore.addPointsWithOffset k make (offset + 1) _ cs = o
      cases List.mapM (fun c : C × Nat => make c.2 c.1) (cs.zipIdx (offset + 1)) with
      | none => intro h'; cases h'; exact .none
      | some xs =>
        intro h'
        cases h' with
        | some h' => exact .some (by simpa using h')

/-- **C97.** The segmentation of a node on shared points, whatever it does in which order (segment, correct, take in the first point of the
next node, take in steps of other nodes, send), does the same as the segmentation by value: it panics in the same cases, and else the
store holds the same points and steps, and the same is sent and asked. The points of every step are among the points of the store as they
are now (so all of them are mirrored or none is), except that a step may end in a first point of the next node. -/
theorem C97_values {C : Type} (make : Nat → C → Option P) (offset : Nat) (cs : List C) (os : List (Op P)) :
    match (DataStore.addPointsWithOffset k make offset {} cs).bind (fun st => os.foldlM (Op.run k p own) { store := st }),
      ((cs.zipIdx offset).mapM (fun c => make c.2 c.1)).bind (fun pts => os.foldlM (Op.value k p own) (pts, {})) with
    | some s, some v =>
      s.store.getPoints = some v.1 ∧
      (∃ steps, s.store.getTransitions = some steps ∧ steps.map k.trans = v.2.stored ∧
        ∀ m ∈ steps, m.1 ∈ v.1 ∧ (m.2 ∈ v.1 ∨ ∃ t, .first m.2 t ∈ os)) ∧
      s.questions = v.2.questions ∧ s.sendPoint.map k.pt = v.2.sendPoint ∧ s.sendTransition.map k.trans = v.2.sendTransition ∧
      s.lastPoint.map k.pt = v.2.lastPoint ∧ (∀ a, (s.forNodes a).map k.trans = v.2.forNodes a) ∧ s.invalid = v.2.invalid ∧
      (∀ a, ∀ m ∈ s.forNodes a, m.1 ∈ v.1 ∧ (m.2 ∈ v.1 ∨ ∃ t, .first m.2 t ∈ os))
    | none, none => True
    | _, _ => False := by
  have h0 := add_rel (k := k) make offset cs (s := {}) (l := []) ⟨by simp, by simp⟩ .nil rfl
  revert h0
  generalize DataStore.addPointsWithOffset k make offset {} cs = o
  generalize List.mapM (fun c : C × Nat => make c.2 c.1) (cs.zipIdx offset) = o'
  intro h0
  cases h0 with
  | none => trivial
  | @some st pts h0 =>
    obtain ⟨h1, h2, h3⟩ := h0
    simp only [Option.bind_some]
    have hF : ∀ x t, Op.first x t ∈ os → x ∈ os.filterMap (fun | .first x _ => some x | _ => none) := fun x t h =>
      List.mem_filterMap.2 ⟨_, h, rfl⟩
    have hF' : ∀ x ∈ os.filterMap (fun | .first x _ => some x | _ => none), ∃ t, Op.first x t ∈ os := by
      intro x hx
      obtain ⟨o, ho, e⟩ := List.mem_filterMap.1 hx
      cases o with
      | first y t => cases e; exact ⟨t, ho⟩
      | _ => cases e
    have hr := run_rel (p := p) (own := own) (k := k) (F := os.filterMap (fun | .first x _ => some x | _ => none))
      (s := { store := st }) (v := (pts, {}))
      ⟨h1, h2, by rw [h3]; exact .nil, rfl, rfl, rfl, .none, rfl, rfl, rfl, fun _ h => (by cases h), fun _ h => (by cases h),
        fun _ h => (by cases h), fun _ _ h => (by cases h)⟩ os hF
    revert hr
    generalize os.foldlM (Op.run k p own) _ = a
    generalize os.foldlM (Op.value k p own) _ = b
    intro hr
    cases hr with
    | none => trivial
    | some hr =>
      obtain ⟨ms, e1, e2, e3⟩ := getTransitions_eq hr.stored
      refine ⟨getPoints_eq hr.points, ⟨ms, e1, e2, fun m hm => ?_⟩, hr.questions.symm, hr.sendPoint.symm, hr.sendTransition.symm,
        hr.lastPoint.symm, fun a => by rw [hr.forNodes], hr.invalid.symm, fun a m hm => ?_⟩
      · exact ⟨(e3 m hm).1, (e3 m hm).2.imp id (hF' _)⟩
      · exact ⟨(hr.within a m hm).1, (hr.within a m hm).2.imp id (hF' _)⟩

/-! ## The indexes -/

/-- Calls of the data store (`add_points_with_offset`, `add_intersections`, `add_edges`, `add_materialized_transitions` and
`add_materialized_edges` are loops over these). -/
inductive Call (P : Type) where
  | addPoint (x : P)
  | mirrorPoints
  | addTransition (t : Nat × Nat)
  | addMaterialized (t : P × P)
  | clearTransitions
  | addIntersection (x : Inter)
  | addNode (v : Node)
  | addEdge (e : Edge)
  | addMaterializedEdge (e : Edge)
  | sortEdges
  | wipeGraph

def Call.run (k : Kind P) (s : DataStore P) : Call P → Option (DataStore P)
  | .addPoint x => s.addPoint k x
  | .mirrorPoints => s.mirrorPoints k
  | .addTransition t => some (s.addTransition t)
  | .addMaterialized t => s.addMaterialized k t
  | .clearTransitions => some s.clearTransitions
  | .addIntersection x => some (s.addIntersection x)
  | .addNode v => some (s.addNode v)
  | .addEdge e => some (s.addEdge e)
  | .addMaterializedEdge e => some (s.addMaterializedEdge e)
  | .sortEdges => some s.sortEdges
  | .wipeGraph => some s.wipeGraph.2

/-- The intersections of a segment in the calls, in their order. -/
def intersectionsIn (seg : Nat) (calls : List (Call P)) : List Inter :=
  calls.filterMap (fun | .addIntersection x => if x.2 = seg then some x else none | _ => none)

/-- The nodes of the step of a point in the calls since the graph was wiped last, in their order. -/
def nodesSince (id : Nat) (calls : List (Call P)) : List Node :=
  calls.foldl (fun acc => fun
    | .addNode v => acc ++ [v].filter (fun v => v.fromId = id)
    | .addMaterializedEdge e => acc ++ [e.src, e.dst].filter (fun v => v.fromId = id)
    | .wipeGraph => []
    | _ => acc) []

/-- The edges: those added since the graph was wiped last, sorted on request. -/
def edgesSince (calls : List (Call P)) : List Edge :=
  calls.foldl (fun acc => fun
    | .addEdge e => acc ++ [e]
    | .addMaterializedEdge e => acc ++ [e]
    | .sortEdges => Transposition.sortEdges acc
    | .wipeGraph => []
    | _ => acc) []

/-- The points after one more call. -/
def pointsAfter (k : Kind P) (acc : List P) : Call P → Option (List P)
  | .addPoint x => some (acc ++ [x])
  | .addMaterialized t => some (acc ++ [t.1, t.2])
  | .mirrorPoints => acc.mapM k.mirror
  | _ => some acc

/-- The points added, mirrored on request. -/
def pointsOf (k : Kind P) (calls : List (Call P)) : Option (List P) := calls.foldlM (pointsAfter k) []

/-- An entry of an index for the elements with a key. -/
def entry {α : Type} (l : List α) : Option (List α) := if l = [] then none else some l

theorem entry_push {α : Type} (l : List α) (x : α) : DataStore.push (entry l) x = entry (l ++ [x]) := by
  unfold entry DataStore.push
  cases l <;> simp

/-- Reading the store after a list of calls. -/
structure Reads (k : Kind P) (s : DataStore P) (calls : List (Call P)) (xs : List P) : Prop where
  sound : Sound s
  points : List.Forall₂ (At s.cells) s.points xs
  bySegment : ∀ seg, s.bySegment seg = entry (intersectionsIn seg calls)
  byPoint : ∀ id, s.byPoint id = entry (nodesSince id calls)
  edges : s.edges = edgesSince calls

theorem byPoint_addNode {s : DataStore P} {f : Nat → List Node} (h : ∀ id, s.byPoint id = entry (f id)) (v : Node) (id : Nat) :
    (s.addNode v).byPoint id = entry (f id ++ [v].filter (fun v => v.fromId = id)) := by
  simp only [DataStore.addNode]
  by_cases hv : v.fromId = id
  · subst hv
    rw [Function.update_self, h]
    simpa using entry_push (f v.fromId) v
  · rw [Function.update_of_ne (fun e => hv e.symm), h]
    simp [hv]

theorem call_rel {s : DataStore P} {calls : List (Call P)} {xs : List P} (h : Reads k s calls xs) (c : Call P) :
    Option.Rel (fun s xs => Reads k s (calls ++ [c]) xs) (c.run k s)
      (pointsAfter k xs c) := by
  have hI : ∀ {s' : DataStore P}, s'.bySegment = s.bySegment → (∀ x, c ≠ .addIntersection x) →
      ∀ seg, s'.bySegment seg = entry (intersectionsIn seg (calls ++ [c])) := by
    intro s' he hc seg
    rw [he, h.bySegment, intersectionsIn, intersectionsIn, List.filterMap_append]
    cases c <;> simp at hc ⊢
  have hN : ∀ {s' : DataStore P}, s'.byPoint = s.byPoint → (∀ x, c ≠ .addNode x) → (∀ e, c ≠ .addMaterializedEdge e) → c ≠ .wipeGraph →
      ∀ id, s'.byPoint id = entry (nodesSince id (calls ++ [c])) := by
    intro s' he h1 h2 h3 id
    rw [he, h.byPoint, nodesSince, nodesSince, List.foldl_append]
    cases c <;> simp at h1 h2 h3 ⊢
  have hE : ∀ {s' : DataStore P}, s'.edges = s.edges → (∀ x, c ≠ .addEdge x) → (∀ e, c ≠ .addMaterializedEdge e) → c ≠ .wipeGraph →
      c ≠ .sortEdges → s'.edges = edgesSince (calls ++ [c]) := by
    intro s' he h1 h2 h3 h4
    rw [he, h.edges, edgesSince, edgesSince, List.foldl_append]
    cases c <;> simp at h1 h2 h3 h4 ⊢
  cases c with
  | addPoint x =>
    have he : s.addPoint k x = some { s with
        cells := s.cells ++ [x]
        points := s.points ++ [s.cells.length]
        byId := Function.update s.byId (k.id x) (some s.cells.length) } := by
      simp [DataStore.addPoint, DataStore.newRef, DataStore.indexPoint]
    simp only [Call.run, he]
    refine .some ⟨⟨?_, ?_⟩, ?_, hI rfl (by simp), hN rfl (by simp) (by simp) (by simp), hE rfl (by simp) (by simp) (by simp) (by simp)⟩
    · refine List.Nodup.append h.sound.nodup (by simp) ?_
      intro a ha hb
      have := h.sound.lt a ha
      simp at hb; omega
    · intro a ha
      simp only [List.length_append, List.length_cons, List.length_nil]
      rcases List.mem_append.1 ha with ha | ha
      · have := h.sound.lt a ha; omega
      · simp at ha; omega
    · exact List.rel_append (imp_mem h.points (fun _ _ _ hz => hz.append)) (.cons (by simp [At]) .nil)
  | mirrorPoints =>
    have hm := mirror_rel (k := k) h.sound.nodup (s := s) h.points
    simp only [Call.run, DataStore.mirrorPoints, pointsAfter]
    revert hm
    cases xs.mapM k.mirror with
    | none => intro hm; simp only at hm; rw [hm]; exact .none
    | some ys =>
      rintro ⟨c, h1, h2, h3, h4⟩
      rw [h1]
      exact .some ⟨⟨h.sound.nodup, fun a ha => (h.sound.lt a ha).trans_eq h3.symm⟩, h2, hI rfl (by simp), hN rfl (by simp) (by simp) (by simp),
        hE rfl (by simp) (by simp) (by simp) (by simp)⟩
  | addTransition t =>
    exact .some ⟨⟨h.sound.nodup, h.sound.lt⟩, h.points, hI rfl (by simp), hN rfl (by simp) (by simp) (by simp),
      hE rfl (by simp) (by simp) (by simp) (by simp)⟩
  | addMaterialized t =>
    obtain ⟨ix, hix⟩ := addMaterialized_eq (k := k) s t
    simp only [Call.run, hix]
    refine .some ⟨⟨?_, ?_⟩, ?_, hI rfl (by simp), hN rfl (by simp) (by simp) (by simp), hE rfl (by simp) (by simp) (by simp) (by simp)⟩
    · refine List.Nodup.append h.sound.nodup (by simp) ?_
      intro a ha hb
      have := h.sound.lt a ha
      simp at hb; omega
    · intro a ha
      simp only [List.length_append, List.length_cons, List.length_nil]
      rcases List.mem_append.1 ha with ha | ha
      · have := h.sound.lt a ha; omega
      · simp at ha; omega
    · exact List.rel_append (imp_mem h.points (fun _ _ _ hz => hz.append)) (.cons (by simp [At]) (.cons (by simp [At]) .nil))
  | clearTransitions =>
    exact .some ⟨⟨h.sound.nodup, h.sound.lt⟩, h.points, hI rfl (by simp), hN rfl (by simp) (by simp) (by simp),
      hE rfl (by simp) (by simp) (by simp) (by simp)⟩
  | addIntersection x =>
    refine .some ⟨⟨h.sound.nodup, h.sound.lt⟩, h.points, fun seg => ?_, hN rfl (by simp) (by simp) (by simp),
      hE rfl (by simp) (by simp) (by simp) (by simp)⟩
    simp only [DataStore.addIntersection, intersectionsIn, List.filterMap_append]
    by_cases hx : x.2 = seg
    · subst hx
      rw [Function.update_self, h.bySegment, entry_push]
      simp [intersectionsIn]
    · rw [Function.update_of_ne (fun e => hx e.symm), h.bySegment]
      simp [intersectionsIn, hx]
  | addNode v =>
    refine .some ⟨⟨h.sound.nodup, h.sound.lt⟩, h.points, hI rfl (by simp), fun id => ?_, hE rfl (by simp) (by simp) (by simp) (by simp)⟩
    rw [byPoint_addNode h.byPoint, nodesSince, nodesSince, List.foldl_append]
    rfl
  | addEdge e =>
    refine .some ⟨⟨h.sound.nodup, h.sound.lt⟩, h.points, hI rfl (by simp), hN rfl (by simp) (by simp) (by simp), ?_⟩
    simp only [DataStore.addEdge, h.edges, edgesSince, List.foldl_append]
    rfl
  | addMaterializedEdge e =>
    refine .some ⟨⟨h.sound.nodup, h.sound.lt⟩, h.points, hI rfl (by simp), fun id => ?_, ?_⟩
    · have h1 := byPoint_addNode (byPoint_addNode h.byPoint e.src) e.dst id
      refine (show ((s.addMaterializedEdge e).byPoint id) = ((s.addNode e.src).addNode e.dst).byPoint id from rfl).trans (h1.trans ?_)
      rw [nodesSince, nodesSince, List.foldl_append, List.append_assoc, ← List.filter_append]
      rfl
    · simp only [DataStore.addMaterializedEdge, DataStore.addEdge, DataStore.addNode, h.edges, edgesSince, List.foldl_append]
      rfl
  | sortEdges =>
    refine .some ⟨⟨h.sound.nodup, h.sound.lt⟩, h.points, hI rfl (by simp), hN rfl (by simp) (by simp) (by simp), ?_⟩
    simp only [DataStore.sortEdges, h.edges, edgesSince, List.foldl_append]
    rfl
  | wipeGraph =>
    refine .some ⟨⟨h.sound.nodup, h.sound.lt⟩, h.points, hI rfl (by simp), fun id => ?_, ?_⟩
    · simp [DataStore.wipeGraph, nodesSince, entry]
    · simp [DataStore.wipeGraph, edgesSince]

theorem calls_rel (calls : List (Call P)) :
    Option.Rel (fun s xs => Reads k s calls xs) (calls.foldlM (Call.run k) {}) (pointsOf k calls) := by
  induction calls using List.reverseRecOn with
  | nil => exact .some ⟨⟨by simp, by simp⟩, .nil, fun _ => rfl, fun _ => rfl, rfl⟩
  | append_singleton calls c ih =>
    rw [pointsOf, List.foldlM_append, List.foldlM_append]
    rw [pointsOf] at ih
    revert ih
    generalize calls.foldlM (Call.run k) {} = a
    generalize calls.foldlM (pointsAfter k) [] = b
    intro ih
    cases ih with
    | none => exact .none
    | some h =>
      have := call_rel h c
      simpa using this

/-- **C97.** After any calls of the data store: the points are the points added, each of them mirrored exactly as often as
`mirror_points` was called since; the lookup by segment finds exactly the intersections of the segment, and the lookup by point exactly
the nodes of the point added since the graph was wiped last, in the order in which they were added, and nothing (`None`) iff there are
none; the edges are those added since then, sorted on request. -/
theorem C97_index (calls : List (Call P)) {s : DataStore P} (h : calls.foldlM (Call.run k) {} = some s) :
    s.getPoints = pointsOf k calls ∧
    (∀ seg, s.bySegment seg = if intersectionsIn seg calls = [] then none else some (intersectionsIn seg calls)) ∧
    (∀ id, s.byPoint id = if nodesSince id calls = [] then none else some (nodesSince id calls)) ∧
    s.edges = edgesSince calls ∧ s.wipeGraph.1 = edgesSince calls := by
  have hr := calls_rel (k := k) calls
  rw [h] at hr
  cases hp : pointsOf k calls with
  | none => rw [hp] at hr; cases hr
  | some xs =>
    rw [hp] at hr
    cases hr with
    | some hr => exact ⟨getPoints_eq hr.points, hr.bySegment, hr.byPoint, hr.edges, hr.edges⟩

/-- **C97.** The calls panic exactly if a point cannot be mirrored. -/
theorem C97_panics (calls : List (Call P)) : calls.foldlM (Call.run k) {} = none ↔ pointsOf k calls = none := by
  have hr := calls_rel (k := k) calls
  revert hr
  generalize calls.foldlM (Call.run k) {} = a
  generalize pointsOf k calls = b
  intro hr
  cases hr <;> simp

/-- **C97.** `add_point_return` returns a reference to the new point, also if there are other points with its id. -/
theorem C97_return (calls : List (Call P)) {s : DataStore P} (h : calls.foldlM (Call.run k) {} = some s) (x : P) :
    ∃ s' a, s.addPointReturn k x = some (s', a) ∧ a ∉ s.points ∧ s'.points = s.points ++ [a] ∧ s'.cells[a]? = some x ∧
      ∀ b ∈ s.points, s'.cells[b]? = s.cells[b]? := by
  have hr := calls_rel (k := k) calls
  rw [h] at hr
  cases hp : pointsOf k calls with
  | none => rw [hp] at hr; cases hr
  | some xs =>
    rw [hp] at hr
    cases hr with
    | some hr =>
      refine ⟨_, _, addPointReturn_eq s x, fun hm => ?_, rfl, by simp, fun b hb => ?_⟩
      · exact absurd (hr.sound.lt _ hm) (by simp)
      · exact List.getElem?_append_left (hr.sound.lt b hb)

end Store
end S2G
