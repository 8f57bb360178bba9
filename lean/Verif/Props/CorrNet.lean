import Verif.Model.CorrNet
import Verif.Props.Ring
import Verif.Props.Segmentation
import Verif.Props.SelfCorrection
import Mathlib.Algebra.BigOperators.Group.Finset.Basic
import Mathlib.Algebra.Order.BigOperators.Group.Finset
import Mathlib.Algebra.BigOperators.Pi

/-!
# Segmentation with self correction on several nodes (C73)
-/

namespace S2G
namespace CorrNet

open SelfCorrection

variable {p : Parameters} {pts : Nat → List Pt} {mir : Pt → Pt}

/-! ## The ring of counts -/

theorem counts_nil : counts [] = [] := rfl
@[simp] theorem counts_count (m : RMsg Count) (l : List CMsg) : counts (.count m :: l) = m :: counts l := rfl
@[simp] theorem counts_first (pt : Pt) (t : Trans) (l : List CMsg) : counts (.first pt t :: l) = counts l := rfl
@[simp] theorem counts_segs (m : DMsg (List Trans)) (l : List CMsg) : counts (.segs m :: l) = counts l := rfl
@[simp] theorem counts_append (a b : List CMsg) : counts (a ++ b) = counts a ++ counts b := by simp [counts]
@[simp] theorem counts_map_count (l : List (RMsg Count)) : counts (l.map CMsg.count) = l := by
  induction l with
  | nil => rfl
  | cons a l ih => simp [ih]
@[simp] theorem counts_map_segs (l : List (DMsg (List Trans))) : counts (l.map CMsg.segs) = [] := by
  induction l with
  | nil => rfl
  | cons a l ih => simp [ih]

/-- The state of a node after it has segmented its own points. -/
def built (p : Parameters) (pts : Nat → List Pt) (i : Nat) : SegState := (SegState.buildSegments p i {} (pts i)).getD {}

theorem built_spec (hp : p.WellFormed) (pts : Nat → List Pt) (i : Nat) :
    SegState.buildSegments p i {} (pts i) = some (built p pts i) ∧ SegState.Built p i {} (pts i) (built p pts i) := by
  obtain ⟨l, hl, hb⟩ := SegState.buildSegments_built hp i {} (pts i)
  simp [built, hl, hb]

/-- The rotation of the counts inside the state. -/
structure RingRel (p : Parameters) (pts : Nat → List Pt) (s : CorrNet) (r : RingNet Count) : Prop where
  proto : r.proto = s.cproto
  started : ∀ i, r.started i = (s.loc i).isSome
  mailbox : ∀ i, r.mailbox i = counts (s.mailbox i)
  net : ∀ i < p.nClusterNodes, r.net i = counts (s.link (RingNet.prv p.nClusterNodes i) i)
  other : ∀ j i, j ≠ RingNet.prv p.nClusterNodes i → counts (s.link j i) = []
  pay : r.pay = fun j => countMsg p.nClusterNodes (built p pts j)
  sum : ∀ i l, s.loc i = some l → s.decided i = none →
    (⟨s.global i, l.invalid⟩ : Count) = totals (r.pay i) ((r.processed i).map RMsg.body)
  fresh : ∀ i, s.loc i = none → s.global i = 0 ∧ r.processed i = []
  undecided : ∀ i, s.decided i = none ↔ r.done i = 0
  decided : ∀ i d, s.decided i = some d → d = mirrors (totals (r.pay i) ((r.processed i).map RMsg.body))

theorem ringRel_init : RingRel p pts {} (RingNet.init (fun j => countMsg p.nClusterNodes (built p pts j))) where
  proto := rfl
  started := fun _ => rfl
  mailbox := fun _ => rfl
  net := fun _ _ => rfl
  other := fun _ _ _ => rfl
  pay := rfl
  sum := fun _ _ h => by cases h
  fresh := fun _ _ => ⟨rfl, rfl⟩
  undecided := fun _ => by simp [RingNet.init]
  decided := fun _ _ h => by cases h

theorem totals_append (own : Count) (l : List Count) (m : Count) :
    totals own (l ++ [m]) = ⟨(totals own l).count + m.count, (totals own l).clockwise + m.clockwise⟩ := by
  simp [totals, List.foldl_append]

/-- Changes which the ring does not see. -/
structure Unseen (s t : CorrNet) : Prop where
  cproto : t.cproto = s.cproto
  global : t.global = s.global
  decided : t.decided = s.decided
  mailbox : ∀ i, counts (t.mailbox i) = counts (s.mailbox i)
  link : ∀ j i, counts (t.link j i) = counts (s.link j i)
  some : ∀ i, (t.loc i).isSome = (s.loc i).isSome
  loc : ∀ i, t.decided i = none → (t.loc i).map SegState.invalid = (s.loc i).map SegState.invalid

theorem RingRel.unseen {s t : CorrNet} {r : RingNet Count} (h : RingRel p pts s r) (u : Unseen s t) : RingRel p pts t r where
  proto := h.proto.trans u.cproto.symm
  started := fun i => (h.started i).trans (u.some i).symm
  mailbox := fun i => (h.mailbox i).trans (u.mailbox i).symm
  net := fun i hi => (h.net i hi).trans (u.link _ _).symm
  other := fun j i hj => (u.link _ _).trans (h.other j i hj)
  pay := h.pay
  sum := fun i l hl hd => by
    have := u.loc i hd
    rw [hl] at this
    cases hs : s.loc i with
    | none => rw [hs] at this; simp at this
    | some l' =>
      rw [hs] at this
      simp only [Option.map_some, Option.some.injEq] at this
      rw [u.global, this]
      exact h.sum i l' hs (by rw [← u.decided]; exact hd)
  fresh := fun i hl => by
    have := u.some i
    rw [hl] at this
    rw [u.global]
    refine h.fresh i ?_
    cases hs : s.loc i with
    | none => rfl
    | some l' => rw [hs] at this; simp at this
  undecided := fun i => by rw [u.decided]; exact h.undecided i
  decided := fun i d hd => h.decided i d (by rw [← u.decided]; exact hd)

theorem Unseen.rfl' (s : CorrNet) : Unseen s s := ⟨rfl, rfl, rfl, fun _ => rfl, fun _ _ => rfl, fun _ => rfl, fun _ _ => rfl⟩

theorem Unseen.trans {s t u : CorrNet} (a : Unseen s t) (b : Unseen t u) : Unseen s u where
  cproto := b.cproto.trans a.cproto
  global := b.global.trans a.global
  decided := b.decided.trans a.decided
  mailbox := fun i => (b.mailbox i).trans (a.mailbox i)
  link := fun j i => (b.link j i).trans (a.link j i)
  some := fun i => (b.some i).trans (a.some i)
  loc := fun i h => (b.loc i h).trans (a.loc i (by rw [← b.decided]; exact h))

theorem unseen_post (s : CorrNet) (i j : Nat) (m : CMsg) (hm : counts [m] = []) : Unseen s (s.post i j m) where
  cproto := rfl
  global := rfl
  decided := rfl
  mailbox := fun _ => rfl
  link := fun a b => by
    simp only [post]
    by_cases ha : a = i
    · subst ha
      rw [Function.update_self]
      by_cases hb : b = j
      · subst hb; rw [Function.update_self]; simp [hm]
      · rw [Function.update_of_ne hb]
    · rw [Function.update_of_ne ha]
  some := fun _ => rfl
  loc := fun _ _ => rfl

theorem unseen_distribute (n : Nat) (s : CorrNet) (i : Nat) (f : Nat → List Trans) : Unseen s (distribute n s i f) where
  cproto := rfl
  global := rfl
  decided := rfl
  mailbox := fun a => by
    simp only [distribute]
    by_cases ha : a = i
    · subst ha; rw [Function.update_self]; simp
    · rw [Function.update_of_ne ha]
  link := fun a b => by
    simp only [distribute]
    by_cases ha : a = i
    · subst ha
      rw [Function.update_self]
      split <;> simp
      rfl
    · rw [Function.update_of_ne ha]
  some := fun _ => rfl
  loc := fun _ _ => rfl

theorem unseen_trySend (n : Nat) (s : CorrNet) (i : Nat) (a : Option Pt) (b : Option Trans) : Unseen s (trySend n s i a b) := by
  unfold trySend
  split
  · exact unseen_post _ _ _ _ rfl
  · exact Unseen.rfl' _

theorem unseen_loc (s : CorrNet) (i : Nat) (l : SegState) (h : (s.loc i).isSome)
    (hl : s.decided i = none → (s.loc i).map SegState.invalid = some l.invalid) :
    Unseen s { s with loc := Function.update s.loc i (some l) } := by
  refine ⟨rfl, rfl, rfl, fun _ => rfl, fun _ _ => rfl, fun a => ?_, fun a hd => ?_⟩
  · simp only
    by_cases ha : a = i
    · subst ha; rw [Function.update_self, h]; rfl
    · rw [Function.update_of_ne ha]
  · simp only
    by_cases ha : a = i
    · subst ha; rw [Function.update_self, hl hd]; rfl
    · rw [Function.update_of_ne ha]

theorem unseen_distributeOrWait (s : CorrNet) (i : Nat) (l : SegState) (h : (s.loc i).isSome) (hd : s.decided i ≠ none) :
    Unseen s (distributeOrWait p s i l) := by
  have h1 := (unseen_loc s i { l with sendPoint := none, sendTransition := none } h (fun h => absurd h hd)).trans
    (unseen_trySend p.nClusterNodes _ i l.sendPoint l.sendTransition)
  unfold distributeOrWait
  split
  · exact h1
  · exact h1.trans (unseen_distribute _ _ _ _)

theorem build_ne_none (hp : p.WellFormed) (i : Nat) (l : SegState) (xs : List Pt) : SegState.buildSegments p i l xs ≠ none := by
  obtain ⟨l', hl', -⟩ := SegState.buildSegments_built hp i l xs
  rw [hl']; simp

theorem build_of_some (hp : p.WellFormed) {i : Nat} {l y : SegState} {xs : List Pt} (h : SegState.buildSegments p i l xs = some y) :
    SegState.Built p i l xs y := by
  obtain ⟨l', hl', hb⟩ := SegState.buildSegments_built hp i l xs
  cases Option.some.inj (h.symm.trans hl')
  exact hb

theorem unseen_correct (hp : p.WellFormed) (s : CorrNet) (i : Nat) (l : SegState) (h : (s.loc i).isSome) :
    Unseen { s with decided := Function.update s.decided i (some (mirrors ⟨s.global i, l.invalid⟩)) } (correct p pts mir s i l) := by
  unfold correct
  by_cases hm : mirrors ⟨s.global i, l.invalid⟩ = true
  · rw [if_pos hm, hm]
    obtain ⟨l', hl', -⟩ := SegState.buildSegments_built hp i (cleared l) ((points pts s i).map mir)
    rw [hl']
    refine Unseen.trans (t := { s with got := Function.update s.got i [], decided := Function.update s.decided i (some true) }) ?_ ?_
    · exact ⟨rfl, rfl, rfl, fun _ => rfl, fun _ _ => rfl, fun _ => rfl, fun _ _ => rfl⟩
    · exact unseen_distributeOrWait _ _ _ h (by simp)
  · rw [if_neg hm, Bool.eq_false_iff.2 hm]
    exact unseen_distributeOrWait _ _ _ h (by simp)

theorem onFirstPoint_invalid {i : Nat} {l l' : SegState} {pt : Pt} {t : Trans} (h : l.onFirstPoint p i pt t = some l') :
    l'.invalid = l.invalid ∧ l'.sendPoint = l.sendPoint ∧ l'.sendTransition = l.sendTransition := by
  have hb : ∀ {a b : SegState} {prev t fn lt}, SegState.splitBetween a p prev t fn lt = some b →
      b.invalid = a.invalid ∧ b.sendPoint = a.sendPoint ∧ b.sendTransition = a.sendTransition := by
    intro a b prev t fn lt h
    unfold SegState.splitBetween at h
    split at h
    · simp only [Option.bind_eq_bind, Option.bind_eq_some_iff] at h
      obtain ⟨q, _, h⟩ := h
      cases Option.some.inj h
      exact ⟨rfl, rfl, rfl⟩
    · cases Option.some.inj h; exact ⟨rfl, rfl, rfl⟩
  have hw : ∀ {a b : SegState} {prev t fn tn}, SegState.splitWithin a p prev t fn tn = some b →
      b.invalid = a.invalid ∧ b.sendPoint = a.sendPoint ∧ b.sendTransition = a.sendTransition := by
    intro a b prev t fn tn h
    unfold SegState.splitWithin at h
    split at h
    · simp only [Option.bind_eq_bind, Option.bind_eq_some_iff] at h
      obtain ⟨q, _, h⟩ := h
      cases Option.some.inj h
      exact ⟨rfl, rfl, rfl⟩
    · cases Option.some.inj h; exact ⟨rfl, rfl, rfl⟩
  unfold SegState.onFirstPoint at h
  simp only [Option.bind_eq_bind, Option.bind_eq_some_iff] at h
  obtain ⟨lp, _, lt, _, h⟩ := h
  split at h
  · simp only [Option.bind_eq_some_iff] at h
    obtain ⟨fn, _, tn, _, lto, _, a, h, h'⟩ := h
    cases Option.some.inj h'
    unfold SegState.findSplits at h
    simp only [Option.bind_eq_bind, Option.bind_eq_some_iff] at h
    obtain ⟨b, h1, h2⟩ := h
    have h1 := hb h1
    have h2 := hw h2
    simp only [SegState.record]
    exact ⟨h2.1.trans h1.1, h2.2.1.trans h1.2.1, h2.2.2.trans h1.2.2⟩
  · simp only [Option.bind_eq_some_iff] at h
    obtain ⟨fn, _, lto, _, h⟩ := h
    have := hb h
    exact ⟨this.1, this.2.1, this.2.2⟩

theorem unseen_handleFirst (s : CorrNet) (i : Nat) (pt : Pt) (t : Trans) : Unseen s (handleFirst p s i pt t) := by
  unfold handleFirst
  split
  · exact ⟨rfl, rfl, rfl, fun _ => rfl, fun _ _ => rfl, fun _ => rfl, fun _ _ => rfl⟩
  · rename_i l hl
    split
    · exact ⟨rfl, rfl, rfl, fun _ => rfl, fun _ _ => rfl, fun _ => rfl, fun _ _ => rfl⟩
    · rename_i l' hl'
      refine Unseen.trans ?_ (unseen_distribute _ _ _ _)
      refine unseen_loc s i _ (by simp [hl]) (fun _ => ?_)
      rw [hl]; simp [(onFirstPoint_invalid hl').1]

theorem unseen_handleSegs (s : CorrNet) (i : Nat) (m : DMsg (List Trans)) : Unseen s (handleSegs s i m) := by
  unfold handleSegs
  split <;> exact ⟨rfl, rfl, rfl, fun _ => rfl, fun _ _ => rfl, fun _ => rfl, fun _ _ => rfl⟩

theorem update2 {α : Type} (f : Nat → Nat → α) (j i : Nat) (x : α) (a b : Nat) :
    Function.update f j (Function.update (f j) i x) a b = if a = j ∧ b = i then x else f a b := by
  by_cases ha : a = j
  · subst ha
    rw [Function.update_self]
    by_cases hb : b = i
    · subst hb; simp
    · rw [Function.update_of_ne hb]; simp [hb]
  · rw [Function.update_of_ne ha]; simp [ha]

/-- Every step is a step of the ring or is not seen by it. -/
theorem ring_step {b it : Bool} (hp : p.WellFormed) (hn : 2 ≤ p.nClusterNodes) {s t : CorrNet} {r : RingNet Count} (h : RingRel p pts s r)
    (hr : RingNet.Reachable b p.nClusterNodes r) (hs : Step b it p pts mir s t) :
    ∃ r', (r' = r ∨ RingNet.Step b p.nClusterNodes r r') ∧ RingRel p pts t r' := by
  have hI := RingNet.inv_reachable hn hr
  cases hs with
  | enter i hi hl hc hb =>
    obtain ⟨e1, -⟩ := built_spec hp pts i
    refine ⟨RingNet.startStep p.nClusterNodes r i (countMsg p.nClusterNodes (built p pts i)),
      .inr (.start r i _ hi (by rw [h.started, hl]; rfl) (fun hbt => by rw [h.mailbox, h.proto]; exact hb hbt)), ?_⟩
    have hnx := RingNet.nxt_lt (i := i) hn
    have hun : s.decided i = none := by
      rw [h.undecided]
      exact (hI.idle i hi (by rw [h.started, hl]; rfl)).2.2.2.2
    unfold enter
    rw [e1]
    simp only [Proto.resolveBuffer, RingNet.startStep, post]
    constructor
    · simp only [h.proto]
    · intro a
      simp only
      by_cases ha : a = i
      · subst ha; simp
      · rw [Function.update_of_ne ha, Function.update_of_ne ha]; exact h.started a
    · intro a
      simp only
      by_cases ha : a = i
      · subst ha; rw [Function.update_self, Function.update_self, h.mailbox, h.proto]; simp [Proto.start]
      · rw [Function.update_of_ne ha, Function.update_of_ne ha]; exact h.mailbox a
    · intro a ha
      simp only [update2]
      by_cases hx : a = RingNet.nxt p.nClusterNodes i
      · subst hx
        rw [Function.update_self, RingNet.prv_nxt hn hi, if_pos ⟨rfl, rfl⟩, h.net _ ha, RingNet.prv_nxt hn hi]
        simp [counts_nil]
      · rw [Function.update_of_ne hx, if_neg (fun h => hx h.2)]; exact h.net a ha
    · intro c a hca
      simp only [update2]
      by_cases hx : c = i ∧ a = RingNet.nxt p.nClusterNodes i
      · exact absurd (by rw [hx.1, hx.2, RingNet.prv_nxt hn hi]) hca
      · rw [if_neg hx]; exact h.other c a hca
    · simp only [h.pay]
      funext a
      by_cases ha : a = i
      · subst ha; rw [Function.update_self]
      · rw [Function.update_of_ne ha]
    · intro a l hla hd
      simp only at hla hd ⊢
      by_cases ha : a = i
      · subst ha
        rw [Function.update_self] at hla
        rw [Function.update_self, Function.update_self, (h.fresh a hl).1, (h.fresh a hl).2]
        cases Option.some.inj hla
        simp [totals, countMsg]
      · rw [Function.update_of_ne ha] at hla
        rw [Function.update_of_ne ha, Function.update_of_ne ha]
        exact h.sum a l hla hd
    · intro a hla
      simp only at hla ⊢
      by_cases ha : a = i
      · subst ha; simp at hla
      · rw [Function.update_of_ne ha] at hla
        rw [Function.update_of_ne ha]; exact h.fresh a hla
    · exact h.undecided
    · intro a d hd
      simp only at hd ⊢
      by_cases ha : a = i
      · subst ha; rw [hun] at hd; cases hd
      · rw [Function.update_of_ne ha]; exact h.decided a d hd
  | arrive j i m rest hj hi hl hc =>
    by_cases hm : ∃ x, m = .count x
    · obtain ⟨x, rfl⟩ := hm
      have hji : j = RingNet.prv p.nClusterNodes i := by
        by_contra hne
        have := h.other j i hne
        rw [hl] at this; simp at this
      subst hji
      refine ⟨RingNet.arriveStep r i x (counts rest), .inr (.arrive r i x _ hi (by rw [h.net i hi, hl]; rfl)), ?_⟩
      simp only [RingNet.arriveStep]
      constructor
      · exact h.proto
      · exact h.started
      · intro a
        simp only
        by_cases ha : a = i
        · subst ha; rw [Function.update_self, Function.update_self, h.mailbox]; simp [counts_nil]
        · rw [Function.update_of_ne ha, Function.update_of_ne ha]; exact h.mailbox a
      · intro a ha
        simp only [update2]
        by_cases hx : a = i
        · subst hx; rw [Function.update_self, if_pos ⟨rfl, rfl⟩]
        · rw [Function.update_of_ne hx, if_neg (fun h => hx h.2)]; exact h.net a ha
      · intro c a hca
        simp only [update2]
        split
        · rename_i hx; exact absurd (by rw [hx.1, hx.2]) hca
        · exact h.other c a hca
      · exact h.pay
      · exact h.sum
      · exact h.fresh
      · exact h.undecided
      · exact h.decided
    · have hm1 : counts [m] = [] := by
        cases m with
        | count x => exact absurd ⟨x, rfl⟩ hm
        | first pt t => rfl
        | segs m => rfl
      refine ⟨r, .inl rfl, h.unseen ⟨rfl, rfl, rfl, fun a => ?_, fun c a => ?_, fun _ => rfl, fun _ _ => rfl⟩⟩
      · simp only
        by_cases ha : a = i
        · subst ha; rw [Function.update_self]; simp [hm1]
        · rw [Function.update_of_ne ha]
      · simp only [update2]
        split
        · rename_i hx
          rw [hx.1, hx.2, hl, ← List.singleton_append, counts_append, hm1, List.nil_append]
        · rfl
  | handle i m rest hi hl hc ht =>
    have hpop : ∀ (hm1 : counts [m] = []), Unseen s { s with mailbox := Function.update s.mailbox i rest } := by
      intro hm1
      refine ⟨rfl, rfl, rfl, fun a => ?_, fun _ _ => rfl, fun _ => rfl, fun _ _ => rfl⟩
      simp only
      by_cases ha : a = i
      · subst ha; rw [Function.update_self, hl, ← List.singleton_append, counts_append, hm1, List.nil_append]
      · rw [Function.update_of_ne ha]
    cases m with
    | first pt t => exact ⟨r, .inl rfl, h.unseen ((hpop rfl).trans (unseen_handleFirst _ _ _ _))⟩
    | segs m => exact ⟨r, .inl rfl, h.unseen ((hpop rfl).trans (unseen_handleSegs _ _ _))⟩
    | count x =>
      have hmb : r.mailbox i = x :: counts rest := by rw [h.mailbox, hl]; rfl
      refine ⟨RingNet.handleStep p.nClusterNodes r i x (counts rest), .inr (.handle r i x _ hi hmb), ?_⟩
      simp only [handle]
      cases hloc : s.loc i with
      | none =>
        have hst : r.started i = false := by rw [h.started, hloc]; rfl
        have hrun : (s.cproto i).isRunning = false := by
          rw [← h.proto]; simp [Proto.isRunning, (hI.idle i hi hst).1]
        rw [RingNet.handle_idle hI hi _ _ hst]
        simp only [handleCount, Proto.received, hrun]
        constructor
        · simp only [h.proto]; rfl
        · exact h.started
        · intro a
          simp only
          by_cases ha : a = i
          · subst ha; simp
          · simp only [Bool.false_eq_true, if_false]; rw [Function.update_of_ne ha, Function.update_of_ne ha]; exact h.mailbox a
        · exact h.net
        · exact h.other
        · exact h.pay
        · exact h.sum
        · exact h.fresh
        · exact h.undecided
        · exact h.decided
      | some l =>
        have hst : r.started i = true := by rw [h.started, hloc]; rfl
        obtain ⟨a1, a2, a3, a4, a5⟩ := hI.active i hi hst
        have hlt := RingNet.processed_lt hn hI hi hmb
        have hun : s.decided i = none := by rw [h.undecided, a5, if_neg (by omega)]
        have hrun : (s.cproto i).isRunning = true := by
          rw [← h.proto]; simp [Proto.isRunning, a1, a2, hlt]
        have hr2 : (Proto.isRunning { s.cproto i with nReceived := (s.cproto i).nReceived + 1 } = true) ↔
            (r.processed i).length + 1 < p.nClusterNodes - 1 := by
          rw [← h.proto]
          simp only [Proto.isRunning, a1, a2, a3, Bool.or_eq_true, decide_eq_true_eq]
          omega
        have hsum := h.sum i l hloc hun
        rw [RingNet.handle_active hn hI hi hmb hst]
        simp only [handleCount, Proto.received, hrun, if_true, hr2, hloc, Option.getD_some]
        by_cases hk : (r.processed i).length + 1 < p.nClusterNodes - 1
        · rw [if_pos hk, if_pos hk]
          simp only [post]
          constructor
          · simp only [h.proto, Function.update_idem]
          · intro a
            simp only
            by_cases ha : a = i
            · subst ha; simp [hst]
            · rw [Function.update_of_ne ha]; exact h.started a
          · intro a
            simp only
            by_cases ha : a = i
            · subst ha; simp
            · rw [Function.update_of_ne ha, Function.update_of_ne ha]; exact h.mailbox a
          · intro a ha
            simp only [update2]
            by_cases hx : a = RingNet.nxt p.nClusterNodes i
            · subst hx
              rw [Function.update_self, RingNet.prv_nxt hn hi, if_pos ⟨rfl, rfl⟩, h.net _ ha, RingNet.prv_nxt hn hi]
              simp [counts_nil]
            · rw [Function.update_of_ne hx, if_neg (fun h => hx h.2)]; exact h.net a ha
          · intro c a hca
            simp only [update2]
            by_cases hx : c = i ∧ a = RingNet.nxt p.nClusterNodes i
            · exact absurd (by rw [hx.1, hx.2, RingNet.prv_nxt hn hi]) hca
            · rw [if_neg hx]; exact h.other c a hca
          · exact h.pay
          · intro a l' hla hd
            simp only at hla hd ⊢
            by_cases ha : a = i
            · subst ha
              rw [Function.update_self] at hla
              cases Option.some.inj hla
              rw [Function.update_self, Function.update_self, List.map_append, List.map_singleton, totals_append, ← hsum]
            · rw [Function.update_of_ne ha] at hla
              rw [Function.update_of_ne ha, Function.update_of_ne ha]
              exact h.sum a l' hla hd
          · intro a hla
            simp only at hla ⊢
            by_cases ha : a = i
            · subst ha; simp at hla
            · rw [Function.update_of_ne ha] at hla
              rw [Function.update_of_ne ha, Function.update_of_ne ha]; exact h.fresh a hla
          · exact h.undecided
          · intro a d hd
            simp only at hd ⊢
            by_cases ha : a = i
            · subst ha; rw [hun] at hd; cases hd
            · rw [Function.update_of_ne ha]; exact h.decided a d hd
        · rw [if_neg hk, if_neg hk]
          refine RingRel.unseen ?_ (unseen_correct hp _ i _ (by simp))
          have htot : totals (r.pay i) ((r.processed i ++ [x]).map RMsg.body) = ⟨s.global i + x.body.count, l.invalid + x.body.clockwise⟩ := by
            rw [List.map_append, List.map_singleton, totals_append, ← hsum]
          simp only [Function.update_self]
          constructor
          · simp only [h.proto]
          · intro a
            simp only
            by_cases ha : a = i
            · subst ha; simp [hst]
            · rw [Function.update_of_ne ha]; exact h.started a
          · intro a
            simp only
            by_cases ha : a = i
            · subst ha; simp
            · rw [Function.update_of_ne ha, Function.update_of_ne ha]; exact h.mailbox a
          · exact h.net
          · exact h.other
          · exact h.pay
          · intro a l' hla hd
            simp only at hla hd ⊢
            by_cases ha : a = i
            · subst ha; simp at hd
            · rw [Function.update_of_ne ha] at hla hd
              rw [Function.update_of_ne ha, Function.update_of_ne ha]
              exact h.sum a l' hla hd
          · intro a hla
            simp only at hla ⊢
            by_cases ha : a = i
            · subst ha; simp at hla
            · rw [Function.update_of_ne ha] at hla
              rw [Function.update_of_ne ha, Function.update_of_ne ha]; exact h.fresh a hla
          · intro a
            simp only
            by_cases ha : a = i
            · subst ha; simp
            · rw [Function.update_of_ne ha, Function.update_of_ne ha]; exact h.undecided a
          · intro a d hd
            simp only at hd ⊢
            by_cases ha : a = i
            · subst ha
              rw [Function.update_self] at hd ⊢
              rw [htot]
              exact (Option.some.inj hd).symm
            · rw [Function.update_of_ne ha] at hd ⊢; exact h.decided a d hd

theorem ring_reachable {b it : Bool} (hp : p.WellFormed) (hn : 2 ≤ p.nClusterNodes) {s : CorrNet} (h : Reachable b it p pts mir s) :
    ∃ r, RingNet.Reachable b p.nClusterNodes r ∧ RingRel p pts s r := by
  induction h with
  | init => exact ⟨_, .init _, ringRel_init⟩
  | step _ hs ih =>
    obtain ⟨r, hr, hrel⟩ := ih
    obtain ⟨r', h1 | h1, h2⟩ := ring_step hp hn hrel hr hs
    · exact ⟨r', h1 ▸ hr, h2⟩
    · exact ⟨r', .step hr h1, h2⟩

/-- The points are mirrored: fewer valid steps inside the parts, plus again those which start in the segments of the node of the
part, than invalid ones (see C29). -/
def Wanted (p : Parameters) (pts : Nat → List Pt) : Prop :=
  ((List.range p.nClusterNodes).map (fun j => (validSteps p.rate (pts j)).length +
      ((validSteps p.rate (pts j)).filter (fun t => owner p t.src.seg = j)).length)).sum <
    ((List.range p.nClusterNodes).map (fun j => (invalidSteps p.rate (pts j)).length)).sum

instance (p : Parameters) (pts : Nat → List Pt) : Decidable (Wanted p pts) := by unfold Wanted; infer_instance

theorem decided_lt {b it : Bool} {s : CorrNet} (h : Reachable b it p pts mir s) {i : Nat} (hd : s.decided i ≠ none) :
    i < p.nClusterNodes := by
  induction h with
  | init => exact absurd rfl hd
  | @step s t _ hs ih =>
    cases hs with
    | enter j hj hl hc hb =>
      apply ih
      revert hd
      unfold enter
      split <;> exact id
    | arrive j k m rest hj hk hl hc => exact ih hd
    | handle j m rest hj hl hc ht =>
      by_cases hij : i = j
      · rw [hij]; exact hj
      · apply ih
        have key : ∀ (u : CorrNet) (l : SegState), (distributeOrWait p u j l).decided = u.decided := by
          intro u l
          unfold distributeOrWait trySend
          simp only
          split <;> split <;> rfl
        revert hd
        cases m with
        | count m =>
          simp only [handle, handleCount]
          split
          · exact id
          · split
            · exact id
            · unfold correct
              split
              · split
                · exact id
                · rw [key]; simp only; rw [Function.update_of_ne hij]; exact id
              · rw [key]; simp only; rw [Function.update_of_ne hij]; exact id
        | first pt t =>
          simp only [handle, handleFirst]
          split
          · exact id
          · split <;> exact id
        | segs m =>
          simp only [handle, handleSegs]
          split <;> exact id

/-- All nodes decide alike, in all schedules without the race of C18 (with two nodes: in all schedules). -/
theorem decided_wanted {b it : Bool} (hp : p.WellFormed) (hsc : p.selfCorrection = true) (hn : 2 ≤ p.nClusterNodes)
    (hb : b = true ∨ p.nClusterNodes = 2) {s : CorrNet} (h : Reachable b it p pts mir s) {i : Nat} {d : Bool}
    (hd : s.decided i = some d) : d = decide (Wanted p pts) := by
  have hi : i < p.nClusterNodes := decided_lt h (by simp [hd])
  obtain ⟨r, hr, hrel⟩ := ring_reachable hp hn h
  have hr1 : RingNet.Reachable true p.nClusterNodes r := by
    rcases hb with rfl | hb
    · exact hr
    · cases b with
      | true => exact hr
      | false => rw [hb] at hr ⊢; exact RingNet.C18_two_nodes hr
  have hdone : r.done i = 1 := by
    have h1 := (RingNet.C18_done_once hn hr1 hi).1
    have h2 : r.done i ≠ 0 := fun h0 => by
      have := (hrel.undecided i).2 h0
      rw [hd] at this; cases this
    omega
  have := C29_distributed_decision hp hsc hn (fun j _ => (built_spec hp pts j).1) hr1 (fun j _ => by rw [hrel.pay]) hi hdone
  have h2 := hrel.decided i d hd
  rw [← h2] at this
  rw [Bool.eq_iff_iff, this, decide_eq_true_eq]
  rfl

/-- A node which has decided has segmented its points. -/
theorem decided_loc {b it : Bool} (hp : p.WellFormed) (hn : 2 ≤ p.nClusterNodes) {s : CorrNet} (h : Reachable b it p pts mir s) {i : Nat}
    (hd : s.decided i ≠ none) : s.loc i ≠ none := by
  obtain ⟨r, hr, hrel⟩ := ring_reachable hp hn h
  have hi := decided_lt h hd
  have h1 := RingNet.C18_done_once hn hr hi
  have h2 : r.done i ≠ 0 := fun h0 => hd ((hrel.undecided i).2 h0)
  have := (h1.2.1.1 (by omega)).1
  rw [hrel.started] at this
  intro hl
  rw [hl] at this; cases this

end CorrNet
end S2G
