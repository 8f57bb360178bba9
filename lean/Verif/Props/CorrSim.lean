import Verif.Props.CorrNet

/-!
# Segmentation with self correction: the exchange of first points and transitions (C73)
-/

namespace S2G
namespace CorrNet

open SelfCorrection

variable {p : Parameters} {pts : Nat → List Pt} {mir : Pt → Pt}

/-! ## Segment messages -/

/-- The segment messages in a list of messages. -/
def segsL (l : List CMsg) : List (DMsg (List Trans)) := l.filterMap (fun | .segs m => some m | _ => none)

@[simp] theorem segsL_nil : segsL [] = [] := rfl
@[simp] theorem segsL_count (m : RMsg Count) (l : List CMsg) : segsL (.count m :: l) = segsL l := rfl
@[simp] theorem segsL_first (pt : Pt) (t : Trans) (l : List CMsg) : segsL (.first pt t :: l) = segsL l := rfl
@[simp] theorem segsL_segs (m : DMsg (List Trans)) (l : List CMsg) : segsL (.segs m :: l) = m :: segsL l := rfl
@[simp] theorem segsL_append (a b : List CMsg) : segsL (a ++ b) = segsL a ++ segsL b := by simp [segsL]
@[simp] theorem segsL_map_count (l : List (RMsg Count)) : segsL (l.map CMsg.count) = [] := by
  induction l with
  | nil => rfl
  | cons a l ih => simp [ih]
@[simp] theorem segsL_map_segs (l : List (DMsg (List Trans))) : segsL (l.map CMsg.segs) = l := by
  induction l with
  | nil => rfl
  | cons a l ih => simp [ih]

/-- The segment messages in a list of messages, without order. -/
def segsM (l : List CMsg) : Multiset (DMsg (List Trans)) := (segsL l : Multiset _)

/-- The segment messages on the links of a node. -/
def linkM (n : Nat) (l : Nat → List CMsg) : Multiset (DMsg (List Trans)) := ∑ i ∈ Finset.range n, segsM (l i)

/-- All segment messages in mailboxes and on links. -/
def flight (n : Nat) (s : CorrNet) : Multiset (DMsg (List Trans)) :=
  ∑ i ∈ Finset.range n, segsM (s.mailbox i) + ∑ j ∈ Finset.range n, linkM n (s.link j)

theorem segsM_append (a b : List CMsg) : segsM (a ++ b) = segsM a + segsM b := by
  simp [segsM, ← Multiset.coe_add]

/-- The exchange of transitions inside the state. -/
structure NetRel (n : Nat) (s : CorrNet) (net : DirectNet (List Trans)) : Prop where
  proto : net.proto = s.dproto
  got : net.processed = s.got
  done : net.done = s.done
  pool : (net.pool : Multiset _) = flight n s
  dstMail : ∀ i, ∀ m ∈ segsL (s.mailbox i), m.dst = i
  dstLink : ∀ j i, ∀ m ∈ segsL (s.link j i), m.dst = i
  dstBuf : ∀ i, ∀ m ∈ (s.dproto i).buffer, m.dst = i

theorem NetRel.congr {n : Nat} {s t : CorrNet} {net : DirectNet (List Trans)} (h : NetRel n s net) (h1 : t.dproto = s.dproto)
    (h2 : t.got = s.got) (h3 : t.done = s.done) (h4 : ∀ i, segsL (t.mailbox i) = segsL (s.mailbox i))
    (h5 : ∀ j i, segsL (t.link j i) = segsL (s.link j i)) : NetRel n t net where
  proto := h.proto.trans h1.symm
  got := h.got.trans h2.symm
  done := h.done.trans h3.symm
  pool := by rw [h.pool]; simp only [flight, linkM, segsM, h4, h5]
  dstMail := fun i m hm => h.dstMail i m (by rw [← h4]; exact hm)
  dstLink := fun j i m hm => h.dstLink j i m (by rw [← h5]; exact hm)
  dstBuf := fun i m hm => h.dstBuf i m (by rw [← h1]; exact hm)

theorem sum_upd {α M : Type} [AddCommMonoid M] (F : α → M) (g : Nat → α) {n i : Nat} (hi : i < n) (x : α) (y : M)
    (h : F x = F (g i) + y) : ∑ j ∈ Finset.range n, F (Function.update g i x j) = ∑ j ∈ Finset.range n, F (g j) + y := by
  rw [← Finset.add_sum_erase _ _ (Finset.mem_range.2 hi), ← Finset.add_sum_erase _ (fun j => F (g j)) (Finset.mem_range.2 hi),
    Function.update_self, h]
  have : ∑ j ∈ (Finset.range n).erase i, F (Function.update g i x j) = ∑ j ∈ (Finset.range n).erase i, F (g j) :=
    Finset.sum_congr rfl (fun j hj => by rw [Function.update_of_ne (Finset.ne_of_mem_erase hj)])
  rw [this]
  abel

theorem sum_upd' {α M : Type} [AddCommMonoid M] (F : α → M) (g : Nat → α) {n i : Nat} (hi : i < n) (x : α) (y : M)
    (h : F (g i) = F x + y) : ∑ j ∈ Finset.range n, F (g j) = ∑ j ∈ Finset.range n, F (Function.update g i x j) + y := by
  rw [← Finset.add_sum_erase _ _ (Finset.mem_range.2 hi),
    ← Finset.add_sum_erase _ (fun j => F (Function.update g i x j)) (Finset.mem_range.2 hi), Function.update_self, h]
  have : ∑ j ∈ (Finset.range n).erase i, F (Function.update g i x j) = ∑ j ∈ (Finset.range n).erase i, F (g j) :=
    Finset.sum_congr rfl (fun j hj => by rw [Function.update_of_ne (Finset.ne_of_mem_erase hj)])
  rw [this]
  abel

theorem filter_sum {β : Type} (L : List Nat) (q : Nat → Bool) (g : Nat → β) :
    (((L.filter q).map g : List β) : Multiset β) = (L.map (fun j => if q j then ({g j} : Multiset β) else 0)).sum := by
  induction L with
  | nil => rfl
  | cons a L ih =>
    by_cases h : q a
    · simp only [List.filter_cons, h, if_true, List.map_cons, List.sum_cons, ← ih]
      rfl
    · simp only [List.filter_cons, h, Bool.false_eq_true, if_false, List.map_cons, List.sum_cons, ← ih]
      simp

theorem peers_sum {β : Type} (n i : Nat) (g : Nat → β) :
    (((DirectNet.peers false n i).map g : List β) : Multiset β) = ∑ j ∈ Finset.range n, if j ≠ i then ({g j} : Multiset β) else 0 := by
  unfold DirectNet.peers
  rw [filter_sum]
  have : ∀ f : Nat → Multiset β, ((List.range n).map f).sum = ∑ j ∈ Finset.range n, f j := fun f => by
    rw [Finset.sum, Finset.range_val, Multiset.range, Multiset.map_coe, Multiset.sum_coe]
  rw [this]
  simp

theorem netRel_distribute {n i : Nat} (hi : i < n) {s : CorrNet} {net : DirectNet (List Trans)} (hn : 2 ≤ n) (h : NetRel n s net)
    (f : Nat → List Trans) : NetRel n (distribute n s i f) (DirectNet.startStep false n net i f) := by
  have hlen : (DirectNet.peers false n i).length = n - 1 := by
    have := DirectNet.length_peers (incl := false) hi
    simpa [DirectNet.total] using this
  have hne : ((DirectNet.peers false n i).map (fun j => DMsg.mk i j (f j))).isEmpty = false := by
    rw [Bool.eq_false_iff]
    intro hc
    rw [List.isEmpty_iff] at hc
    have := congrArg List.length hc
    rw [List.length_map, hlen] at this
    simp at this
    omega
  constructor
  · simp only [DirectNet.startStep, distribute, Proto.resolveBuffer, List.length_map, hlen, DirectNet.total, h.proto, Bool.false_eq_true,
      if_false]
  · simp only [DirectNet.startStep, distribute, Proto.resolveBuffer, h.got]
  · simp only [DirectNet.startStep, distribute, Proto.resolveBuffer, hne, h.done, Bool.false_eq_true, if_false]
  · simp only [DirectNet.startStep, Proto.resolveBuffer, Proto.start, h.proto]
    rw [← Multiset.coe_add, ← Multiset.coe_add, h.pool, peers_sum]
    unfold flight
    simp only [distribute, Proto.resolveBuffer, Proto.start]
    rw [sum_upd segsM s.mailbox hi _ (((s.dproto i).buffer : List (DMsg (List Trans))) : Multiset (DMsg (List Trans)))
      (by rw [segsM_append]; simp [segsM])]
    rw [sum_upd (linkM n) s.link hi _ (∑ j ∈ Finset.range n, if j ≠ i then {DMsg.mk i j (f j)} else 0)]
    · abel
    · unfold linkM
      rw [← Finset.sum_add_distrib]
      refine Finset.sum_congr rfl (fun j hj => ?_)
      rw [Finset.mem_range] at hj
      by_cases hji : j = i
      · simp [hji]
      · simp only [hj, hji, ne_eq, not_false_eq_true, and_self, if_true, segsM_append]
        rfl
  · intro a m hm
    simp only [distribute, Proto.resolveBuffer, Proto.start] at hm
    by_cases ha : a = i
    · subst ha
      rw [Function.update_self] at hm
      simp only [segsL_append, segsL_map_segs, List.mem_append] at hm
      rcases hm with hm | hm
      · exact h.dstMail a m hm
      · exact h.dstBuf a m hm
    · rw [Function.update_of_ne ha] at hm; exact h.dstMail a m hm
  · intro b a m hm
    simp only [distribute] at hm
    by_cases hb : b = i
    · subst hb
      rw [Function.update_self] at hm
      split at hm
      · simp only [segsL_append, segsL_segs, segsL_nil, List.mem_append, List.mem_singleton] at hm
        rcases hm with hm | rfl
        · exact h.dstLink b a m hm
        · rfl
      · exact h.dstLink b a m hm
    · rw [Function.update_of_ne hb] at hm; exact h.dstLink b a m hm
  · intro a m hm
    simp only [distribute, Proto.resolveBuffer, Proto.start] at hm
    by_cases ha : a = i
    · subst ha
      rw [Function.update_self] at hm
      have : ∀ (q : Proto (DMsg (List Trans))) k, (q.sentN k).buffer = q.buffer := by
        intro q k
        induction k with
        | zero => rfl
        | succ k ih => simp only [Proto.sentN, Proto.sent, ih]
      rw [this] at hm
      simp at hm
    · rw [Function.update_of_ne ha] at hm; exact h.dstBuf a m hm

theorem netRel_arrive {n j i : Nat} (hj : j < n) (hi : i < n) {s : CorrNet} {net : DirectNet (List Trans)} (h : NetRel n s net)
    {m : CMsg} {rest : List CMsg} (hl : s.link j i = m :: rest) :
    NetRel n { s with
        link := Function.update s.link j (Function.update (s.link j) i rest)
        mailbox := Function.update s.mailbox i (s.mailbox i ++ [m]) } net where
  proto := h.proto
  got := h.got
  done := h.done
  pool := by
    rw [h.pool]
    unfold flight
    simp only
    rw [sum_upd segsM s.mailbox hi _ (segsM [m]) (segsM_append _ _)]
    rw [sum_upd' (linkM n) s.link hj (Function.update (s.link j) i rest) (segsM [m])]
    · abel
    · refine sum_upd' segsM (s.link j) hi rest _ ?_
      rw [hl, ← List.singleton_append, segsM_append]
      exact add_comm _ _
  dstMail := fun a x hx => by
    simp only at hx
    by_cases ha : a = i
    · subst ha
      rw [Function.update_self, segsL_append, List.mem_append] at hx
      rcases hx with hx | hx
      · exact h.dstMail a x hx
      · refine h.dstLink j a x ?_
        rw [hl, ← List.singleton_append, segsL_append]
        exact List.mem_append_left _ hx
    · rw [Function.update_of_ne ha] at hx; exact h.dstMail a x hx
  dstLink := fun b a x hx => by
    simp only [update2] at hx
    split at hx
    · rename_i hc
      refine h.dstLink b a x ?_
      rw [hc.1, hc.2, hl, ← List.singleton_append, segsL_append]
      exact List.mem_append_right _ hx
    · exact h.dstLink b a x hx
  dstBuf := h.dstBuf

theorem netRel_handleSegs {n i : Nat} (hi : i < n) {s : CorrNet} {net : DirectNet (List Trans)} (h : NetRel n s net)
    {m : DMsg (List Trans)} {rest : List CMsg} (hl : s.mailbox i = .segs m :: rest) :
    ∃ pre post, net.pool = pre ++ m :: post ∧
      NetRel n (handleSegs { s with mailbox := Function.update s.mailbox i rest } i m) (DirectNet.handleStep net m (pre ++ post)) := by
  have hdst : m.dst = i := h.dstMail i m (by rw [hl]; simp)
  have hfl : flight n s = m ::ₘ flight n { s with mailbox := Function.update s.mailbox i rest } := by
    unfold flight
    simp only
    rw [sum_upd' segsM s.mailbox hi rest ({m} : Multiset _)]
    · rw [← Multiset.singleton_add]; abel
    · rw [hl, ← List.singleton_append, segsM_append, add_comm]
      rfl
  have hmem : m ∈ net.pool := by
    have : m ∈ (net.pool : Multiset _) := by rw [h.pool, hfl]; exact Multiset.mem_cons_self _ _
    simpa using this
  obtain ⟨pre, post, hpp⟩ := List.append_of_mem hmem
  refine ⟨pre, post, hpp, ?_⟩
  have hpool : ((pre ++ post : List _) : Multiset _) = flight n { s with mailbox := Function.update s.mailbox i rest } := by
    have h1 := h.pool
    rw [hfl, hpp] at h1
    have h2 : ((pre ++ m :: post : List _) : Multiset _) = m ::ₘ ((pre ++ post : List _) : Multiset _) := by
      rw [Multiset.cons_coe, Multiset.coe_eq_coe]; exact List.perm_middle
    rw [h2] at h1
    exact (Multiset.cons_inj_right m).1 h1
  have hmail : ∀ a, ∀ x ∈ segsL (Function.update s.mailbox i rest a), x.dst = a := by
    intro a x hx
    by_cases ha : a = i
    · subst ha
      rw [Function.update_self] at hx
      exact h.dstMail a x (by rw [hl]; exact List.mem_cons_of_mem _ hx)
    · rw [Function.update_of_ne ha] at hx; exact h.dstMail a x hx
  unfold handleSegs DirectNet.handleStep
  simp only [hdst, h.proto]
  by_cases hrun : (s.dproto i).isRunning = true
  · simp only [Proto.received, hrun, if_true]
    constructor
    · simp only
    · simp only [h.got]
    · simp only [h.done]
    · rw [hpool]; rfl
    · exact hmail
    · exact h.dstLink
    · intro a x hx
      simp only at hx
      by_cases ha : a = i
      · subst ha; rw [Function.update_self] at hx; exact h.dstBuf a x hx
      · rw [Function.update_of_ne ha] at hx; exact h.dstBuf a x hx
  · simp only [Proto.received, hrun, Bool.false_eq_true, if_false]
    constructor
    · simp only
    · exact h.got
    · exact h.done
    · rw [hpool]; rfl
    · exact hmail
    · exact h.dstLink
    · intro a x hx
      simp only at hx
      by_cases ha : a = i
      · subst ha
        rw [Function.update_self] at hx
        simp only [List.mem_append, List.mem_singleton] at hx
        rcases hx with hx | rfl
        · exact h.dstBuf a x hx
        · exact hdst
      · rw [Function.update_of_ne ha] at hx; exact h.dstBuf a x hx

/-! ## First points -/

/-- The first points in a list of messages. -/
def firsts (l : List CMsg) : List (Pt × Trans) := l.filterMap (fun | .first pt t => some (pt, t) | _ => none)

@[simp] theorem firsts_nil : firsts [] = [] := rfl
@[simp] theorem firsts_count (m : RMsg Count) (l : List CMsg) : firsts (.count m :: l) = firsts l := rfl
@[simp] theorem firsts_first (pt : Pt) (t : Trans) (l : List CMsg) : firsts (.first pt t :: l) = (pt, t) :: firsts l := rfl
@[simp] theorem firsts_segs (m : DMsg (List Trans)) (l : List CMsg) : firsts (.segs m :: l) = firsts l := rfl
@[simp] theorem firsts_append (a b : List CMsg) : firsts (a ++ b) = firsts a ++ firsts b := by simp [firsts]
@[simp] theorem firsts_map_count (l : List (RMsg Count)) : firsts (l.map CMsg.count) = [] := by
  induction l with
  | nil => rfl
  | cons a l ih => simp [ih]
@[simp] theorem firsts_map_segs (l : List (DMsg (List Trans))) : firsts (l.map CMsg.segs) = [] := by
  induction l with
  | nil => rfl
  | cons a l ih => simp [ih]

/-- The pair which is sent to the previous node, if both parts exist. -/
def pair (a : Option Pt) (b : Option Trans) : List (Pt × Trans) :=
  match a, b with
  | some a, some b => [(a, b)]
  | _, _ => []

/-- Without mirroring node `i + 1` has made the pair, but has not yet sent it to node `i`. -/
def pend (p : Parameters) (pts : Nat → List Pt) (D : Bool) (s : CorrNet) (i : Nat) : List (Pt × Trans) :=
  if D = false ∧ i + 2 < p.nClusterNodes ∧ s.loc (i + 1) ≠ none ∧ s.decided (i + 1) = none then
    pair (built p pts (i + 1)).sendPoint (built p pts (i + 1)).sendTransition
  else []

/-- The first points of the segmentation and of the state. -/
structure FirstRel (p : Parameters) (pts : Nat → List Pt) (D : Bool) (s : CorrNet) (first : Nat → Option (Pt × Trans)) : Prop where
  main : ∀ i < p.nClusterNodes, (first i).toList =
    pend p pts D s i ++ (firsts (s.mailbox i) ++ firsts (s.link (RingNet.nxt p.nClusterNodes i) i))
  other : ∀ j i, j ≠ RingNet.nxt p.nClusterNodes i → firsts (s.link j i) = []

theorem FirstRel.congr {D : Bool} {s t : CorrNet} {first : Nat → Option (Pt × Trans)} (h : FirstRel p pts D s first)
    (h1 : ∀ i, firsts (t.mailbox i) = firsts (s.mailbox i)) (h2 : ∀ j i, firsts (t.link j i) = firsts (s.link j i))
    (h3 : ∀ i, pend p pts D t i = pend p pts D s i) : FirstRel p pts D t first where
  main := fun i hi => by rw [h.main i hi, h1, h2, h3]
  other := fun j i hj => by rw [h2]; exact h.other j i hj

theorem firsts_distribute (n : Nat) (s : CorrNet) (i : Nat) (f : Nat → List Trans) :
    (∀ a, firsts ((distribute n s i f).mailbox a) = firsts (s.mailbox a)) ∧
    (∀ b a, firsts ((distribute n s i f).link b a) = firsts (s.link b a)) := by
  constructor
  · intro a
    simp only [distribute]
    by_cases ha : a = i
    · subst ha; rw [Function.update_self]; simp
    · rw [Function.update_of_ne ha]
  · intro b a
    simp only [distribute]
    by_cases hb : b = i
    · subst hb
      rw [Function.update_self]
      split <;> simp
    · rw [Function.update_of_ne hb]

theorem firstRel_distribute {D : Bool} {n : Nat} {s : CorrNet} {i : Nat} {f : Nat → List Trans} {first : Nat → Option (Pt × Trans)}
    (h : FirstRel p pts D s first) : FirstRel p pts D (distribute n s i f) first :=
  h.congr (firsts_distribute n s i f).1 (firsts_distribute n s i f).2 (fun _ => rfl)

/-- `trySend` puts the pair on the link to the previous node. -/
theorem firsts_trySend {n i : Nat} (s : CorrNet) (a : Option Pt) (b : Option Trans) (hi : i ≠ 0 ∨ a = none) (j k : Nat) :
    firsts ((trySend n s i a b).link j k) = firsts (s.link j k) ++ if j = i ∧ k + 1 = i then pair a b else [] := by
  unfold trySend
  cases a with
  | none => simp [pair]
  | some a =>
    cases b with
    | none => simp [pair]
    | some b =>
      have h0 : i ≠ 0 := by rcases hi with h | h; exact h; cases h
      simp only [post, update2, if_neg h0]
      by_cases hjk : j = i ∧ k + 1 = i
      · rw [if_pos ⟨hjk.1, by omega⟩, if_pos hjk]
        have : k = i - 1 := by omega
        rw [hjk.1, this]
        simp [pair]
      · rw [if_neg (fun h => hjk ⟨h.1, by omega⟩), if_neg hjk]; simp

theorem trySend_fields (n i : Nat) (s : CorrNet) (a : Option Pt) (b : Option Trans) :
    (trySend n s i a b).mailbox = s.mailbox ∧ (trySend n s i a b).loc = s.loc ∧ (trySend n s i a b).decided = s.decided ∧
    (trySend n s i a b).dproto = s.dproto ∧ (trySend n s i a b).got = s.got ∧ (trySend n s i a b).done = s.done ∧
    (trySend n s i a b).crashed = s.crashed ∧ ∀ j k, segsL ((trySend n s i a b).link j k) = segsL (s.link j k) := by
  unfold trySend
  split
  · refine ⟨rfl, rfl, rfl, rfl, rfl, rfl, rfl, fun j k => ?_⟩
    generalize (if i = 0 then n - 1 else i - 1) = d
    simp only [post, update2]
    split
    · rename_i h; simp [h.1, h.2]
    · rfl
  · exact ⟨rfl, rfl, rfl, rfl, rfl, rfl, rfl, fun _ _ => rfl⟩

/-! ## Local states -/

/-- The part of the local state which matters for the first point of the next node. -/
def core (l : SegState) : SegState := { l with invalid := 0, sendPoint := none, sendTransition := none, lastToNode := none }

theorem splitBetween_core (l : SegState) (prev : Option Trans) (t : Trans) (a b : Nat) :
    (core l).splitBetween p prev t a b = (l.splitBetween p prev t a b).map core := by
  unfold SegState.splitBetween
  split
  · simp only [core]
    cases NodeQuestions.ask l.questions p t prev false 1 <;> rfl
  · rfl

theorem splitWithin_core (l : SegState) (prev : Option Trans) (t : Trans) (a b : Nat) :
    (core l).splitWithin p prev t a b = (l.splitWithin p prev t a b).map core := by
  unfold SegState.splitWithin
  split
  · simp only [core]
    cases NodeQuestions.ask l.questions p t prev true (clusterNodeDiff p a b) <;> rfl
  · rfl

theorem findSplits_core (l : SegState) (prev : Option Trans) (lt : Option Nat) (t : Trans) (a b : Nat) :
    (core l).findSplits p prev lt t a b = (l.findSplits p prev lt t a b).map core := by
  unfold SegState.findSplits
  cases lt with
  | none => simp only [Option.bind_eq_bind, Option.bind_some, splitWithin_core]
  | some lt =>
    simp only [Option.bind_eq_bind, splitBetween_core]
    cases l.splitBetween p prev t a lt with
    | none => rfl
    | some l' => simp only [Option.map_some, Option.bind_some, splitWithin_core]

theorem onFirstPoint_core (l : SegState) (i : Nat) (pt : Pt) (t : Trans) :
    (core l).onFirstPoint p i pt t = (l.onFirstPoint p i pt t).map core := by
  have e : ({ core l with lastPoint := none } : SegState) = core { l with lastPoint := none } := rfl
  unfold SegState.onFirstPoint
  rw [e]
  simp only [Option.bind_eq_bind]
  cases hlp : l.lastPoint with
  | none => simp [core, hlp]
  | some lp =>
    have h1 : (core l).lastPoint = some lp := hlp
    have h2 : (core { l with lastPoint := none }).lastTransition = l.lastTransition := rfl
    rw [h1, h2]
    simp only [Option.bind_some]
    cases l.lastTransition with
    | none => rfl
    | some lt =>
      simp only [Option.bind_some]
      split
      · cases p.segmentIdToAssignment lp.seg with
        | none => rfl
        | some fn =>
          simp only [Option.bind_some]
          cases p.segmentIdToAssignment pt.seg with
          | none => rfl
          | some tn =>
            simp only [Option.bind_some]
            cases p.segmentIdToAssignment lt.dst.seg with
            | none => rfl
            | some lto =>
              simp only [Option.bind_some, findSplits_core]
              generalize SegState.findSplits _ _ _ _ _ _ _ = o
              cases o <;> rfl
      · cases p.segmentIdToAssignment t.src.seg with
        | none => rfl
        | some fn =>
          simp only [Option.bind_some]
          cases p.segmentIdToAssignment lt.dst.seg with
          | none => rfl
          | some lto => simp only [Option.bind_some, splitBetween_core]

/-- Segmenting again after `clear_segmentation` gives the same as segmenting the mirrored points from the start. -/
theorem build_cleared (hp : p.WellFormed) (i : Nat) (x : SegState) (q : List Pt) {l l0 : SegState}
    (h : SegState.buildSegments p i (cleared x) q = some l) (h0 : SegState.buildSegments p i {} q = some l0) :
    core l = core l0 ∧ l.sendPoint = l0.sendPoint ∧ l.sendTransition = l0.sendTransition := by
  obtain ⟨a, ha, b⟩ := SegState.buildSegments_built hp i (cleared x) q
  obtain ⟨a0, ha0, b0⟩ := SegState.buildSegments_built hp i {} q
  cases Option.some.inj (h.symm.trans ha)
  cases Option.some.inj (h0.symm.trans ha0)
  have e1 : l.sendPoint = l0.sendPoint := by rw [b.sendPoint, b0.sendPoint]; rfl
  have e2 : l.sendTransition = l0.sendTransition := by rw [b.sendTransition, b0.sendTransition]; rfl
  have e3 : l.forNodes = l0.forNodes := by funext a; rw [b.forNodes, b0.forNodes]
  have e4 : l.stored = l0.stored := by rw [b.stored, b0.stored]; rfl
  have e5 : l.questions = l0.questions := by rw [b.questions, b0.questions]; rfl
  have e6 : l.lastPoint = l0.lastPoint := by rw [b.lastPoint, b0.lastPoint]
  have e7 : l.lastTransition = l0.lastTransition := by rw [b.lastTransition, b0.lastTransition]
  refine ⟨?_, e1, e2⟩
  simp only [core, e3, e4, e5, e6, e7]

/-- The node counts as segmented: without mirroring as soon as it has segmented its points (the last one: as soon as it has
decided), with mirroring as soon as it has decided. -/
def Commit (p : Parameters) (D : Bool) (s : CorrNet) (i : Nat) : Prop :=
  if D = false ∧ i + 1 < p.nClusterNodes then s.loc i ≠ none else s.decided i ≠ none

instance (p : Parameters) (D : Bool) (s : CorrNet) (i : Nat) : Decidable (Commit p D s i) := by
  unfold Commit
  by_cases h : D = false ∧ i + 1 < p.nClusterNodes
  · rw [if_pos h]
    cases h : s.loc i with
    | none => exact isFalse (by simp)
    | some l => exact isTrue (by simp)
  · rw [if_neg h]; infer_instance

/-- Local states of the segmentation and of the state. -/
structure LocRel (p : Parameters) (pts : Nat → List Pt) (D : Bool) (s : CorrNet) (loc : Nat → Option SegState) : Prop where
  idle : ∀ i, ¬ Commit p D s i → loc i = none
  busy : ∀ i, Commit p D s i → ∃ l la, s.loc i = some l ∧ loc i = some la ∧ core l = core la
  wait : ∀ i l, s.loc i = some l → s.decided i = none → D = false →
    l.sendPoint = (built p pts i).sendPoint ∧ l.sendTransition = (built p pts i).sendTransition ∧
      (i + 1 = p.nClusterNodes → core l = core (built p pts i))

/-- The points after the correction. -/
def eff (pts : Nat → List Pt) (mir : Pt → Pt) (D : Bool) : Nat → List Pt := fun i => if D then (pts i).map mir else pts i

/-- The segmentation inside the state. -/
structure SegRel (p : Parameters) (pts : Nat → List Pt) (D : Bool) (s : CorrNet) (a : SegNet) : Prop where
  crashed : a.crashed = s.crashed
  net : NetRel p.nClusterNodes s a.net
  first : FirstRel p pts D s a.first
  loc : LocRel p pts D s a.loc

theorem segRel_init (D : Bool) : SegRel p pts D {} SegNet.init where
  crashed := rfl
  net := by
    refine ⟨rfl, rfl, rfl, ?_, fun _ _ h => by simp at h, fun _ _ _ h => by simp at h, fun _ _ h => by simp at h⟩
    simp [flight, linkM, segsM, SegNet.init, DirectNet.init]
  first := ⟨fun i _ => by simp [SegNet.init, pend], fun _ _ _ => rfl⟩
  loc := by
    refine ⟨fun _ _ => rfl, fun i h => ?_, fun _ _ h => by cases h⟩
    unfold Commit at h
    split at h <;> exact absurd rfl h

/-- The state with the local state of `distributeOrWait`. -/
abbrev placed (s : CorrNet) (i : Nat) (l : SegState) : CorrNet :=
  { s with loc := Function.update s.loc i (some { l with sendPoint := none, sendTransition := none }) }

theorem dow_fields (s : CorrNet) (i : Nat) (l : SegState) :
    (distributeOrWait p s i l).loc = Function.update s.loc i (some { l with sendPoint := none, sendTransition := none }) ∧
    (distributeOrWait p s i l).decided = s.decided ∧ (distributeOrWait p s i l).crashed = s.crashed := by
  obtain ⟨h1, h2, h3, h4, h5, h6, h7, h8⟩ := trySend_fields p.nClusterNodes i (placed s i l) l.sendPoint l.sendTransition
  unfold distributeOrWait
  simp only
  split
  · exact ⟨h2, h3, h7⟩
  · exact ⟨h2, h3, h7⟩

/-- The exchange of transitions when a node has decided. -/
theorem netRel_dow (hn : 2 ≤ p.nClusterNodes) {s : CorrNet} {net : DirectNet (List Trans)} {i : Nat} (hi : i < p.nClusterNodes)
    (h : NetRel p.nClusterNodes s net) (l : SegState) :
    NetRel p.nClusterNodes (distributeOrWait p s i l)
      (if i ≠ p.nClusterNodes - 1 then net else DirectNet.startStep false p.nClusterNodes net i l.forNodes) := by
  obtain ⟨h1, h2, h3, h4, h5, h6, h7, h8⟩ := trySend_fields p.nClusterNodes i (placed s i l) l.sendPoint l.sendTransition
  have hx : NetRel p.nClusterNodes (trySend p.nClusterNodes (placed s i l) i l.sendPoint l.sendTransition) net :=
    h.congr h4 h5 h6 (fun _ => by rw [h1]) h8
  unfold distributeOrWait
  simp only
  split
  · exact hx
  · exact netRel_distribute hi hn hx l.forNodes

theorem firsts_dow {s : CorrNet} {i : Nat} {l : SegState} (hi : i ≠ 0 ∨ l.sendPoint = none) :
    (∀ a, firsts ((distributeOrWait p s i l).mailbox a) = firsts (s.mailbox a)) ∧
    (∀ b a, firsts ((distributeOrWait p s i l).link b a) =
      firsts (s.link b a) ++ if b = i ∧ a + 1 = i then pair l.sendPoint l.sendTransition else []) := by
  obtain ⟨h1, h2, h3, h4, h5, h6, h7, h8⟩ := trySend_fields p.nClusterNodes i (placed s i l) l.sendPoint l.sendTransition
  unfold distributeOrWait
  simp only
  split
  · exact ⟨fun _ => by rw [h1], fun b a => firsts_trySend _ _ _ hi b a⟩
  · refine ⟨fun a => ?_, fun b a => ?_⟩
    · rw [(firsts_distribute _ _ _ _).1, h1]
    · rw [(firsts_distribute _ _ _ _).2, firsts_trySend _ _ _ hi b a]

/-- What `trySend` of the segmentation does to the first points. -/
theorem segNet_trySend (hn : 2 ≤ p.nClusterNodes) (first : Nat → Option (Pt × Trans)) {i : Nat} (a : Option Pt) (b : Option Trans)
    (hi : i ≠ 0 ∨ a = none) (k : Nat) (hk : k + 1 = i → first k = none) :
    (SegNet.trySend p first i a b k).toList = (first k).toList ++ if k + 1 = i then pair a b else [] := by
  unfold SegNet.trySend
  cases a with
  | none => simp [pair]
  | some a =>
    cases b with
    | none => simp [pair]
    | some b =>
      have h0 : i ≠ 0 := by rcases hi with h | h; exact h; cases h
      simp only [if_neg (show ¬ p.nClusterNodes ≤ 1 by omega), if_neg h0]
      by_cases hki : k + 1 = i
      · rw [if_pos hki, hk hki, show i - 1 = k by omega, Function.update_self]; rfl
      · rw [if_neg hki, Function.update_of_ne (by omega)]; simp

theorem nxt_of_succ {n k i : Nat} (hi : i < n) (h : k + 1 = i) : RingNet.nxt n k = i := by
  rw [RingNet.nxt_eq (by omega), if_neg (by omega), h]

theorem succ_of_nxt {n k i : Nat} (hk : k < n) (h0 : i ≠ 0) (h : RingNet.nxt n k = i) : k + 1 = i := by
  rw [RingNet.nxt_eq hk] at h
  split at h <;> omega

theorem commit_congr {D : Bool} {s t : CorrNet} (h1 : ∀ i, (t.loc i).isSome = (s.loc i).isSome) (h2 : t.decided = s.decided) (i : Nat) :
    Commit p D t i ↔ Commit p D s i := by
  unfold Commit
  split
  · have := h1 i
    cases h : t.loc i <;> cases h' : s.loc i <;> simp_all
  · rw [h2]

theorem pend_congr {D : Bool} {s t : CorrNet} (h1 : ∀ i, (t.loc i).isSome = (s.loc i).isSome) (h2 : t.decided = s.decided) (i : Nat) :
    pend p pts D t i = pend p pts D s i := by
  unfold pend
  have : t.loc (i + 1) ≠ none ↔ s.loc (i + 1) ≠ none := by
    have := h1 (i + 1)
    cases h : t.loc (i + 1) <;> cases h' : s.loc (i + 1) <;> simp_all
  rw [h2]
  simp only [this]

/-- A change of one local state which matters neither for first points nor for the decision. -/
theorem LocRel.set {D : Bool} {s t : CorrNet} {loc : Nat → Option SegState} (h : LocRel p pts D s loc) {i : Nat} {l l' : SegState}
    (hl : s.loc i = some l) (ht : t.loc = Function.update s.loc i (some l')) (hd : t.decided = s.decided) (hc : core l' = core l)
    (hs : l'.sendPoint = l.sendPoint) (hs' : l'.sendTransition = l.sendTransition) : LocRel p pts D t loc := by
  have hsome : ∀ a, (t.loc a).isSome = (s.loc a).isSome := by
    intro a
    rw [ht]
    by_cases ha : a = i
    · subst ha; rw [Function.update_self, hl]; rfl
    · rw [Function.update_of_ne ha]
  refine ⟨fun a ha => h.idle a (fun hc => ha ((commit_congr hsome hd a).2 hc)), fun a ha => ?_, fun a la hla hda hD => ?_⟩
  · obtain ⟨x, y, h1, h2, h3⟩ := h.busy a ((commit_congr hsome hd a).1 ha)
    by_cases hai : a = i
    · subst hai
      rw [hl] at h1
      cases Option.some.inj h1
      exact ⟨l', y, by rw [ht, Function.update_self], h2, hc.trans h3⟩
    · exact ⟨x, y, by rw [ht, Function.update_of_ne hai]; exact h1, h2, h3⟩
  · rw [ht] at hla
    rw [hd] at hda
    by_cases hai : a = i
    · subst hai
      rw [Function.update_self] at hla
      cases Option.some.inj hla
      obtain ⟨h1, h2, h3⟩ := h.wait a l hl hda hD
      exact ⟨hs.trans h1, hs'.trans h2, fun hx => hc.trans (h3 hx)⟩
    · rw [Function.update_of_ne hai] at hla; exact h.wait a la hla hda hD

theorem eff_false (pts : Nat → List Pt) (mir : Pt → Pt) : eff pts mir false = pts := by funext i; simp [eff]

/-- What is known about a count which is handled. -/
theorem count_facts {b it : Bool} (hp : p.WellFormed) (hn : 2 ≤ p.nClusterNodes) {s : CorrNet} (h : Reachable b it p pts mir s) {i : Nat}
    (hi : i < p.nClusterNodes) {x : RMsg Count} {rest : List CMsg} (hl : s.mailbox i = .count x :: rest) :
    s.decided i = none ∧ (s.cproto i).isRunning = (s.loc i).isSome := by
  obtain ⟨r, hr, hrel⟩ := ring_reachable hp hn h
  have hI := RingNet.inv_reachable hn hr
  have hmb : r.mailbox i = x :: counts rest := by rw [hrel.mailbox, hl]; rfl
  have hlt := RingNet.processed_lt hn hI hi hmb
  have h1 := RingNet.C18_done_once hn hr hi
  have hd : r.done i = 0 := by
    by_contra hne
    have := h1.2.1.1 (by omega)
    omega
  refine ⟨(hrel.undecided i).2 hd, ?_⟩
  rw [← hrel.started, ← hrel.proto, Bool.eq_iff_iff, h1.2.2]
  simp [hd]

section Sim

variable {D : Bool} {s : CorrNet} {a : SegNet}

theorem seg_enter (hp : p.WellFormed) (hn : 2 ≤ p.nClusterNodes) (hrel : SegRel p pts D s a) (ha : SegNet.Reachable p (eff pts mir D) a)
    (hdl : ∀ i, s.decided i ≠ none → s.loc i ≠ none) {i : Nat} (hi : i < p.nClusterNodes) (hl : s.loc i = none) (hc : s.crashed = false) :
    ∃ a', (a' = a ∨ SegNet.Step p (eff pts mir D) a a') ∧ SegRel p pts D (enter p pts s i) a' := by
  obtain ⟨e1, eb⟩ := built_spec hp pts i
  have hun : s.decided i = none := by
    by_contra h; exact hdl i h hl
  have hcom : ¬ Commit p D s i := by
    unfold Commit; split <;> simp [hl, hun]
  have haloc := hrel.loc.idle i hcom
  have hnet : NetRel p.nClusterNodes (enter p pts s i) a.net := by
    unfold enter
    rw [e1]
    refine hrel.net.congr rfl rfl rfl (fun k => ?_) (fun j k => ?_)
    · simp only [Proto.resolveBuffer, post]
      by_cases hk : k = i
      · subst hk; rw [Function.update_self]; simp
      · rw [Function.update_of_ne hk]
    · simp only [post, update2]
      split
      · rename_i h; simp [h.1, h.2]
      · rfl
  have hmail : ∀ k, firsts ((enter p pts s i).mailbox k) = firsts (s.mailbox k) := by
    intro k
    unfold enter
    rw [e1]
    simp only [Proto.resolveBuffer, post]
    by_cases hk : k = i
    · subst hk; rw [Function.update_self]; simp
    · rw [Function.update_of_ne hk]
  have hlink : ∀ j k, firsts ((enter p pts s i).link j k) = firsts (s.link j k) := by
    intro j k
    unfold enter
    rw [e1]
    simp only [post, update2]
    split
    · rename_i h; simp [h.1, h.2]
    · rfl
  have hloc : (enter p pts s i).loc = Function.update s.loc i (some (built p pts i)) := by
    unfold enter; rw [e1]; rfl
  have hdec : (enter p pts s i).decided = s.decided := by
    unfold enter; rw [e1]; rfl
  have hcr : (enter p pts s i).crashed = false := by
    unfold enter; rw [e1]; exact hc
  have hpend : ∀ k, k + 1 ≠ i → pend p pts D (enter p pts s i) k = pend p pts D s k := by
    intro k hk
    unfold pend
    rw [hloc, hdec, Function.update_of_ne hk]
  by_cases hD : D = false ∧ i + 1 < p.nClusterNodes
  · obtain ⟨hD, hi1⟩ := hD
    subst hD
    rw [eff_false] at ha ⊢
    have hI := SegNet.inv_reachable hp ha
    refine ⟨SegNet.segment p pts a i, .inr (.segment a i hi haloc (by rw [hrel.crashed]; exact hc)), ?_⟩
    have hseg : SegNet.segment p pts a i = { a with
        loc := Function.update a.loc i (some { built p pts i with sendPoint := none, sendTransition := none })
        first := SegNet.trySend p a.first i (built p pts i).sendPoint (built p pts i).sendTransition } := by
      unfold SegNet.segment
      rw [e1]
      simp only
      rw [if_pos ⟨hn, by omega⟩]
    rw [hseg]
    have hfn : ∀ k, k + 1 = i → a.first k = none := by
      intro k hk
      cases hf : a.first k with
      | none => rfl
      | some x =>
        obtain ⟨_, _, _, h4, _⟩ := hI.first k x.1 x.2 hf
        rw [hk] at h4
        exact absurd haloc h4
    refine ⟨hrel.crashed.trans (hc.trans hcr.symm), hnet, ⟨fun k hk => ?_, fun j k hj => ?_⟩, ⟨fun k hk => ?_, fun k hk => ?_, fun k l hkl hkd _ => ?_⟩⟩
    · simp only
      rw [segNet_trySend hn a.first _ _ (by
        by_cases h0 : i = 0
        · right; rw [eb.sendPoint]; simp [h0]
        · exact .inl h0) k (hfn k), hmail, hlink]
      have hm := hrel.first.main k hk
      by_cases hki : k + 1 = i
      · rw [hfn k hki] at hm ⊢
        simp only [Option.toList_none, List.nil_eq, List.append_eq_nil_iff] at hm
        rw [hm.2.1, hm.2.2, if_pos hki]
        have : pend p pts false (enter p pts s i) k = pair (built p pts i).sendPoint (built p pts i).sendTransition := by
          unfold pend
          rw [hloc, hdec, hki, if_pos ⟨rfl, by omega, by simp, hun⟩]
        rw [this]; simp
      · rw [if_neg hki, List.append_nil, hm, hpend k hki]
    · rw [hlink]; exact hrel.first.other j k hj
    · simp only
      by_cases hki : k = i
      · subst hki
        exfalso; apply hk
        unfold Commit
        rw [if_pos ⟨rfl, hi1⟩, hloc]; simp
      · rw [Function.update_of_ne hki]
        refine hrel.loc.idle k (fun hcm => hk ?_)
        unfold Commit at hcm ⊢
        rw [hloc, hdec, Function.update_of_ne hki]; exact hcm
    · simp only
      by_cases hki : k = i
      · subst hki
        exact ⟨built p pts k, { built p pts k with sendPoint := none, sendTransition := none }, by rw [hloc, Function.update_self],
          by rw [Function.update_self], rfl⟩
      · rw [Function.update_of_ne hki, hloc, Function.update_of_ne hki]
        refine hrel.loc.busy k ?_
        unfold Commit at hk ⊢
        rw [hloc, hdec, Function.update_of_ne hki] at hk; exact hk
    · rw [hloc] at hkl
      rw [hdec] at hkd
      by_cases hki : k = i
      · subst hki
        rw [Function.update_self] at hkl
        cases Option.some.inj hkl
        exact ⟨rfl, rfl, fun _ => rfl⟩
      · rw [Function.update_of_ne hki] at hkl
        exact hrel.loc.wait k l hkl hkd rfl
  · have hcm : ∀ k, Commit p D (enter p pts s i) k ↔ Commit p D s k := by
      intro k
      unfold Commit
      by_cases hki : k = i
      · subst hki; rw [if_neg hD, if_neg hD, hdec]
      · rw [hloc, hdec, Function.update_of_ne hki]
    refine ⟨a, .inl rfl, hrel.crashed.trans (hc.trans hcr.symm), hnet, hrel.first.congr hmail hlink (fun k => ?_),
      ⟨fun k hk => hrel.loc.idle k (fun h => hk ((hcm k).2 h)), fun k hk => ?_, fun k l hkl hkd hDf => ?_⟩⟩
    · by_cases hki : k + 1 = i
      · unfold pend
        rw [if_neg (fun h => hD ⟨h.1, by omega⟩), if_neg (fun h => hD ⟨h.1, by omega⟩)]
      · exact hpend k hki
    · by_cases hki : k = i
      · subst hki; exact absurd ((hcm k).1 hk) hcom
      · rw [hloc, Function.update_of_ne hki]
        exact hrel.loc.busy k ((hcm k).1 hk)
    · rw [hloc] at hkl
      rw [hdec] at hkd
      by_cases hki : k = i
      · subst hki
        rw [Function.update_self] at hkl
        cases Option.some.inj hkl
        exact ⟨rfl, rfl, fun _ => rfl⟩
      · rw [Function.update_of_ne hki] at hkl
        exact hrel.loc.wait k l hkl hkd hDf

theorem seg_arrive (hrel : SegRel p pts D s a) {j i : Nat} (hj : j < p.nClusterNodes) (hi : i < p.nClusterNodes) {m : CMsg}
    {rest : List CMsg} (hl : s.link j i = m :: rest) :
    SegRel p pts D { s with
        link := Function.update s.link j (Function.update (s.link j) i rest)
        mailbox := Function.update s.mailbox i (s.mailbox i ++ [m]) } a := by
  refine ⟨hrel.crashed, netRel_arrive hj hi hrel.net hl, ⟨fun k hk => ?_, fun b k hb => ?_⟩, ⟨hrel.loc.idle, hrel.loc.busy, hrel.loc.wait⟩⟩
  · rw [hrel.first.main k hk]
    have hp' : pend p pts D { s with
        link := Function.update s.link j (Function.update (s.link j) i rest)
        mailbox := Function.update s.mailbox i (s.mailbox i ++ [m]) } k = pend p pts D s k := rfl
    rw [hp']
    congr 1
    simp only [update2]
    by_cases hki : k = i
    · subst hki
      rw [Function.update_self]
      by_cases hnx : RingNet.nxt p.nClusterNodes k = j
      · rw [if_pos ⟨hnx, rfl⟩, hnx, hl, ← List.singleton_append (l := rest), firsts_append, firsts_append]
        simp
      · rw [if_neg (fun h => hnx h.1)]
        have := hrel.first.other j k (fun h => hnx h.symm)
        rw [hl, ← List.singleton_append, firsts_append, List.append_eq_nil_iff] at this
        simp [this.1]
    · rw [Function.update_of_ne hki, if_neg (fun h => hki h.2)]
  · simp only [update2]
    split
    · rename_i h
      have := hrel.first.other b k hb
      rw [h.1, h.2, hl, ← List.singleton_append, firsts_append, List.append_eq_nil_iff] at this
      exact this.2
    · exact hrel.first.other b k hb

theorem firstRel_pop {first : Nat → Option (Pt × Trans)} (h : FirstRel p pts D s first) {i : Nat} (hi : i < p.nClusterNodes) {pt : Pt}
    {t : Trans} {rest : List CMsg} (hl : s.mailbox i = .first pt t :: rest) :
    first i = some (pt, t) ∧
      FirstRel p pts D { s with mailbox := Function.update s.mailbox i rest } (Function.update first i none) := by
  have hm := h.main i hi
  rw [hl, firsts_first] at hm
  have hlen := congrArg List.length hm
  have hle : (first i).toList.length ≤ 1 := by cases first i <;> simp
  simp only [List.length_append, List.length_cons] at hlen
  have h1 : pend p pts D s i = [] := List.eq_nil_of_length_eq_zero (by omega)
  have h2 : firsts rest = [] := List.eq_nil_of_length_eq_zero (by omega)
  have h3 : firsts (s.link (RingNet.nxt p.nClusterNodes i) i) = [] := List.eq_nil_of_length_eq_zero (by omega)
  rw [h1, h2, h3] at hm
  refine ⟨?_, ⟨fun k hk => ?_, h.other⟩⟩
  · cases hf : first i with
    | none => rw [hf] at hm; simp at hm
    | some x => rw [hf] at hm; simpa using hm
  · have hp' : pend p pts D { s with mailbox := Function.update s.mailbox i rest } k = pend p pts D s k := rfl
    rw [hp']
    simp only
    by_cases hki : k = i
    · subst hki
      rw [Function.update_self, Function.update_self, h1, h2, h3]; rfl
    · rw [Function.update_of_ne hki, Function.update_of_ne hki]
      exact h.main k hk

theorem netRel_pop {net : DirectNet (List Trans)} (h : NetRel p.nClusterNodes s net) {i : Nat} {m : CMsg} (hm : segsL [m] = [])
    {rest : List CMsg} (hl : s.mailbox i = m :: rest) :
    NetRel p.nClusterNodes { s with mailbox := Function.update s.mailbox i rest } net := by
  refine h.congr rfl rfl rfl (fun k => ?_) (fun _ _ => rfl)
  simp only
  by_cases hk : k = i
  · subst hk; rw [Function.update_self, hl, ← List.singleton_append, segsL_append, hm, List.nil_append]
  · rw [Function.update_of_ne hk]

theorem seg_handleFirst (hp : p.WellFormed) (hn : 2 ≤ p.nClusterNodes) (hrel : SegRel p pts D s a)
    (ha : SegNet.Reachable p (eff pts mir D) a) (hdl : ∀ i, s.decided i ≠ none → s.loc i ≠ none) {i : Nat} (hi : i < p.nClusterNodes)
    {pt : Pt} {t : Trans} {rest : List CMsg} (hl : s.mailbox i = .first pt t :: rest) (hc : s.crashed = false)
    (hD : D = true → s.decided i ≠ none) :
    ∃ a', SegNet.Step p (eff pts mir D) a a' ∧ a' = SegNet.handleFirst p a i pt t ∧
      SegRel p pts D (handleFirst p { s with mailbox := Function.update s.mailbox i rest } i pt t) a' := by
  have hI := SegNet.inv_reachable hp ha
  obtain ⟨hf, hfr⟩ := firstRel_pop hrel.first hi hl
  have hnet := netRel_pop hrel.net rfl hl
  have hi1 : i + 1 < p.nClusterNodes := (hI.first i pt t hf).1
  refine ⟨SegNet.handleFirst p a i pt t, .first a i pt t hf (by rw [hrel.crashed]; exact hc), rfl, ?_⟩
  unfold handleFirst SegNet.handleFirst
  simp only
  cases hsl : s.loc i with
  | none =>
    have hun : s.decided i = none := by
      by_contra h; exact hdl i h hsl
    have hal : a.loc i = none := hrel.loc.idle i (by unfold Commit; split <;> simp [hsl, hun])
    rw [hal]
    exact ⟨rfl, hnet.congr rfl rfl rfl (fun _ => rfl) (fun _ _ => rfl), hfr.congr (fun _ => rfl) (fun _ _ => rfl) (fun _ => rfl),
      ⟨hrel.loc.idle, hrel.loc.busy, hrel.loc.wait⟩⟩
  | some l =>
    have hcm : Commit p D s i := by
      unfold Commit
      cases D with
      | false => rw [if_pos ⟨rfl, hi1⟩, hsl]; simp
      | true => rw [if_neg (by simp)]; exact hD rfl
    obtain ⟨l1, la, h1, h2, h3⟩ := hrel.loc.busy i hcm
    rw [hsl] at h1
    cases Option.some.inj h1
    rw [h2]
    have hcore : (l.onFirstPoint p i pt t).map core = (la.onFirstPoint p i pt t).map core := by
      rw [← onFirstPoint_core, ← onFirstPoint_core, h3]
    simp only
    cases ho : l.onFirstPoint p i pt t with
    | none =>
      rw [ho] at hcore
      have : la.onFirstPoint p i pt t = none := by
        cases h : la.onFirstPoint p i pt t with
        | none => rfl
        | some x => rw [h] at hcore; cases hcore
      rw [this]
      exact ⟨rfl, hnet.congr rfl rfl rfl (fun _ => rfl) (fun _ _ => rfl), hfr.congr (fun _ => rfl) (fun _ _ => rfl) (fun _ => rfl),
        ⟨hrel.loc.idle, hrel.loc.busy, hrel.loc.wait⟩⟩
    | some l' =>
      rw [ho] at hcore
      cases ho' : la.onFirstPoint p i pt t with
      | none => rw [ho'] at hcore; cases hcore
      | some la' =>
        rw [ho'] at hcore
        simp only [Option.map_some, Option.some.injEq] at hcore
        have hfor : l'.forNodes = la'.forNodes := by
          have : (core l').forNodes = (core la').forNodes := by rw [hcore]
          exact this
        have hcore2 : core { l' with forNodes := fun _ => [] } = core { la' with forNodes := fun _ => [] } := by
          have : ({ core l' with forNodes := fun _ => [] } : SegState) = { core la' with forNodes := fun _ => [] } := by rw [hcore]
          exact this
        obtain ⟨-, hsp, hst⟩ := onFirstPoint_invalid ho
        refine ⟨hrel.crashed, ?_, ?_, ?_⟩
        · simp only [SegNet.distribute, hfor]
          refine netRel_distribute hi hn ?_ _
          exact hnet.congr rfl rfl rfl (fun _ => rfl) (fun _ _ => rfl)
        · simp only [SegNet.distribute]
          refine firstRel_distribute (hfr.congr (fun _ => rfl) (fun _ _ => rfl) (fun k => ?_))
          refine pend_congr (fun k => ?_) ?_ k
          swap
          · rfl
          simp only
          by_cases hk : k = i
          · subst hk; rw [Function.update_self, hsl]; rfl
          · rw [Function.update_of_ne hk]
        · simp only [SegNet.distribute]
          have hsome : ∀ k, (Function.update s.loc i (some { l' with forNodes := fun _ => [] }) k).isSome = (s.loc k).isSome := by
            intro k
            by_cases hk : k = i
            · subst hk; rw [Function.update_self, hsl]; rfl
            · rw [Function.update_of_ne hk]
          have hcc : ∀ k, Commit p D (distribute p.nClusterNodes { s with
                mailbox := Function.update s.mailbox i rest
                loc := Function.update s.loc i (some { l' with forNodes := fun _ => [] }) } i l'.forNodes) k ↔ Commit p D s k :=
            fun k => by
              refine commit_congr ?_ ?_ k
              · exact hsome
              · rfl
          refine ⟨fun k hk => ?_, fun k hk => ?_, fun k x hkl hkd hDf => ?_⟩
          · have hk' : ¬ Commit p D s k := fun h => hk ((hcc k).2 h)
            by_cases hki : k = i
            · subst hki; exact absurd hcm hk'
            · rw [Function.update_of_ne hki]; exact hrel.loc.idle k hk'
          · by_cases hki : k = i
            · subst hki
              refine ⟨_, _, ?_, by rw [Function.update_self], hcore2⟩
              simp only [distribute]; rw [Function.update_self]
            · rw [Function.update_of_ne hki]
              simp only [distribute]
              rw [Function.update_of_ne hki]
              exact hrel.loc.busy k ((hcc k).1 hk)
          · simp only [distribute] at hkl hkd
            by_cases hki : k = i
            · subst hki
              rw [Function.update_self] at hkl
              cases Option.some.inj hkl
              obtain ⟨w1, w2, -⟩ := hrel.loc.wait k l hsl hkd hDf
              exact ⟨hsp.trans w1, hst.trans w2, fun h => by omega⟩
            · rw [Function.update_of_ne hki] at hkl
              exact hrel.loc.wait k x hkl hkd hDf

theorem seg_handleSegs (hrel : SegRel p pts D s a) {q : Nat → List Pt} {i : Nat} (hi : i < p.nClusterNodes)
    {m : DMsg (List Trans)} {rest : List CMsg} (hl : s.mailbox i = .segs m :: rest) (hc : s.crashed = false) :
    ∃ a', SegNet.Step p q a a' ∧ SegRel p pts D (handleSegs { s with mailbox := Function.update s.mailbox i rest } i m) a' := by
  obtain ⟨pre, post, h1, h2⟩ := netRel_handleSegs hi hrel.net hl
  refine ⟨_, .exchange a pre post m h1 (by rw [hrel.crashed]; exact hc), ?_⟩
  have hf : ∀ t : CorrNet, t.loc = s.loc → t.decided = s.decided → t.mailbox = Function.update s.mailbox i rest → t.link = s.link →
      FirstRel p pts D t a.first := by
    intro t e1 e2 e3 e4
    refine hrel.first.congr (fun k => ?_) (fun _ _ => by rw [e4]) (fun k => pend_congr (fun _ => by rw [e1]) e2 k)
    rw [e3]
    by_cases hk : k = i
    · subst hk; rw [Function.update_self, hl]; rfl
    · rw [Function.update_of_ne hk]
  have hL : ∀ t : CorrNet, t.loc = s.loc → t.decided = s.decided → LocRel p pts D t a.loc := by
    intro t e1 e2
    have hcc := fun k => commit_congr (p := p) (D := D) (s := s) (t := t) (fun _ => by rw [e1]) e2 k
    refine ⟨fun k hk => hrel.loc.idle k (fun h => hk ((hcc k).2 h)), fun k hk => ?_, fun k l hk hd hDf => ?_⟩
    · rw [e1]; exact hrel.loc.busy k ((hcc k).1 hk)
    · rw [e1] at hk; rw [e2] at hd; exact hrel.loc.wait k l hk hd hDf
  refine ⟨?_, h2, ?_, ?_⟩
  · simp only; rw [hrel.crashed]; unfold handleSegs; split <;> rfl
  · unfold handleSegs; split <;> exact hf _ rfl rfl rfl rfl
  · unfold handleSegs; split <;> exact hL _ rfl rfl

theorem append_comm_short {A : Type} {x y : List A} (h : (x ++ y).length ≤ 1) : x ++ y = y ++ x := by
  cases x with
  | nil => simp
  | cons a x =>
    simp only [List.cons_append, List.length_cons, List.length_append] at h
    have : y = [] := List.eq_nil_of_length_eq_zero (by omega)
    simp [this]

/-- The points stay as they are: the decision of a node which is not the last one. -/
theorem seg_keep (hp : p.WellFormed) (hrel : SegRel p pts false s a) (hn : 2 ≤ p.nClusterNodes) {i : Nat} (hi : i + 1 < p.nClusterNodes)
    {l : SegState} (hl : s.loc i = some l) (hun : s.decided i = none) :
    SegRel p pts false (distributeOrWait p { s with decided := Function.update s.decided i (some false) } i l) a := by
  set u : CorrNet := { s with decided := Function.update s.decided i (some false) } with hu
  obtain ⟨w1, w2, -⟩ := hrel.loc.wait i l hl hun rfl
  have hsp : i ≠ 0 ∨ l.sendPoint = none := by
    by_cases h0 : i = 0
    · right; rw [w1, (built_spec hp pts i).2.sendPoint]; simp [h0]
    · exact .inl h0
  obtain ⟨d1, d2, d3⟩ := dow_fields (p := p) u i l
  obtain ⟨f1, f2⟩ := firsts_dow (p := p) (s := u) hsp
  have hsome : ∀ k, ((distributeOrWait p u i l).loc k).isSome = (s.loc k).isSome := by
    intro k
    rw [d1]
    by_cases hk : k = i
    · subst hk; rw [Function.update_self, hl]; rfl
    · rw [Function.update_of_ne hk]
  have hnone : ∀ k, (distributeOrWait p u i l).loc k ≠ none ↔ s.loc k ≠ none := by
    intro k
    rw [← Option.isSome_iff_ne_none, ← Option.isSome_iff_ne_none, hsome]
  have hdec : ∀ k, k ≠ i → (distributeOrWait p u i l).decided k = s.decided k := by
    intro k hk
    rw [d2, hu]; simp only; rw [Function.update_of_ne hk]
  have hcc : ∀ k, Commit p false (distributeOrWait p u i l) k ↔ Commit p false s k := by
    intro k
    unfold Commit
    by_cases hk : k = i
    · subst hk; rw [if_pos ⟨rfl, hi⟩, if_pos ⟨rfl, hi⟩, hnone]
    · rw [hnone, hdec k hk]
  refine ⟨hrel.crashed.trans d3.symm, ?_, ⟨fun k hk => ?_, fun b k hb => ?_⟩, ⟨fun k hk => hrel.loc.idle k (fun h => hk ((hcc k).2 h)), fun k hk => ?_, fun k x hkx hkd _ => ?_⟩⟩
  · have := netRel_dow (p := p) hn (i := i) (by omega) (s := u) (hrel.net.congr rfl rfl rfl (fun _ => rfl) (fun _ _ => rfl)) l
    rwa [if_pos (by omega)] at this
  · have hm := hrel.first.main k hk
    rw [f1, f2]
    by_cases hki : k + 1 = i
    · have hnx := nxt_of_succ (n := p.nClusterNodes) (by omega) hki
      rw [hnx, if_pos ⟨rfl, hki⟩]
      have e1 : pend p pts false (distributeOrWait p u i l) k = [] := by
        unfold pend
        rw [if_neg]
        rintro ⟨-, -, -, h⟩
        rw [hki, d2, hu] at h
        simp at h
      have e2 : pend p pts false s k = pair l.sendPoint l.sendTransition := by
        unfold pend
        rw [hki, if_pos ⟨rfl, by omega, by rw [hl]; simp, hun⟩, w1, w2]
      rw [e1, List.nil_append, hm, e2, hnx, ← List.append_assoc (firsts (s.mailbox k))]
      refine append_comm_short ?_
      have := congrArg List.length hm
      rw [e2, hnx] at this
      rw [← this]
      cases a.first k <;> simp
    · have : pend p pts false (distributeOrWait p u i l) k = pend p pts false s k := by
        unfold pend
        rw [hdec _ hki]
        simp only [hnone]
      rw [this, hm, if_neg (fun h => hki h.2), List.append_nil]
  · rw [f2, if_neg, List.append_nil]
    · exact hrel.first.other b k hb
    · rintro ⟨rfl, h⟩
      exact hb (nxt_of_succ (by omega) h).symm
  · obtain ⟨x, y, h1, h2, h3⟩ := hrel.loc.busy k ((hcc k).1 hk)
    rw [d1]
    by_cases hki : k = i
    · subst hki
      rw [hl] at h1
      cases Option.some.inj h1
      exact ⟨{ l with sendPoint := none, sendTransition := none }, y, by rw [Function.update_self], h2, h3⟩
    · exact ⟨x, y, by rw [Function.update_of_ne hki]; exact h1, h2, h3⟩
  · by_cases hki : k = i
    · subst hki; rw [d2, hu] at hkd; simp at hkd
    · rw [d1, Function.update_of_ne hki] at hkx
      rw [hdec k hki] at hkd
      exact hrel.loc.wait k x hkx hkd rfl

/-- The decision of a node which segments only now. -/
theorem seg_commit (hp : p.WellFormed) (hrel : SegRel p pts D s a) (hn : 2 ≤ p.nClusterNodes) {q : Nat → List Pt}
    (ha : SegNet.Reachable p q a) {i : Nat} (hi : i < p.nClusterNodes) (hD : ¬ (D = false ∧ i + 1 < p.nClusterNodes))
    {l l0 x : SegState} {d : Bool} (hx : s.loc i = some x) (hun : s.decided i = none) (hc : s.crashed = false)
    (h0 : SegState.buildSegments p i {} (q i) = some l0) (hcore : core l = core l0) (hs1 : l.sendPoint = l0.sendPoint)
    (hs2 : l.sendTransition = l0.sendTransition) :
    ∃ a', SegNet.Step p q a a' ∧
      SegRel p pts D (distributeOrWait p { s with decided := Function.update s.decided i (some d) } i l) a' := by
  set u : CorrNet := { s with decided := Function.update s.decided i (some d) } with hu
  have hI := SegNet.inv_reachable hp ha
  have hcom : ¬ Commit p D s i := by unfold Commit; rw [if_neg hD]; simp [hun]
  have haloc := hrel.loc.idle i hcom
  have hsp : i ≠ 0 ∨ l0.sendPoint = none := by
    obtain ⟨y, hy, hb⟩ := SegState.buildSegments_built hp i {} (q i)
    cases Option.some.inj (h0.symm.trans hy)
    by_cases hi0 : i = 0
    · right; rw [hb.sendPoint]; simp [hi0]
    · exact .inl hi0
  have hsp' : i ≠ 0 ∨ l.sendPoint = none := by rwa [hs1]
  have hfn : ∀ k, k + 1 = i → a.first k = none := by
    intro k hk
    cases hf : a.first k with
    | none => rfl
    | some x =>
      obtain ⟨_, _, _, h4, _⟩ := hI.first k x.1 x.2 hf
      rw [hk] at h4
      exact absurd haloc h4
  obtain ⟨d1, d2, d3⟩ := dow_fields (p := p) u i l
  obtain ⟨f1, f2⟩ := firsts_dow (p := p) (s := u) hsp'
  have hnet := netRel_dow (p := p) hn (i := i) hi (s := u) (hrel.net.congr rfl rfl rfl (fun _ => rfl) (fun _ _ => rfl)) l
  have hfor : l.forNodes = l0.forNodes := by
    have : (core l).forNodes = (core l0).forNodes := by rw [hcore]
    exact this
  have hsome : ∀ k, ((distributeOrWait p u i l).loc k).isSome = (s.loc k).isSome := by
    intro k
    rw [d1]
    by_cases hk : k = i
    · subst hk; rw [Function.update_self, hx]; rfl
    · rw [Function.update_of_ne hk]
  have hnone : ∀ k, (distributeOrWait p u i l).loc k ≠ none ↔ s.loc k ≠ none := by
    intro k
    rw [← Option.isSome_iff_ne_none, ← Option.isSome_iff_ne_none, hsome]
  have hdec : ∀ k, k ≠ i → (distributeOrWait p u i l).decided k = s.decided k := by
    intro k hk
    rw [d2, hu]; simp only; rw [Function.update_of_ne hk]
  have hcc : ∀ k, k ≠ i → (Commit p D (distributeOrWait p u i l) k ↔ Commit p D s k) := by
    intro k hk
    unfold Commit
    rw [hnone, hdec k hk]
  refine ⟨SegNet.segment p q a i, .segment a i hi haloc (by rw [hrel.crashed]; exact hc), ?_⟩
  have hseg : SegNet.segment p q a i = { a with
      loc := Function.update a.loc i (some { l0 with sendPoint := none, sendTransition := none })
      first := SegNet.trySend p a.first i l0.sendPoint l0.sendTransition
      net := if i ≠ p.nClusterNodes - 1 then a.net else DirectNet.startStep false p.nClusterNodes a.net i l.forNodes } := by
    unfold SegNet.segment
    rw [h0]
    simp only
    by_cases hin : i ≠ p.nClusterNodes - 1
    · rw [if_pos ⟨hn, hin⟩, if_pos hin]
    · rw [if_neg (fun h => hin h.2), if_neg hin, hfor]; rfl
  rw [hseg]
  refine ⟨hrel.crashed.trans d3.symm, hnet, ⟨fun k hk => ?_, fun b k hb => ?_⟩, ⟨fun k hk => ?_, fun k hk => ?_, fun k y hky hkd hDf => ?_⟩⟩
  · have hm := hrel.first.main k hk
    simp only
    rw [segNet_trySend hn a.first _ _ hsp k (hfn k), f1, f2]
    have hpd : pend p pts D (distributeOrWait p u i l) k = pend p pts D s k := by
      unfold pend
      by_cases hki : k + 1 = i
      · rw [if_neg (fun h => hD ⟨h.1, by omega⟩), if_neg (fun h => hD ⟨h.1, by omega⟩)]
      · rw [hdec _ hki]
        simp only [hnone]
    rw [hpd, hm]
    by_cases hki : k + 1 = i
    · rw [nxt_of_succ (n := p.nClusterNodes) (by omega) hki, if_pos hki, if_pos ⟨rfl, hki⟩, hs1, hs2]
      simp only [List.append_assoc, hu]
    · rw [if_neg hki, if_neg (fun h => hki h.2)]; simp [hu]
  · rw [f2, if_neg, List.append_nil]
    · exact hrel.first.other b k hb
    · rintro ⟨rfl, h⟩
      exact hb (nxt_of_succ (by omega) h).symm
  · simp only
    by_cases hki : k = i
    · subst hki
      exfalso; apply hk
      unfold Commit
      rw [if_neg hD, d2, hu]; simp
    · rw [Function.update_of_ne hki]
      exact hrel.loc.idle k (fun h => hk ((hcc k hki).2 h))
  · simp only
    rw [d1]
    by_cases hki : k = i
    · subst hki
      exact ⟨{ l with sendPoint := none, sendTransition := none }, { l0 with sendPoint := none, sendTransition := none },
        by rw [Function.update_self], by rw [Function.update_self], hcore⟩
    · rw [Function.update_of_ne hki, Function.update_of_ne hki]
      exact hrel.loc.busy k ((hcc k hki).1 hk)
  · by_cases hki : k = i
    · subst hki; rw [d2, hu] at hkd; simp at hkd
    · rw [d1, Function.update_of_ne hki] at hky
      rw [hdec k hki] at hkd
      exact hrel.loc.wait k y hky hkd hDf

theorem seg_correct (hp : p.WellFormed) (hrel : SegRel p pts D s a) (hn : 2 ≤ p.nClusterNodes)
    (ha : SegNet.Reachable p (eff pts mir D) a) {i : Nat} (hi : i < p.nClusterNodes) {l : SegState} (hl : s.loc i = some l)
    (hun : s.decided i = none) (hc : s.crashed = false)
    (hdt : ∀ d, (correct p pts mir s i l).decided i = some d → d = D) :
    ∃ a', (a' = a ∨ SegNet.Step p (eff pts mir D) a a') ∧ SegRel p pts D (correct p pts mir s i l) a' := by
  unfold correct at hdt ⊢
  by_cases hm : mirrors ⟨s.global i, l.invalid⟩
  · simp only [if_pos hm] at hdt ⊢
    obtain ⟨l', hl', -⟩ := SegState.buildSegments_built hp i (cleared l) ((points pts s i).map mir)
    simp only [hl'] at hdt ⊢
    have hDt : D = true := (hdt true (by rw [(dow_fields _ _ _).2.1]; simp)).symm
    subst hDt
    have hI := SegNet.inv_reachable hp ha
    have haloc : a.loc i = none := hrel.loc.idle i (by unfold Commit; simp [hun])
    have hgot : s.got i = [] := by
      rw [← hrel.net.got]
      exact ((DirectNet.inv_reachable hI.net).idle i hi (hI.idle i hi haloc)).2.2.2.1
    rw [show points pts s i = pts i by simp [points, hgot]] at hl'
    have hg : Function.update s.got i [] = s.got := by
      rw [← hgot]; exact Function.update_eq_self i s.got
    obtain ⟨l0, hl0, -⟩ := SegState.buildSegments_built hp i {} ((pts i).map mir)
    obtain ⟨c1, c2, c3⟩ := build_cleared hp i l ((pts i).map mir) hl' hl0
    obtain ⟨a', h1, h2⟩ := seg_commit hp hrel hn ha hi (by simp) (d := true) hl hun hc (by simpa [eff] using hl0) c1 c2 c3
    refine ⟨a', .inr h1, ?_⟩
    rw [hg]
    exact h2
  · simp only [if_neg hm] at hdt ⊢
    have hDf : D = false := (hdt false (by rw [(dow_fields _ _ _).2.1]; simp)).symm
    subst hDf
    by_cases hi1 : i + 1 < p.nClusterNodes
    · exact ⟨a, .inl rfl, seg_keep hp hrel hn hi1 hl hun⟩
    · obtain ⟨w1, w2, w3⟩ := hrel.loc.wait i l hl hun rfl
      obtain ⟨a', h1, h2⟩ := seg_commit hp hrel hn ha hi (fun h => hi1 h.2) (d := false) hl hun hc
        (by rw [eff_false]; exact (built_spec hp pts i).1) (w3 (by omega)) w1 w2
      exact ⟨a', .inr h1, h2⟩

theorem seg_handleCount (hp : p.WellFormed) (hrel : SegRel p pts D s a) (hn : 2 ≤ p.nClusterNodes)
    (ha : SegNet.Reachable p (eff pts mir D) a) {i : Nat} (hi : i < p.nClusterNodes) {x : RMsg Count} {rest : List CMsg}
    (hl : s.mailbox i = .count x :: rest) (hc : s.crashed = false)
    (hcf : s.decided i = none ∧ (s.cproto i).isRunning = (s.loc i).isSome)
    (hdt : ∀ d, (handleCount p pts mir { s with mailbox := Function.update s.mailbox i rest } i x).decided i = some d → d = D) :
    ∃ a', (a' = a ∨ SegNet.Step p (eff pts mir D) a a') ∧
      SegRel p pts D (handleCount p pts mir { s with mailbox := Function.update s.mailbox i rest } i x) a' := by
  obtain ⟨hun, hrun⟩ := hcf
  have hpop : SegRel p pts D { s with mailbox := Function.update s.mailbox i rest } a := by
    refine ⟨hrel.crashed, netRel_pop hrel.net rfl hl, hrel.first.congr (fun k => ?_) (fun _ _ => rfl) (fun _ => rfl),
      ⟨hrel.loc.idle, hrel.loc.busy, hrel.loc.wait⟩⟩
    simp only
    by_cases hk : k = i
    · subst hk; rw [Function.update_self, hl]; rfl
    · rw [Function.update_of_ne hk]
  cases hloc : s.loc i with
  | none =>
    rw [hloc] at hrun
    refine ⟨a, .inl rfl, ?_⟩
    simp only [handleCount, Proto.received, hrun]
    exact ⟨hpop.crashed, hpop.net.congr rfl rfl rfl (fun _ => rfl) (fun _ _ => rfl),
      hpop.first.congr (fun _ => rfl) (fun _ _ => rfl) (fun _ => rfl), ⟨hpop.loc.idle, hpop.loc.busy, hpop.loc.wait⟩⟩
  | some l =>
    rw [hloc] at hrun
    have hrun' : (s.cproto i).isRunning = true := hrun
    simp only [handleCount, Proto.received, hrun', hloc, Option.getD_some, if_true] at hdt ⊢
    set l1 : SegState := { l with invalid := l.invalid + x.body.clockwise } with hl1
    have hset : ∀ (t : CorrNet), t.crashed = s.crashed → t.dproto = s.dproto → t.got = s.got → t.done = s.done →
        t.mailbox = Function.update s.mailbox i rest → (∀ j k, segsL (t.link j k) = segsL (s.link j k)) →
        (∀ j k, firsts (t.link j k) = firsts (s.link j k)) → t.loc = Function.update s.loc i (some l1) → t.decided = s.decided →
        SegRel p pts D t a := by
      intro t e1 e2 e3 e4 e5 e6 e7 e8 e9
      refine ⟨hrel.crashed.trans e1.symm, hpop.net.congr e2 e3 e4 (fun _ => by rw [e5]) e6,
        hpop.first.congr (fun _ => by rw [e5]) e7 (fun k => pend_congr (fun k => ?_) e9 k), hrel.loc.set hloc e8 e9 rfl rfl rfl⟩
      rw [e8]
      by_cases hk : k = i
      · subst hk; rw [Function.update_self]; simp only [hloc]; rfl
      · rw [Function.update_of_ne hk]
    split
    · refine ⟨a, .inl rfl, hset _ rfl rfl rfl rfl rfl (fun j k => ?_) (fun j k => ?_) rfl rfl⟩
      · simp only [post, update2]
        split
        · rename_i h; simp [h.1, h.2]
        · rfl
      · simp only [post, update2]
        split
        · rename_i h; simp [h.1, h.2]
        · rfl
    · rename_i hnr
      simp only [if_neg hnr] at hdt
      refine seg_correct hp ?_ hn ha hi ?_ ?_ ?_ hdt
      · exact hset _ rfl rfl rfl rfl rfl (fun _ _ => rfl) (fun _ _ => rfl) rfl rfl
      · simp only; rw [Function.update_self]
      · exact hun
      · exact hc

end Sim

end CorrNet
end S2G
