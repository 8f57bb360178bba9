import Verif.Model.HeapNet
import Verif.Props.StoreRun
import Verif.Props.CorrComplete

/-!
# C99: the data stores of a cluster with self correction
-/

namespace S2G
namespace Store

open SelfCorrection

variable {P : Type}

/-! ## The messages by value -/

/-- `SegmentMessage` by value. -/
def Kind.dmsg (k : Kind P) (m : DMsg (List (P × P))) : DMsg (List Trans) := ⟨m.src, m.dst, m.body.map k.trans⟩

/-- The messages by value. -/
def Kind.msg (k : Kind P) : HMsg P → CMsg
  | .count m => .count m
  | .first x t => .first (k.pt x) (k.trans t)
  | .segs m => .segs (k.dmsg m)

/-- The protocol by value. -/
def Kind.proto (k : Kind P) (c : Proto (DMsg (List (P × P)))) : Proto (DMsg (List Trans)) :=
  ⟨c.nTotal, c.nReceived, c.nSent, c.buffer.map k.dmsg⟩

/-- The points of a message are in a list. -/
def HMsg.In (E : List P) : HMsg P → Prop
  | .count _ => True
  | .first x _ => x ∈ E
  | .segs m => ∀ t ∈ m.body, t.1 ∈ E ∧ t.2 ∈ E

namespace HeapNet

/-- The state by value. -/
def proj (k : Kind P) (h : HeapNet P) (loc : Nat → Option SegState) (got : Nat → List (DMsg (List Trans))) : CorrNet where
  loc := loc
  global := h.global
  decided := h.decided
  cproto := h.cproto
  dproto := fun i => k.proto (h.dproto i)
  got := got
  done := h.done
  mailbox := fun i => (h.mailbox i).map k.msg
  link := fun i j => (h.link i j).map k.msg
  crashed := h.crashed

variable {k : Kind P} {p : Parameters} {h : HeapNet P} {loc : Nat → Option SegState} {got : Nat → List (DMsg (List Trans))}

theorem proto_sentN (c : Proto (DMsg (List (P × P)))) (n : Nat) : k.proto (c.sentN n) = (k.proto c).sentN n := by
  induction n with
  | zero => rfl
  | succ n ih => simp only [Proto.sentN, ← ih]; rfl

theorem update_map {α β : Type} (f : α → β) (g : Nat → α) (i : Nat) (a : α) :
    (fun j => f (Function.update g i a j)) = Function.update (fun j => f (g j)) i (f a) := by
  funext j
  by_cases hj : j = i
  · subst hj; simp
  · simp [hj]

theorem proj_post (i j : Nat) (m : HMsg P) : (proj k h loc got).post i j (k.msg m) = proj k (h.post i j m) loc got := by
  unfold proj CorrNet.post post
  simp only [CorrNet.mk.injEq, true_and, and_true]
  funext a b
  by_cases ha : a = i
  · subst ha
    by_cases hb : b = j
    · subst hb; simp
    · simp [hb]
  · simp [ha]

theorem proj_distribute (n i : Nat) (f : Nat → List (P × P)) :
    CorrNet.distribute n (proj k h loc got) i (fun a => (f a).map k.trans) = proj k (distribute n h i f) loc got := by
  unfold proj CorrNet.distribute distribute
  simp only [CorrNet.mk.injEq, true_and, and_true]
  refine ⟨?_, ?_, ?_⟩
  · rw [update_map k.proto, proto_sentN]; rfl
  · rw [update_map (List.map k.msg)]
    congr 1
    simp [Proto.resolveBuffer, Proto.start, Kind.proto, Kind.msg]
  · funext a b
    by_cases ha : a = i
    · subst ha
      simp only [Function.update_self]
      split <;> simp [Kind.msg, Kind.dmsg]
    · simp [ha]

theorem proj_trySend (n i : Nat) (sp : Option P) (stt : Option (P × P)) :
    CorrNet.trySend n (proj k h loc got) i (sp.map k.pt) (stt.map k.trans) = proj k (trySend n h i sp stt) loc got := by
  cases sp with
  | none => rfl
  | some x =>
    cases stt with
    | none => rfl
    | some t => exact proj_post (k := k) i _ (.first x t)

theorem proj_dow (i : Nat) {l : Seg P} {lc : SegState} (h1 : lc.sendPoint = l.sendPoint.map k.pt)
    (h2 : lc.sendTransition = l.sendTransition.map k.trans) (h3 : lc.forNodes = fun a => (l.forNodes a).map k.trans) :
    CorrNet.distributeOrWait p (proj k h loc got) i lc =
      proj k (distributeOrWait p h i l) (Function.update loc i (some { lc with sendPoint := none, sendTransition := none })) got := by
  unfold CorrNet.distributeOrWait distributeOrWait
  simp only [h1, h2, h3]
  have := proj_trySend (k := k) (h := { h with node := Function.update h.node i { l with sendPoint := none, sendTransition := none } })
    (loc := Function.update loc i (some { lc with sendPoint := none, sendTransition := none })) (got := got) p.nClusterNodes i
    l.sendPoint l.sendTransition
  simp only [h3] at this
  split
  · exact this
  · rw [← proj_distribute, ← this]
    rfl

/-! ## The invariant -/

/-- The points of node `i` which it keeps: mirrored iff the cluster wants it (`CorrNet.Wanted`, C73). -/
def kept (k : Kind P) (p : Parameters) (pts ms : Nat → List P) (i : Nat) : List P :=
  if CorrNet.Wanted p (fun i => (pts i).map k.pt) then ms i else pts i

/-- The points which the cluster keeps. -/
def keptAll (k : Kind P) (p : Parameters) (pts ms : Nat → List P) : List P := (List.range p.nClusterNodes).flatMap (kept k p pts ms)

/-- The node still has to mirror its points. -/
def Early (k : Kind P) (p : Parameters) (pts : Nat → List P) (h : HeapNet P) (i : Nat) : Prop :=
  CorrNet.Wanted p (fun i => (pts i).map k.pt) ∧ h.decided i = none

/-- A node and its state by value. -/
def NodeRel (k : Kind P) (p : Parameters) (pts ms : Nat → List P) (early : Prop) (i : Nat) (n : Seg P) (l : SegState)
    (g : List (DMsg (List Trans))) : Prop :=
  ∃ xs st, Rel k (keptAll k p pts ms) n (xs, { l with stored := st }) ∧ st.Perm (l.stored ++ g.flatMap DMsg.body) ∧
    (early → xs = pts i ∧ g = []) ∧ (¬ early → ∀ x ∈ xs, x ∈ keptAll k p pts ms)

/-- What holds in all states. -/
structure Inv (k : Kind P) (p : Parameters) (st : Nat → DataStore P) (pts ms : Nat → List P) (h : HeapNet P)
    (loc : Nat → Option SegState) (got : Nat → List (DMsg (List Trans))) : Prop where
  fresh : ∀ i, h.entered i = false → h.node i = { store := st i } ∧ loc i = none ∧ (h.cproto i).nTotal = 0 ∧ (h.dproto i).nTotal = 0 ∧
    h.decided i = none ∧ got i = []
  lt : ∀ i, h.entered i = true → i < p.nClusterNodes
  node : ∀ i, h.entered i = true → ∃ l, loc i = some l ∧ NodeRel k p pts ms (Early k p pts h i) i (h.node i) l (got i)
  early : ∀ i, Early k p pts h i → (h.dproto i).nTotal = 0
  settled : ∀ i, h.decided i ≠ none → (h.cproto i).isRunning = false
  mailbox : ∀ i, ∀ m ∈ h.mailbox i, m.In (keptAll k p pts ms)
  link : ∀ i j, ∀ m ∈ h.link i j, m.In (keptAll k p pts ms)
  buffer : ∀ i, ∀ m ∈ (h.dproto i).buffer, (HMsg.segs m).In (keptAll k p pts ms)

variable {st : Nat → DataStore P} {pts ms : Nat → List P}

theorem kept_sub {i : Nat} (hi : i < p.nClusterNodes) : ∀ x ∈ kept k p pts ms i, x ∈ keptAll k p pts ms :=
  fun _ hx => List.mem_flatMap.2 ⟨i, List.mem_range.2 hi, hx⟩

theorem inv_init : Inv k p st pts ms (init st) (fun _ => none) (fun _ => []) where
  fresh := fun _ _ => ⟨rfl, rfl, rfl, rfl, rfl, rfl⟩
  lt := fun _ h => by cases h
  node := fun _ h => by cases h
  early := fun _ _ => rfl
  settled := fun _ h => (h rfl).elim
  mailbox := fun _ _ h => by cases h
  link := fun _ _ _ h => by cases h
  buffer := fun _ _ h => by cases h

theorem sentN_fields {T : Type} (c : Proto T) (n : Nat) : (c.sentN n).nTotal = c.nTotal ∧ (c.sentN n).buffer = c.buffer := by
  induction n with
  | zero => exact ⟨rfl, rfl⟩
  | succ n ih => exact ih

theorem inv_post (hI : Inv k p st pts ms h loc got) (i j : Nat) {m : HMsg P} (hm : m.In (keptAll k p pts ms)) :
    Inv k p st pts ms (h.post i j m) loc got where
  fresh := hI.fresh
  lt := hI.lt
  node := hI.node
  early := hI.early
  settled := hI.settled
  mailbox := hI.mailbox
  buffer := hI.buffer
  link := by
    intro a b
    simp only [post]
    by_cases ha : a = i
    · subst ha
      by_cases hb : b = j
      · subst hb
        simp only [Function.update_self, List.mem_append, List.mem_singleton]
        rintro x (hx | rfl)
        · exact hI.link _ _ x hx
        · exact hm
      · simp only [Function.update_self, Function.update_of_ne hb]
        exact hI.link a b
    · simp only [Function.update_of_ne ha]
      exact hI.link a b

theorem inv_distribute (hI : Inv k p st pts ms h loc got) {i : Nat} (he : h.entered i = true) (hd : ¬ Early k p pts h i)
    {f : Nat → List (P × P)} (hf : ∀ a, ∀ t ∈ f a, t.1 ∈ keptAll k p pts ms ∧ t.2 ∈ keptAll k p pts ms) (n : Nat) :
    Inv k p st pts ms (distribute n h i f) loc got where
  fresh := by
    intro a ha
    have hai : a ≠ i := by rintro rfl; rw [show h.entered a = false from ha] at he; cases he
    obtain ⟨h1, h2, h3, h4, h5⟩ := hI.fresh a ha
    refine ⟨h1, h2, h3, ?_, h5⟩
    simp only [distribute, Function.update_of_ne hai]
    exact h4
  lt := hI.lt
  node := hI.node
  early := by
    intro a ha
    have hai : a ≠ i := by rintro rfl; exact hd ha
    simp only [distribute, Function.update_of_ne hai]
    exact hI.early a ha
  settled := hI.settled
  mailbox := by
    intro a
    simp only [distribute]
    by_cases ha : a = i
    · subst ha
      simp only [Function.update_self, List.mem_append, List.mem_map]
      rintro x (hx | ⟨y, hy, rfl⟩)
      · exact hI.mailbox _ x hx
      · exact hI.buffer a y hy
    · simp only [Function.update_of_ne ha]
      exact hI.mailbox a
  link := by
    intro a b
    simp only [distribute]
    by_cases ha : a = i
    · subst ha
      simp only [Function.update_self]
      split
      · simp only [List.mem_append, List.mem_singleton]
        rintro x (hx | rfl)
        · exact hI.link _ _ x hx
        · exact hf b
      · exact hI.link a b
    · simp only [Function.update_of_ne ha]
      exact hI.link a b
  buffer := by
    intro a
    simp only [distribute]
    by_cases ha : a = i
    · subst ha
      simp only [Function.update_self, (sentN_fields _ _).2]
      simp [Proto.resolveBuffer]
    · simp only [Function.update_of_ne ha]
      exact hI.buffer a

theorem inv_trySend (hI : Inv k p st pts ms h loc got) (n i : Nat) {sp : Option P} (hs : ∀ x ∈ sp, x ∈ keptAll k p pts ms)
    (stt : Option (P × P)) : Inv k p st pts ms (trySend n h i sp stt) loc got := by
  cases sp with
  | none => exact hI
  | some x =>
    cases stt with
    | none => exact hI
    | some t => exact inv_post hI i _ (m := .first x t) (hs x rfl)

/-- The state of one node changes. -/
theorem inv_node (hI : Inv k p st pts ms h loc got) {i : Nat} (he : h.entered i = true) {n : Seg P} {l : SegState}
    {g : List (DMsg (List Trans))} (hn : NodeRel k p pts ms (Early k p pts h i) i n l g) :
    Inv k p st pts ms { h with node := Function.update h.node i n } (Function.update loc i (some l)) (Function.update got i g) where
  fresh := by
    intro a ha
    have hai : a ≠ i := by rintro rfl; rw [show h.entered a = false from ha] at he; cases he
    simp only [Function.update_of_ne hai]
    exact hI.fresh a ha
  lt := hI.lt
  node := by
    intro a ha
    by_cases hai : a = i
    · subst hai
      simp only [Function.update_self]
      exact ⟨l, rfl, hn⟩
    · simp only [Function.update_of_ne hai]
      exact hI.node a ha
  early := hI.early
  settled := hI.settled
  mailbox := hI.mailbox
  link := hI.link
  buffer := hI.buffer

theorem within_in {E xs : List P} (hx : ∀ x ∈ xs, x ∈ E) {m : P × P} (hm : Within xs E m) : m.1 ∈ E ∧ m.2 ∈ E :=
  ⟨hx _ hm.1, hm.2.elim (hx _) id⟩

theorem trySend_fields (h : HeapNet P) (n i : Nat) (sp : Option P) (stt : Option (P × P)) :
    (trySend n h i sp stt).entered = h.entered ∧ (trySend n h i sp stt).decided = h.decided := by
  cases sp with
  | none => exact ⟨rfl, rfl⟩
  | some x =>
    cases stt with
    | none => exact ⟨rfl, rfl⟩
    | some t => exact ⟨rfl, rfl⟩

theorem inv_dow (hI : Inv k p st pts ms h loc got) {i : Nat} (he : h.entered i = true) (hd : ¬ Early k p pts h i) {n : Seg P}
    {l : SegState} {g : List (DMsg (List Trans))} (hn : NodeRel k p pts ms (Early k p pts h i) i n l g) :
    Inv k p st pts ms (distributeOrWait p h i n) (Function.update loc i (some { l with sendPoint := none, sendTransition := none }))
      (Function.update got i g) := by
  obtain ⟨xs, sto, hr, hp, h1, h2⟩ := hn
  have hx := h2 hd
  have hI' : Inv k p st pts ms { h with node := Function.update h.node i { n with sendPoint := none, sendTransition := none } }
      (Function.update loc i (some { l with sendPoint := none, sendTransition := none })) (Function.update got i g) := by
    refine inv_node hI he ⟨xs, sto, ?_, hp, h1, h2⟩
    exact ⟨hr.sound, hr.points, hr.stored, rfl, rfl, hr.lastPoint, hr.lastTransition, hr.questions, hr.forNodes, hr.invalid, hr.lastIn,
      fun _ h => (by cases h), fun _ h => (by cases h), hr.within⟩
  have ht := inv_trySend hI' p.nClusterNodes i (sp := n.sendPoint) (fun x hm => hx x (hr.sendIn x hm)) n.sendTransition
  unfold distributeOrWait
  simp only
  split
  · exact ht
  · obtain ⟨e1, e2⟩ := trySend_fields { h with node := Function.update h.node i { n with sendPoint := none, sendTransition := none } }
      p.nClusterNodes i n.sendPoint n.sendTransition
    refine inv_distribute ht (by rw [e1]; exact he) ?_ (fun a t hm => within_in hx (hr.within a t hm)) _
    rintro ⟨w, hw⟩
    rw [e2] at hw
    exact hd ⟨w, hw⟩

/-- A node decides. -/
theorem inv_decide (hI : Inv k p st pts ms h loc got) {i : Nat} (he : h.entered i = true) (hc : (h.cproto i).isRunning = false) (d : Bool)
    {n : Seg P} {l : SegState} {g : List (DMsg (List Trans))} (hn : NodeRel k p pts ms False i n l g) :
    Inv k p st pts ms { h with decided := Function.update h.decided i (some d), node := Function.update h.node i n }
      (Function.update loc i (some l)) (Function.update got i g) where
  fresh := by
    intro a ha
    have hai : a ≠ i := by rintro rfl; rw [show h.entered a = false from ha] at he; cases he
    simp only [Function.update_of_ne hai]
    exact hI.fresh a ha
  lt := hI.lt
  node := by
    intro a ha
    by_cases hai : a = i
    · subst hai
      simp only [Function.update_self]
      obtain ⟨xs, sto, h1, h2, -, h4⟩ := hn
      exact ⟨l, rfl, xs, sto, h1, h2, fun ⟨_, e⟩ => by simp at e, fun _ => h4 id⟩
    · simp only [Function.update_of_ne hai]
      have := hI.node a ha
      simpa only [Early, Function.update_of_ne hai] using this
  early := by
    rintro a ⟨w, e⟩
    by_cases hai : a = i
    · subst hai; simp at e
    · simp only [Function.update_of_ne hai] at e
      exact hI.early a ⟨w, e⟩
  settled := by
    intro a ha
    by_cases hai : a = i
    · subst hai; exact hc
    · simp only [Function.update_of_ne hai] at ha
      exact hI.settled a ha
  mailbox := hI.mailbox
  link := hI.link
  buffer := hI.buffer

/-! ## Steps -/

/-- The data stores hold the points, and mirroring does not panic. -/
structure Start (k : Kind P) (p : Parameters) (st : Nat → DataStore P) (pts ms : Nat → List P) (mir : Pt → Pt) : Prop where
  sound : ∀ i < p.nClusterNodes, Sound (st i)
  points : ∀ i < p.nClusterNodes, List.Forall₂ (At (st i).cells) (st i).points (pts i)
  steps : ∀ i < p.nClusterNodes, (st i).transitions = []
  mirrored : ∀ i < p.nClusterNodes, (pts i).mapM k.mirror = some (ms i)
  agree : ∀ i < p.nClusterNodes, (ms i).map k.pt = ((pts i).map k.pt).map mir

variable {mir : Pt → Pt}

theorem Start.rel (hS : Start k p st pts ms mir) {i : Nat} (hi : i < p.nClusterNodes) (F : List P) :
    Rel k F { store := st i } (pts i, {}) :=
  ⟨hS.sound i hi, hS.points i hi, by rw [hS.steps i hi]; exact .nil, rfl, rfl, rfl, .none, rfl, rfl, rfl, fun _ h => (by cases h),
    fun _ h => (by cases h), fun _ h => (by cases h), fun _ _ h => (by cases h)⟩

theorem count_eq {F : List P} {n : Seg P} {v : List P × SegState} (hr : Rel k F n v) (N : Nat) :
    transitionCount N n = SelfCorrection.transitionCount N v.2 := by
  unfold transitionCount SelfCorrection.transitionCount
  rw [hr.stored.length_eq, hr.forNodes]
  simp

theorem sim_enter (hp : p.WellFormed) (hS : Start k p st pts ms mir) (hI : Inv k p st pts ms h loc got) {i : Nat}
    (hi : i < p.nClusterNodes) (he : h.entered i = false) :
    ∃ loc' got', CorrNet.enter p (fun i => (pts i).map k.pt) (proj k h loc got) i = proj k (enter k p h i) loc' got' ∧
      Inv k p st pts ms (enter k p h i) loc' got' := by
  obtain ⟨h1, h2, h3, h4, h5, h6⟩ := hI.fresh i he
  obtain ⟨l, hl, -⟩ := SegState.buildSegments_built hp i {} ((pts i).map k.pt)
  have hb := op_rel (p := p) (own := i) (hS.rel hi (keptAll k p pts ms)) .build (by simp)
  simp only [Op.run, Op.value, hl, Option.map_some] at hb
  cases hn : buildSegments k p i { store := st i } with
  | none => rw [hn] at hb; cases hb
  | some n =>
    rw [hn] at hb
    cases hb with
    | some hr =>
    refine ⟨Function.update loc i (some l), got, ?_, ?_⟩
    · unfold enter CorrNet.enter
      simp only [h1, hn, hl]
      have e := count_eq hr p.nClusterNodes
      have e2 : l.invalid = n.invalid := hr.invalid
      have key := proj_post (k := k) (h := { h with
          mailbox := Function.update h.mailbox i
            (h.mailbox i ++ ((h.cproto i).start (p.nClusterNodes - 1)).resolveBuffer.1.map HMsg.count) }) (loc := loc) (got := got) i
        (RingNet.nxt p.nClusterNodes i) (.count ⟨i, ⟨transitionCount p.nClusterNodes n, n.invalid⟩⟩)
      simp only [e] at key ⊢
      unfold proj at key ⊢
      simp only [CorrNet.post, post, CorrNet.mk.injEq, true_and, and_true, Kind.msg, SelfCorrection.countMsg, e2] at key ⊢
      refine ⟨?_, key⟩
      rw [update_map (List.map k.msg)]
      congr 1
      simp [Kind.msg]
    · unfold enter
      simp only [h1, hn]
      refine inv_post (h := { h with
        mailbox := Function.update h.mailbox i (h.mailbox i ++ ((h.cproto i).start (p.nClusterNodes - 1)).resolveBuffer.1.map HMsg.count)
        cproto := Function.update h.cproto i ((h.cproto i).start (p.nClusterNodes - 1)).resolveBuffer.2.sent
        global := Function.update h.global i (h.global i + transitionCount p.nClusterNodes n)
        entered := Function.update h.entered i true
        node := Function.update h.node i n }) ?_ i _ (m := .count _) trivial
      refine ⟨?_, ?_, ?_, hI.early, ?_, ?_, hI.link, hI.buffer⟩
      · intro a ha
        have hai : a ≠ i := by rintro rfl; simp at ha
        simp only [Function.update_of_ne hai] at ha ⊢
        exact hI.fresh a ha
      · intro a ha
        by_cases hai : a = i
        · rw [hai]; exact hi
        · simp only [Function.update_of_ne hai] at ha
          exact hI.lt a ha
      · intro a ha
        by_cases hai : a = i
        · subst hai
          simp only [Function.update_self]
          refine ⟨l, rfl, pts a, l.stored, hr, by simp [h6], fun _ => ⟨rfl, h6⟩, fun hE x hx => kept_sub hi x ?_⟩
          unfold kept
          rw [if_neg (fun w => hE ⟨w, h5⟩)]
          exact hx
        · simp only [Function.update_of_ne hai] at ha ⊢
          exact hI.node a ha
      · intro a ha
        by_cases hai : a = i
        · subst hai; exact (ha h5).elim
        · simp only [Function.update_of_ne hai]
          exact hI.settled a ha
      · intro a
        by_cases hai : a = i
        · subst hai
          simp only [Function.update_self, List.mem_append, List.mem_map]
          rintro x (hx | ⟨y, hy, rfl⟩)
          · exact hI.mailbox _ x hx
          · trivial
        · simp only [Function.update_of_ne hai]
          exact hI.mailbox a

theorem inv_cproto (hI : Inv k p st pts ms h loc got) (i : Nat) {c : Proto (RMsg Count)} (h1 : h.entered i = false → c.nTotal = 0)
    (h2 : h.decided i ≠ none → c.isRunning = false) (g : Nat → Nat) :
    Inv k p st pts ms { h with cproto := Function.update h.cproto i c, global := g } loc got where
  fresh := by
    intro a ha
    obtain ⟨e1, e2, e3, e4⟩ := hI.fresh a ha
    refine ⟨e1, e2, ?_, e4⟩
    by_cases hai : a = i
    · subst hai; simp only [Function.update_self]; exact h1 ha
    · simp only [Function.update_of_ne hai]; exact e3
  lt := hI.lt
  node := hI.node
  early := hI.early
  settled := by
    intro a ha
    by_cases hai : a = i
    · subst hai; simp only [Function.update_self]; exact h2 ha
    · simp only [Function.update_of_ne hai]; exact hI.settled a ha
  mailbox := hI.mailbox
  link := hI.link
  buffer := hI.buffer

theorem dow_node (n : Seg P) (i : Nat) (m : Seg P) :
    distributeOrWait p { h with node := Function.update h.node i m } i n = distributeOrWait p h i n := by
  unfold distributeOrWait
  simp only [Function.update_idem]

/-- The decision. -/
theorem sim_correct (hp : p.WellFormed) (hS : Start k p st pts ms mir) (hI : Inv k p st pts ms h loc got) {i : Nat}
    (he : h.entered i = true) {l : SegState} (hl : loc i = some l) (hd : h.decided i = none) (hc : (h.cproto i).isRunning = false)
    (hw : ∀ d, (CorrNet.correct p (fun i => (pts i).map k.pt) mir (proj k h loc got) i l).decided i = some d →
      d = decide (CorrNet.Wanted p (fun i => (pts i).map k.pt))) :
    ∃ loc' got', CorrNet.correct p (fun i => (pts i).map k.pt) mir (proj k h loc got) i l = proj k (correct k p h i (h.node i)) loc' got' ∧
      Inv k p st pts ms (correct k p h i (h.node i)) loc' got' := by
  have hi := hI.lt i he
  obtain ⟨l', hl', xs, sto, hr, hper, h1, h2⟩ := hI.node i he
  rw [hl] at hl'
  cases hl'
  have einv : l.invalid = (h.node i).invalid := hr.invalid
  unfold CorrNet.correct at hw ⊢
  unfold correct
  rw [einv] at hw ⊢
  have eg : (proj k h loc got).global i = h.global i := rfl
  rw [eg] at hw ⊢
  by_cases hm : mirrors ⟨h.global i, (h.node i).invalid⟩ = true
  · simp only [hm, if_true] at hw ⊢
    obtain ⟨y, hy, hbuilt⟩ := SegState.buildSegments_built hp i (CorrNet.cleared l)
      ((CorrNet.points (fun i => (pts i).map k.pt) (proj k h loc got) i).map mir)
    rw [hy] at hw ⊢
    simp only at hw ⊢
    have hW : CorrNet.Wanted p (fun i => (pts i).map k.pt) := by
      have := hw true (by rw [CorrNet.dow_decided]; simp)
      simpa using this.symm
    obtain ⟨rfl, hg⟩ := h1 ⟨hW, hd⟩
    have hpo : (CorrNet.points (fun i => (pts i).map k.pt) (proj k h loc got) i).map mir = (ms i).map k.pt := by
      have hg' : (proj k h loc got).got i = [] := hg
      unfold CorrNet.points
      rw [hg', hS.agree i hi]; simp
    rw [hpo] at hy
    have hb := op_rel (p := p) (own := i) hr .correct (by simp)
    simp only [Op.run, Op.value, hS.mirrored i hi, Option.bind_eq_bind, Option.bind_some] at hb
    rw [show CorrNet.cleared { l with stored := sto } = CorrNet.cleared l from rfl, hy] at hb
    cases hn : Store.correct k p i (h.node i) with
    | none => rw [hn] at hb; cases hb
    | some n =>
      rw [hn] at hb
      cases hb with
      | some hr' =>
      simp only
      have hN : NodeRel k p pts ms False i n y [] := by
        refine ⟨ms i, y.stored, hr', by simp, fun h => h.elim, fun _ x hx => kept_sub hi x ?_⟩
        unfold kept
        rw [if_pos hW]
        exact hx
      have hI1 := inv_decide hI he hc true hN
      have hE : ¬ Early k p pts { h with decided := Function.update h.decided i (some true), node := Function.update h.node i n } i :=
        fun ⟨_, e⟩ => by simp at e
      have hN' : NodeRel k p pts ms
          (Early k p pts { h with decided := Function.update h.decided i (some true), node := Function.update h.node i n } i) i n y [] := by
        obtain ⟨a, b, c1, c2, -, c4⟩ := hN
        exact ⟨a, b, c1, c2, fun e => (hE e).elim, fun _ => c4 id⟩
      have hI2 := inv_dow hI1 (i := i) he hE hN'
      have e3 := dow_node (p := p) (h := { h with decided := Function.update h.decided i (some true) }) n i n
      simp only at e3
      rw [e3] at hI2
      simp only [Function.update_idem] at hI2
      refine ⟨_, _, ?_, hI2⟩
      exact proj_dow (p := p) (h := { h with decided := Function.update h.decided i (some true) }) (loc := loc)
        (got := Function.update got i []) i hr'.sendPoint hr'.sendTransition hr'.forNodes
  · simp only [Bool.not_eq_true] at hm
    simp only [hm, Bool.false_eq_true, if_false] at hw ⊢
    have hW : ¬ CorrNet.Wanted p (fun i => (pts i).map k.pt) := by
      have := hw false (by rw [CorrNet.dow_decided]; simp)
      simpa using this.symm
    have hx := h2 (fun e => hW e.1)
    have hN : NodeRel k p pts ms False i (h.node i) l (got i) := ⟨xs, sto, hr, hper, fun h => h.elim, fun _ => hx⟩
    have hI1 := inv_decide hI he hc false hN
    have hE : ¬ Early k p pts { h with decided := Function.update h.decided i (some false), node := Function.update h.node i (h.node i) } i :=
      fun e => hW e.1
    have hN' : NodeRel k p pts ms
        (Early k p pts { h with decided := Function.update h.decided i (some false), node := Function.update h.node i (h.node i) } i) i
        (h.node i) l (got i) := ⟨xs, sto, hr, hper, fun e => (hE e).elim, fun _ => hx⟩
    have hI2 := inv_dow hI1 (i := i) he hE hN'
    have e3 := dow_node (p := p) (h := { h with decided := Function.update h.decided i (some false) }) (h.node i) i (h.node i)
    simp only at e3
    rw [e3] at hI2
    simp only [Function.update_idem, Function.update_eq_self] at hI2
    refine ⟨_, _, ?_, hI2⟩
    exact proj_dow (p := p) (h := { h with decided := Function.update h.decided i (some false) }) (loc := loc) (got := got) i hr.sendPoint
      hr.sendTransition hr.forNodes

theorem received_running {T : Type} {c : Proto T} (hc : c.isRunning = true) (m : T) :
    c.received m = (true, { c with nReceived := c.nReceived + 1 }) := by simp [Proto.received, hc]

theorem received_idle {T : Type} {c : Proto T} (hc : c.isRunning = false) (m : T) :
    c.received m = (false, { c with buffer := c.buffer ++ [m] }) := by simp [Proto.received, hc]

theorem sim_count (hp : p.WellFormed) (hS : Start k p st pts ms mir) (hI : Inv k p st pts ms h loc got) (i : Nat) (m : RMsg Count)
    (hw : ∀ d, (CorrNet.handleCount p (fun i => (pts i).map k.pt) mir (proj k h loc got) i m).decided i = some d →
      d = decide (CorrNet.Wanted p (fun i => (pts i).map k.pt))) :
    ∃ loc' got', CorrNet.handleCount p (fun i => (pts i).map k.pt) mir (proj k h loc got) i m = proj k (handleCount k p h i m) loc' got' ∧
      Inv k p st pts ms (handleCount k p h i m) loc' got' := by
  have ec : (proj k h loc got).cproto i = h.cproto i := rfl
  unfold CorrNet.handleCount at hw ⊢
  unfold handleCount
  cases hrun : (h.cproto i).isRunning with
  | false =>
    rw [ec, received_idle hrun]
    refine ⟨loc, got, rfl, ?_⟩
    simp only [Bool.false_eq_true, if_false]
    exact inv_cproto hI i (c := { h.cproto i with buffer := (h.cproto i).buffer ++ [m] }) (fun e => (hI.fresh i e).2.2.1) (fun _ => hrun)
      h.global
  | true =>
    rw [ec, received_running hrun] at hw
    rw [ec, received_running hrun]
    simp only [if_true] at hw ⊢
    have he : h.entered i = true := by
      by_contra hf
      have := (hI.fresh i (by simpa using hf)).2.2.1
      simp [Proto.isRunning, this] at hrun
    have hd : h.decided i = none := by
      by_contra hne
      rw [hI.settled i hne] at hrun; cases hrun
    obtain ⟨l, hl, xs, sto, hr, hper, h1, h2⟩ := hI.node i he
    have el : ((proj k h loc got).loc i).getD {} = l := by
      show (loc i).getD {} = l
      rw [hl]; rfl
    rw [el] at hw ⊢
    generalize hc : ({ h.cproto i with nReceived := (h.cproto i).nReceived + 1 } : Proto (RMsg Count)) = c at hw ⊢
    have hI1 := inv_node hI he (n := { h.node i with invalid := (h.node i).invalid + m.body.clockwise })
      (l := { l with invalid := l.invalid + m.body.clockwise }) (g := got i) ⟨xs, sto, ⟨hr.sound, hr.points, hr.stored, hr.sendPoint,
        hr.sendTransition, hr.lastPoint, hr.lastTransition, hr.questions, hr.forNodes, by
          simp only; rw [show l.invalid = (h.node i).invalid from hr.invalid], hr.lastIn, hr.sendIn, hr.sendWithin, hr.within⟩, hper, h1, h2⟩
    rw [Function.update_eq_self] at hI1
    have hI2 := inv_cproto hI1 i (c := c) (fun e => by rw [show h.entered i = false from e] at he; cases he) (fun e => (e hd).elim)
      (Function.update h.global i (h.global i + m.body.count))
    unfold counted
    simp only
    cases hcr : c.isRunning with
    | true =>
      simp only [hcr, if_true] at hw ⊢
      have hI3 := inv_post (inv_cproto hI1 i (c := c.sent) (fun e => by rw [show h.entered i = false from e] at he; cases he)
        (fun e => (e hd).elim) (Function.update h.global i (h.global i + m.body.count))) i (RingNet.nxt p.nClusterNodes i) (m := .count m) trivial
      have key := proj_post (k := k) (h := { h with
          node := Function.update h.node i { h.node i with invalid := (h.node i).invalid + m.body.clockwise }
          cproto := Function.update h.cproto i c.sent
          global := Function.update h.global i (h.global i + m.body.count) })
        (loc := Function.update loc i (some { l with invalid := l.invalid + m.body.clockwise })) (got := got) i
        (RingNet.nxt p.nClusterNodes i) (.count m)
      refine ⟨Function.update loc i (some { l with invalid := l.invalid + m.body.clockwise }), got, ?_, ?_⟩
      · simp only [Function.update_idem]
        exact key
      · simp only [Function.update_idem]
        exact hI3
    | false =>
      simp only [hcr, Bool.false_eq_true, if_false] at hw ⊢
      have := sim_correct hp hS hI2 (i := i) he (l := { l with invalid := l.invalid + m.body.clockwise }) (by simp) hd (by simpa using hcr) hw
      simp only [Function.update_self] at this
      exact this

theorem onFirstPoint_stored (l : SegState) (own : Nat) (pt : Pt) (t : Trans) : ∃ ext : List Trans, ∀ sto,
    SegState.onFirstPoint p own { l with stored := sto } pt t =
      (l.onFirstPoint p own pt t).map (fun l' => { l' with stored := sto ++ ext }) ∧
    ∀ l', l.onFirstPoint p own pt t = some l' → l'.stored = l.stored ++ ext := by
  simp only [SegState.onFirstPoint, Option.bind_eq_bind]
  cases l.lastPoint with
  | none => exact ⟨[], fun _ => ⟨rfl, fun _ h => by cases h⟩⟩
  | some lp =>
  cases l.lastTransition with
  | none => exact ⟨[], fun _ => ⟨rfl, fun _ h => by cases h⟩⟩
  | some lt =>
  simp only [Option.bind_some]
  split
  · cases p.segmentIdToAssignment lp.seg with
    | none => exact ⟨[], fun _ => ⟨rfl, fun _ h => by cases h⟩⟩
    | some f =>
    cases p.segmentIdToAssignment pt.seg with
    | none => exact ⟨[], fun _ => ⟨rfl, fun _ h => by cases h⟩⟩
    | some g =>
    cases p.segmentIdToAssignment lt.dst.seg with
    | none => exact ⟨[], fun _ => ⟨rfl, fun _ h => by cases h⟩⟩
    | some lastTo =>
    simp only [Option.bind_some, findSplits_eq]
    cases splits p l.questions (some lt) (some lastTo) ⟨lp, pt⟩ f g with
    | none => exact ⟨[], fun _ => ⟨rfl, fun _ h => by cases h⟩⟩
    | some q =>
      refine ⟨if f = own then [⟨lp, pt⟩] else [], fun sto => ⟨?_, ?_⟩⟩
      · by_cases hf : f = own <;> simp [SegState.record, hf]
      · rintro l' h'
        cases h'
        by_cases hf : f = own <;> simp [SegState.record, hf]
  · cases p.segmentIdToAssignment t.src.seg with
    | none => exact ⟨[], fun _ => ⟨rfl, fun _ h => by cases h⟩⟩
    | some f =>
    cases p.segmentIdToAssignment lt.dst.seg with
    | none => exact ⟨[], fun _ => ⟨rfl, fun _ h => by cases h⟩⟩
    | some lastTo =>
    simp only [Option.bind_some, splitBetween_eq]
    cases splitBetween p l.questions (some lt) t f lastTo with
    | none => exact ⟨[], fun _ => ⟨rfl, fun _ h => by cases h⟩⟩
    | some q =>
      refine ⟨[], fun sto => ⟨by simp, ?_⟩⟩
      rintro l' h'
      cases h'
      simp

theorem inv_crashed (hI : Inv k p st pts ms h loc got) : Inv k p st pts ms { h with crashed := true } loc got :=
  ⟨hI.fresh, hI.lt, hI.node, hI.early, hI.settled, hI.mailbox, hI.link, hI.buffer⟩

theorem sim_first (hI : Inv k p st pts ms h loc got) (i : Nat) {x : P} (hx : x ∈ keptAll k p pts ms)
    (t : P × P) (hd : h.entered i = true → ¬ Early k p pts h i) :
    ∃ loc' got', CorrNet.handleFirst p (proj k h loc got) i (k.pt x) (k.trans t) = proj k (handleFirst k p h i x t) loc' got' ∧
      Inv k p st pts ms (handleFirst k p h i x t) loc' got' := by
  unfold CorrNet.handleFirst handleFirst
  have eloc : (proj k h loc got).loc i = loc i := rfl
  rw [eloc]
  cases he : h.entered i with
  | false =>
    obtain ⟨h1, h2, -⟩ := hI.fresh i he
    rw [h1, h2]
    exact ⟨loc, got, rfl, inv_crashed hI⟩
  | true =>
    have hd := hd he
    obtain ⟨l, hl, xs, sto, hr, hper, -, h2⟩ := hI.node i he
    have hxs := h2 hd
    rw [hl]
    simp only
    obtain ⟨ext, hext⟩ := onFirstPoint_stored (p := p) l i (k.pt x) (k.trans t)
    have ho := op_rel (p := p) (own := i) hr (.first x t) (by rintro y u hyu; cases hyu; exact hx)
    simp only [Op.run, Op.value, (hext sto).1] at ho
    cases hl' : l.onFirstPoint p i (k.pt x) (k.trans t) with
    | none =>
      rw [hl'] at ho
      cases hn : onFirstPoint k p i (h.node i) x t with
      | none => exact ⟨loc, got, rfl, inv_crashed hI⟩
      | some n => rw [hn] at ho; cases ho
    | some l' =>
      rw [hl'] at ho
      cases hn : onFirstPoint k p i (h.node i) x t with
      | none => rw [hn] at ho; cases ho
      | some n =>
      rw [hn] at ho
      cases ho with
      | some hr' =>
      simp only
      have es := (hext sto).2 l' hl'
      have hN : NodeRel k p pts ms (Early k p pts h i) i { n with forNodes := fun _ => [] } { l' with forNodes := fun _ => [] } (got i) := by
        refine ⟨xs, sto ++ ext, ⟨hr'.sound, hr'.points, hr'.stored, hr'.sendPoint, hr'.sendTransition, hr'.lastPoint, hr'.lastTransition,
          hr'.questions, rfl, hr'.invalid, hr'.lastIn, hr'.sendIn, hr'.sendWithin, fun _ _ h => (by cases h)⟩, ?_, fun e => (hd e).elim,
          fun _ => hxs⟩
        simp only
        rw [es, List.append_assoc]
        refine (hper.append_right ext).trans ?_
        rw [List.append_assoc]
        exact (List.perm_append_comm).append_left _
      have hI1 := inv_node hI he hN
      rw [Function.update_eq_self] at hI1
      have hI2 := inv_distribute hI1 (i := i) he hd (f := n.forNodes) (fun a u hu => within_in hxs (hr'.within a u hu)) p.nClusterNodes
      refine ⟨_, _, ?_, hI2⟩
      rw [← proj_distribute]
      have e3 : l'.forNodes = fun a => (n.forNodes a).map k.trans := hr'.forNodes
      rw [e3]
      rfl

theorem sim_segs (hI : Inv k p st pts ms h loc got) (i : Nat) (m : DMsg (List (P × P)))
    (hm : (HMsg.segs m).In (keptAll k p pts ms)) :
    ∃ loc' got', CorrNet.handleSegs (proj k h loc got) i (k.dmsg m) = proj k (handleSegs k h i m) loc' got' ∧
      Inv k p st pts ms (handleSegs k h i m) loc' got' := by
  unfold CorrNet.handleSegs handleSegs
  have ed : (proj k h loc got).dproto i = k.proto (h.dproto i) := rfl
  have er : (k.proto (h.dproto i)).isRunning = (h.dproto i).isRunning := rfl
  rw [ed]
  cases hrun : (h.dproto i).isRunning with
  | false =>
    rw [received_idle hrun, received_idle (er.trans hrun)]
    refine ⟨loc, got, ?_, ?_⟩
    · unfold proj
      simp only [Bool.false_eq_true, if_false, CorrNet.mk.injEq, true_and, and_true]
      rw [update_map k.proto]
      simp [Kind.proto]
    · simp only [Bool.false_eq_true, if_false]
      refine ⟨?_, hI.lt, hI.node, ?_, hI.settled, hI.mailbox, hI.link, ?_⟩
      · intro a ha
        obtain ⟨h1, h2, h3, h4, h5⟩ := hI.fresh a ha
        refine ⟨h1, h2, h3, ?_, h5⟩
        by_cases hai : a = i
        · subst hai; simpa using h4
        · simp only [Function.update_of_ne hai]; exact h4
      · intro a ha
        have := hI.early a ha
        by_cases hai : a = i
        · subst hai; simpa using this
        · simp only [Function.update_of_ne hai]; exact this
      · intro a
        by_cases hai : a = i
        · subst hai
          simp only [Function.update_self, List.mem_append, List.mem_singleton]
          rintro y (hy | rfl)
          · exact hI.buffer a y hy
          · exact hm
        · simp only [Function.update_of_ne hai]; exact hI.buffer a
  | true =>
    rw [received_running hrun, received_running (er.trans hrun)]
    simp only [if_true]
    have he : h.entered i = true := by
      by_contra hf
      have := (hI.fresh i (by simpa using hf)).2.2.2.1
      simp [Proto.isRunning, this] at hrun
    have hd : ¬ Early k p pts h i := by
      intro e
      have := hI.early i e
      simp [Proto.isRunning, this] at hrun
    obtain ⟨l, hl, xs, sto, hr, hper, -, h2⟩ := hI.node i he
    have hxs := h2 hd
    have ho := op_rel (p := p) (own := i) hr (.receive m.body) (by simp)
    simp only [Op.run, Op.value] at ho
    cases hn : receive k (h.node i) m.body with
    | none => rw [hn] at ho; cases ho
    | some n =>
    rw [hn] at ho
    cases ho with
    | some hr' =>
    simp only
    have hN : NodeRel k p pts ms (Early k p pts h i) i n l (got i ++ [k.dmsg m]) := by
      refine ⟨_, _, hr', ?_, fun e => (hd e).elim, fun _ y hy => ?_⟩
      · simp only [List.flatMap_append, ← List.append_assoc, List.flatMap_cons, List.flatMap_nil, List.append_nil]
        exact hper.append_right _
      · rcases List.mem_append.1 hy with hy | hy
        · exact hxs y hy
        · obtain ⟨u, hu, hy⟩ := List.mem_flatMap.1 hy
          simp only [List.mem_cons, List.not_mem_nil, or_false] at hy
          rcases hy with rfl | rfl
          · exact (hm u hu).1
          · exact (hm u hu).2
    have hI1 := inv_node hI he hN
    rw [show Function.update loc i (some l) = loc from by rw [← hl, Function.update_eq_self]] at hI1
    refine ⟨loc, Function.update got i (got i ++ [k.dmsg m]), ?_, ?_⟩
    · unfold proj
      simp only [CorrNet.mk.injEq, true_and, and_true]
      rw [update_map k.proto]
      exact ⟨rfl, rfl⟩
    · refine ⟨?_, hI1.lt, hI1.node, ?_, hI1.settled, hI1.mailbox, hI1.link, ?_⟩
      · intro a ha
        obtain ⟨h1, h2, h3, h4, h5⟩ := hI1.fresh a ha
        refine ⟨h1, h2, h3, ?_, h5⟩
        by_cases hai : a = i
        · subst hai; simpa using h4
        · simp only [Function.update_of_ne hai]; exact h4
      · intro a ha
        have := hI1.early a ha
        by_cases hai : a = i
        · subst hai; simpa using this
        · simp only [Function.update_of_ne hai]; exact this
      · intro a
        by_cases hai : a = i
        · subst hai
          simp only [Function.update_self]
          exact hI1.buffer a
        · simp only [Function.update_of_ne hai]; exact hI1.buffer a

/-! ## Runs -/

theorem counts_map (l : List (HMsg P)) : CorrNet.counts (l.map k.msg) = counts l := by
  unfold CorrNet.counts counts
  rw [List.filterMap_map]
  congr 1
  funext m
  cases m <;> rfl

theorem proj_pop (i : Nat) (rest : List (HMsg P)) :
    { proj k h loc got with mailbox := Function.update (proj k h loc got).mailbox i (rest.map k.msg) } =
      proj k { h with mailbox := Function.update h.mailbox i rest } loc got := by
  unfold proj
  simp only [CorrNet.mk.injEq, true_and, and_true]
  rw [update_map (List.map k.msg)]

theorem inv_pop (hI : Inv k p st pts ms h loc got) {i : Nat} {m : HMsg P} {rest : List (HMsg P)} (hl : h.mailbox i = m :: rest) :
    Inv k p st pts ms { h with mailbox := Function.update h.mailbox i rest } loc got := by
  refine ⟨hI.fresh, hI.lt, hI.node, hI.early, hI.settled, ?_, hI.link, hI.buffer⟩
  intro a
  by_cases ha : a = i
  · subst ha
    simp only [Function.update_self]
    exact fun x hx => hI.mailbox a x (by rw [hl]; exact List.mem_cons_of_mem _ hx)
  · simp only [Function.update_of_ne ha]
    exact hI.mailbox a

theorem inv_arrive (hI : Inv k p st pts ms h loc got) {j i : Nat} {m : HMsg P} {rest : List (HMsg P)} (hl : h.link j i = m :: rest) :
    Inv k p st pts ms { h with
      link := Function.update h.link j (Function.update (h.link j) i rest)
      mailbox := Function.update h.mailbox i (h.mailbox i ++ [m]) } loc got := by
  refine ⟨hI.fresh, hI.lt, hI.node, hI.early, hI.settled, ?_, ?_, hI.buffer⟩
  · intro a
    by_cases ha : a = i
    · subst ha
      simp only [Function.update_self, List.mem_append, List.mem_singleton]
      rintro x (hx | rfl)
      · exact hI.mailbox _ x hx
      · exact hI.link j a x (by rw [hl]; simp)
    · simp only [Function.update_of_ne ha]
      exact hI.mailbox a
  · intro a b
    by_cases ha : a = j
    · subst ha
      by_cases hb : b = i
      · subst hb
        simp only [Function.update_self]
        exact fun x hx => hI.link _ _ x (by rw [hl]; exact List.mem_cons_of_mem _ hx)
      · simp only [Function.update_self, Function.update_of_ne hb]
        exact hI.link a b
    · simp only [Function.update_of_ne ha]
      exact hI.link a b

theorem loc_none (hI : Inv k p st pts ms h loc got) (i : Nat) : loc i = none ↔ h.entered i = false := by
  constructor
  · intro hn
    by_contra he
    obtain ⟨l, hl, -⟩ := hI.node i (by simpa using he)
    rw [hn] at hl; cases hl
  · exact fun he => (hI.fresh i he).2.1

section
variable {b it : Bool} (hp : p.WellFormed) (hsc : p.selfCorrection = true) (hn : 2 ≤ p.nClusterNodes)
  (hb : b = true ∨ p.nClusterNodes = 2) (hit : CorrNet.Wanted p (fun i => (pts i).map k.pt) → it = true ∨ p.nClusterNodes = 2)
  (hS : Start k p st pts ms mir)
include hp hsc hn hb hit hS

/-- Every step is a step by value. -/
theorem sim_step {h' : HeapNet P} (hR : CorrNet.Reachable b it p (fun i => (pts i).map k.pt) mir (proj k h loc got))
    (hI : Inv k p st pts ms h loc got) (hs : Step b it k p h h') :
    ∃ loc' got', CorrNet.Step b it p (fun i => (pts i).map k.pt) mir (proj k h loc got) (proj k h' loc' got') ∧
      Inv k p st pts ms h' loc' got' := by
  cases hs with
  | enter i hi he hc hben =>
    obtain ⟨loc', got', h1, h2⟩ := sim_enter hp hS hI hi he
    refine ⟨loc', got', ?_, h2⟩
    rw [← h1]
    exact .enter _ i hi ((loc_none hI i).2 he) hc (fun e => (hben e).imp (fun e => (counts_map _).trans e) id)
  | arrive j i m rest hj hi hl hc =>
    refine ⟨loc, got, ?_, inv_arrive hI hl⟩
    have hl' : (proj k h loc got).link j i = k.msg m :: rest.map k.msg := by
      show (h.link j i).map k.msg = _
      rw [hl]; rfl
    have h1 := CorrNet.Step.arrive (benign := b) (inTime := it) (pts := fun i => (pts i).map k.pt) (mir := mir)
      (proj k h loc got) j i (k.msg m) (rest.map k.msg) hj hi hl' hc
    refine Eq.mp ?_ h1
    congr 1
    unfold proj
    simp only [CorrNet.mk.injEq, true_and, and_true]
    refine ⟨?_, ?_⟩
    · rw [update_map (List.map k.msg)]
      simp
    · funext a c
      by_cases ha : a = j
      · subst ha
        by_cases hc : c = i
        · subst hc; simp
        · simp [hc]
      · simp [ha]
  | handle i m rest hi hl hc ht =>
    have hl' : (proj k h loc got).mailbox i = k.msg m :: rest.map k.msg := by
      show (h.mailbox i).map k.msg = _
      rw [hl]; rfl
    have ht' : it = true → ∀ pt t, k.msg m = .first pt t → (proj k h loc got).decided i ≠ none := by
      intro e pt t hm
      cases m with
      | count m => cases hm
      | first x u => exact ht e x u rfl
      | segs m => cases hm
    have h1 := CorrNet.Step.handle (benign := b) (inTime := it) (pts := fun i => (pts i).map k.pt) (mir := mir)
      (proj k h loc got) i (k.msg m) (rest.map k.msg) hi hl' hc ht'
    rw [proj_pop] at h1
    have hI0 := inv_pop hI hl
    have hm := hI.mailbox i m (by rw [hl]; simp)
    have hdec : ∀ d, (CorrNet.handle p (fun i => (pts i).map k.pt) mir
        (proj k { h with mailbox := Function.update h.mailbox i rest } loc got) i (k.msg m)).decided i = some d →
        d = decide (CorrNet.Wanted p (fun i => (pts i).map k.pt)) :=
      fun d hd => CorrNet.decided_wanted hp hsc hn hb (.step hR h1) hd
    cases m with
    | count m =>
      obtain ⟨loc', got', e1, e2⟩ := sim_count hp hS hI0 i m hdec
      exact ⟨loc', got', Eq.mp (congrArg (CorrNet.Step b it p _ mir _) e1) h1, e2⟩
    | first x t =>
      have hd : h.entered i = true → ¬ Early k p pts h i := by
        rintro - ⟨w, e⟩
        rcases hit w with h2 | h2
        · exact ht h2 x t rfl e
        · exact CorrNet.two_first hp h2 hR hi hl' e
      obtain ⟨loc', got', e1, e2⟩ := sim_first hI0 i hm t hd
      exact ⟨loc', got', Eq.mp (congrArg (CorrNet.Step b it p _ mir _) e1) h1, e2⟩
    | segs m =>
      obtain ⟨loc', got', e1, e2⟩ := sim_segs hI0 i m hm
      exact ⟨loc', got', Eq.mp (congrArg (CorrNet.Step b it p _ mir _) e1) h1, e2⟩

/-- Every run is a run by value. -/
theorem sim (hR : Reachable b it k p st h) : ∃ loc got,
    CorrNet.Reachable b it p (fun i => (pts i).map k.pt) mir (proj k h loc got) ∧ Inv k p st pts ms h loc got := by
  induction hR with
  | init => exact ⟨fun _ => none, fun _ => [], .init, inv_init⟩
  | step _ hs ih =>
    obtain ⟨loc, got, h1, h2⟩ := ih
    obtain ⟨loc', got', h3, h4⟩ := sim_step hp hsc hn hb hit hS h1 h2 hs
    exact ⟨loc', got', .step h1 h3, h4⟩

/-- Every run by value is one of a run on the data stores. -/
theorem follow {s : CorrNet} (hR : CorrNet.Reachable b it p (fun i => (pts i).map k.pt) mir s) :
    ∃ h loc got, s = proj k h loc got ∧ Reachable b it k p st h ∧ Inv k p st pts ms h loc got := by
  induction hR with
  | init => exact ⟨init st, fun _ => none, fun _ => [], rfl, .init, inv_init⟩
  | @step s t hR hs ih =>
    obtain ⟨h, loc, got, rfl, hH, hI⟩ := ih
    have hw := fun {i : Nat} {d : Bool} => CorrNet.decided_wanted hp hsc hn hb (.step hR hs) (i := i) (d := d)
    generalize hq : proj k h loc got = q at hs
    cases hs with
    | enter i hi hl hc hben =>
      subst hq
      have he := (loc_none hI i).1 hl
      obtain ⟨loc', got', h1, h2⟩ := sim_enter hp hS hI hi he
      exact ⟨_, loc', got', h1, .step hH (.enter h i hi he hc (fun e => (hben e).imp (fun e => (counts_map _).symm.trans e) id)), h2⟩
    | arrive j i m rest hj hi hl hc =>
      subst hq
      cases hl' : h.link j i with
      | nil =>
        rw [show (proj k h loc got).link j i = (h.link j i).map k.msg from rfl, hl'] at hl
        cases hl
      | cons m' rest' =>
        rw [show (proj k h loc got).link j i = (h.link j i).map k.msg from rfl, hl'] at hl
        simp only [List.map_cons, List.cons.injEq] at hl
        obtain ⟨rfl, rfl⟩ := hl
        refine ⟨_, loc, got, ?_, .step hH (.arrive h j i m' rest' hj hi hl' hc), inv_arrive hI hl'⟩
        unfold proj
        simp only [CorrNet.mk.injEq, true_and, and_true]
        refine ⟨?_, ?_⟩
        · rw [update_map (List.map k.msg)]
          simp
        · funext a c
          by_cases ha : a = j
          · subst ha
            by_cases hc : c = i
            · subst hc; simp
            · simp [hc]
          · simp [ha]
    | handle i m rest hi hl hc ht =>
      subst hq
      have hl0 := hl
      cases hl' : h.mailbox i with
      | nil =>
        rw [show (proj k h loc got).mailbox i = (h.mailbox i).map k.msg from rfl, hl'] at hl
        cases hl
      | cons m' rest' =>
        rw [show (proj k h loc got).mailbox i = (h.mailbox i).map k.msg from rfl, hl'] at hl
        simp only [List.map_cons, List.cons.injEq] at hl
        obtain ⟨rfl, rfl⟩ := hl
        have ht' : it = true → ∀ x t, m' = .first x t → h.decided i ≠ none := by
          rintro e x t rfl
          exact ht e _ _ rfl
        have hm := hI.mailbox i m' (by rw [hl']; simp)
        have hI0 := inv_pop hI hl'
        have hH' := Reachable.step hH (.handle h i m' rest' hi hl' hc ht')
        rw [proj_pop] at hw ⊢
        cases m' with
        | count m =>
          obtain ⟨loc', got', e1, e2⟩ := sim_count hp hS hI0 i m (fun d => hw)
          exact ⟨_, loc', got', e1, hH', e2⟩
        | first x t =>
          have hd : h.entered i = true → ¬ Early k p pts h i := by
            rintro - ⟨w, e⟩
            rcases hit w with h2 | h2
            · exact ht' h2 x t rfl e
            · exact CorrNet.two_first hp h2 hR hi hl0 e
          obtain ⟨loc', got', e1, e2⟩ := sim_first hI0 i hm t hd
          exact ⟨_, loc', got', e1, hH', e2⟩
        | segs m =>
          obtain ⟨loc', got', e1, e2⟩ := sim_segs hI0 i m hm
          exact ⟨_, loc', got', e1, hH', e2⟩

end

theorem done_commit {pts : Nat → List Pt} {b it : Bool} (hp : p.WellFormed) (hsc : p.selfCorrection = true) (hn : 2 ≤ p.nClusterNodes)
    (hb : b = true ∨ p.nClusterNodes = 2) (hit : CorrNet.Wanted p pts → it = true ∨ p.nClusterNodes = 2) {s : CorrNet}
    (hR : CorrNet.Reachable b it p pts mir s) {j : Nat} (hj : j < p.nClusterNodes) (h1 : s.done j = 1) :
    CorrNet.Commit p (decide (CorrNet.Wanted p pts)) s j := by
  obtain ⟨a, ha, hrel⟩ := CorrNet.seg_inside hp hsc hn hb hit hR
  have hI := SegNet.inv_reachable hp ha
  have hd : a.net.done j = s.done j := by rw [hrel.net.done]
  by_contra hc
  have := (DirectNet.inv_reachable hI.net).idle j hj (hI.idle j hj (hrel.loc.idle j hc))
  omega

/-- A node which is done by value. -/
theorem done_node {b it : Bool} (hp : p.WellFormed) (hsc : p.selfCorrection = true) (hn : 2 ≤ p.nClusterNodes)
    (hb : b = true ∨ p.nClusterNodes = 2) (hit : CorrNet.Wanted p (fun i => (pts i).map k.pt) → it = true ∨ p.nClusterNodes = 2)
    (hR : CorrNet.Reachable b it p (fun i => (pts i).map k.pt) mir (proj k h loc got)) (hI : Inv k p st pts ms h loc got) {j : Nat}
    (hj : j < p.nClusterNodes) (hd : h.done j = 1) :
    ∃ steps, (h.node j).store.getTransitions = some steps ∧ (steps.map k.trans).Perm ((proj k h loc got).store j) ∧
      (∀ m ∈ steps, m.1 ∈ keptAll k p pts ms ∧ m.2 ∈ keptAll k p pts ms) ∧
      (h.node j).questions = ((loc j).map SegState.questions).getD NodeQuestions.clear := by
  have hc := done_commit hp hsc hn hb hit hR hj hd
  have hE : ¬ Early k p pts h j := by
    rintro ⟨w, e⟩
    unfold CorrNet.Commit at hc
    rw [if_neg (by simp [w])] at hc
    exact hc e
  have he : h.entered j = true := by
    by_contra hf
    have h0 := (loc_none hI j).2 (by simpa using hf)
    obtain ⟨-, -, -, -, h5, -⟩ := hI.fresh j (by simpa using hf)
    unfold CorrNet.Commit at hc
    split at hc
    · exact hc h0
    · exact hc h5
  obtain ⟨l, hl, xs, sto, hr, hper, -, h2⟩ := hI.node j he
  obtain ⟨steps, e1, e2, e3⟩ := getTransitions_eq hr.stored
  refine ⟨steps, e1, ?_, fun m hm => within_in (h2 hE) (e3 m hm), ?_⟩
  · rw [e2]
    unfold CorrNet.store
    rw [show (proj k h loc got).loc j = some l from hl]
    exact hper
  · rw [hl]
    exact hr.questions.symm

section
variable {C : Type} {make : Nat → C → Option P} {offset : Nat → Nat} {cs : Nat → List C}

/-- The data stores after the points were added. -/
theorem start_of (ha : ∀ i < p.nClusterNodes, DataStore.addPointsWithOffset k make (offset i) {} (cs i) = some (st i))
    (hm : ∀ i < p.nClusterNodes, (pts i).mapM k.mirror = some (ms i))
    (hv : ∀ i < p.nClusterNodes, ((cs i).zipIdx (offset i)).mapM (fun c => make c.2 c.1) = some (pts i))
    (hg : ∀ i < p.nClusterNodes, (ms i).map k.pt = ((pts i).map k.pt).map mir) : Start k p st pts ms mir := by
  have key : ∀ i < p.nClusterNodes, Sound (st i) ∧ List.Forall₂ (At (st i).cells) (st i).points (pts i) ∧ (st i).transitions = [] := by
    intro i hi
    have h0 := add_rel (k := k) make (offset i) (cs i) (s := {}) (l := []) ⟨by simp, by simp⟩ .nil rfl
    rw [hv i hi, ha i hi] at h0
    cases h0 with
    | some h0 => simpa using h0
  exact ⟨fun i hi => (key i hi).1, fun i hi => (key i hi).2.1, fun i hi => (key i hi).2.2, hm, hg⟩

variable {b it : Bool} (hp : p.WellFormed) (hsc : p.selfCorrection = true) (hn : 2 ≤ p.nClusterNodes)
  (hb : b = true ∨ p.nClusterNodes = 2) (hit : CorrNet.Wanted p (fun i => (pts i).map k.pt) → it = true ∨ p.nClusterNodes = 2)
  (ha : ∀ i < p.nClusterNodes, DataStore.addPointsWithOffset k make (offset i) {} (cs i) = some (st i))
  (hv : ∀ i < p.nClusterNodes, ((cs i).zipIdx (offset i)).mapM (fun c => make c.2 c.1) = some (pts i))
  (hm : ∀ i < p.nClusterNodes, (pts i).mapM k.mirror = some (ms i))
  (hg : ∀ i < p.nClusterNodes, (ms i).map k.pt = ((pts i).map k.pt).map mir)
include hp hsc hn hb hit ha hv hm hg

/-- **C99.** A node which is done has in its data store exactly the valid steps of the corrected series which start in its segments, and
the endpoints of these steps are points after the common decision of the cluster: if the cluster mirrors, mirrored points only, otherwise
original points only. -/
theorem C99_stored (hR : Reachable b it k p st h) {j : Nat} (hj : j < p.nClusterNodes) :
    h.done j ≤ 1 ∧ (h.done j = 1 → ∃ steps, (h.node j).store.getTransitions = some steps ∧
      (steps.map k.trans).Perm ((validSteps p.rate (series p.nClusterNodes (CorrNet.corrected p (fun i => (pts i).map k.pt) mir))).filter
        (fun t => p.segmentIdToAssignment t.src.seg = some j)) ∧
      ∀ m ∈ steps, ∀ x, x = m.1 ∨ x = m.2 → ∃ i < p.nClusterNodes,
        x ∈ if CorrNet.Wanted p (fun i => (pts i).map k.pt) then ms i else pts i) := by
  obtain ⟨loc, got, h1, h2⟩ := sim hp hsc hn hb hit (start_of ha hm hv hg) hR
  obtain ⟨h3, h4⟩ := CorrNet.C73_stored hp hsc hn hb hit h1 hj
  refine ⟨h3, fun hd => ?_⟩
  obtain ⟨steps, e1, e2, e3, -⟩ := done_node hp hsc hn hb hit h1 h2 hj hd
  refine ⟨steps, e1, e2.trans (h4 hd), ?_⟩
  rintro m hm x hx
  have hin : x ∈ keptAll k p pts ms := by
    rcases hx with rfl | rfl
    · exact (e3 m hm).1
    · exact (e3 m hm).2
  obtain ⟨i, hi, hx⟩ := List.mem_flatMap.1 hin
  exact ⟨i, List.mem_range.1 hi, hx⟩

/-- **C99.** No node crashes if every part has a valid step after the correction. -/
theorem C99_no_crash (hval : ∀ i < p.nClusterNodes, validSteps p.rate (CorrNet.corrected p (fun i => (pts i).map k.pt) mir i) ≠ [])
    (hR : Reachable b it k p st h) : h.crashed = false := by
  obtain ⟨loc, got, h1, h2⟩ := sim hp hsc hn hb hit (start_of ha hm hv hg) hR
  exact CorrNet.C73_no_crash hp hsc hn hb hit hval h1

/-- **C99.** Only done clusters stop. -/
theorem C99_progress (hval : ∀ i < p.nClusterNodes, validSteps p.rate (CorrNet.corrected p (fun i => (pts i).map k.pt) mir i) ≠ [])
    (hR : Reachable b it k p st h) (hstuck : ¬ ∃ h', Step b false k p h h') : ∀ j < p.nClusterNodes, h.done j = 1 := by
  obtain ⟨loc, got, h1, h2⟩ := sim hp hsc hn hb hit (start_of ha hm hv hg) hR
  refine CorrNet.C73_progress hp hsc hn hb hit hval h1 ?_
  rintro ⟨t, hs⟩
  refine hstuck ?_
  generalize hq : proj k h loc got = q at hs
  cases hs with
  | enter i hi hl hc hben =>
    subst hq
    exact ⟨_, .enter h i hi ((loc_none h2 i).1 hl) hc (fun e => (hben e).imp (fun e => (counts_map _).symm.trans e) id)⟩
  | arrive j i m rest hj hi hl hc =>
    subst hq
    cases hl' : h.link j i with
    | nil =>
      rw [show (proj k h loc got).link j i = (h.link j i).map k.msg from rfl, hl'] at hl
      cases hl
    | cons m' rest' => exact ⟨_, .arrive h j i m' rest' hj hi hl' hc⟩
  | handle i m rest hi hl hc ht =>
    subst hq
    cases hl' : h.mailbox i with
    | nil =>
      rw [show (proj k h loc got).mailbox i = (h.mailbox i).map k.msg from rfl, hl'] at hl
      cases hl
    | cons m' rest' => exact ⟨_, .handle h i m' rest' hi hl' hc (fun e => by cases e)⟩

/-- **C99.** Some run ends with all nodes done. -/
theorem C99_complete (hbt : b = true) (hitt : it = true)
    (hval : ∀ i < p.nClusterNodes, validSteps p.rate (CorrNet.corrected p (fun i => (pts i).map k.pt) mir i) ≠ []) :
    ∃ h, Reachable b it k p st h ∧ ∀ j < p.nClusterNodes, h.done j = 1 := by
  subst hbt hitt
  obtain ⟨s, h1, h2⟩ := CorrNet.C73_complete hp hsc hn hval
  obtain ⟨h, loc, got, rfl, h3, -⟩ := follow hp hsc hn hb hit (start_of ha hm hv hg) h1
  exact ⟨h, h3, h2⟩

/-- **C99.** There are no infinite runs. -/
theorem C99_terminates : ¬ ∃ f : Nat → HeapNet P, f 0 = init st ∧ ∀ n, Step b it k p (f n) (f (n + 1)) := by
  rintro ⟨f, h0, hf⟩
  have hS := start_of ha hm hv hg
  choose! L G hstep hinv using fun (x : HeapNet P × (Nat → Option SegState) × (Nat → List (DMsg (List Trans)))) (h' : HeapNet P)
    (hx : CorrNet.Reachable b it p (fun i => (pts i).map k.pt) mir (proj k x.1 x.2.1 x.2.2) ∧ Inv k p st pts ms x.1 x.2.1 x.2.2)
    (hs : Step b it k p x.1 h') => sim_step hp hsc hn hb hit hS hx.1 hx.2 hs
  let g : Nat → HeapNet P × (Nat → Option SegState) × (Nat → List (DMsg (List Trans))) := fun n =>
    Nat.rec (f 0, fun _ => none, fun _ => []) (fun n x => (f (n + 1), L x (f (n + 1)), G x (f (n + 1)))) n
  have hg1 : ∀ n, (g n).1 = f n := fun n => by cases n <;> rfl
  have hinvs : ∀ n, CorrNet.Reachable b it p (fun i => (pts i).map k.pt) mir (proj k (g n).1 (g n).2.1 (g n).2.2) ∧
      Inv k p st pts ms (g n).1 (g n).2.1 (g n).2.2 := by
    intro n
    induction n with
    | zero =>
      show CorrNet.Reachable _ _ _ _ _ (proj k (f 0) _ _) ∧ Inv _ _ _ _ _ (f 0) _ _
      rw [h0]
      exact ⟨.init, inv_init⟩
    | succ n ih =>
      have hs : Step b it k p (g n).1 (f (n + 1)) := by rw [hg1]; exact hf n
      exact ⟨.step ih.1 (hstep (g n) (f (n + 1)) ih hs), hinv (g n) (f (n + 1)) ih hs⟩
  refine CorrNet.C73_terminates (b := b) (it := it) (pts := fun i => (pts i).map k.pt) (mir := mir) hp hn
    ⟨fun n => proj k (g n).1 (g n).2.1 (g n).2.2, ?_, fun n => ?_⟩
  · show proj k (f 0) _ _ = _
    rw [h0]
    rfl
  · exact hstep (g n) (f (n + 1)) (hinvs n) (by rw [hg1]; exact hf n)

end

end HeapNet
end Store
end S2G
