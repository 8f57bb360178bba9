import Verif.Model.NodeQA
import Verif.Props.DirectProtocol

/-!
# The exchange of successor nodes (part of C43)
-/

namespace S2G

namespace NodeQA

theorem mapM_lookup (nodesOf : Nat → List Node) (l : List NIQ) :
    ((∀ q ∈ l, (lookup nodesOf q).isSome) ∧ l.mapM (lookup nodesOf) = some (l.filterMap (lookup nodesOf))) ∨
    ((∃ q ∈ l, lookup nodesOf q = none) ∧ l.mapM (lookup nodesOf) = none) := by
  induction l with
  | nil => left; simp
  | cons q l ih =>
    cases hq : lookup nodesOf q with
    | none => right; simp [hq, List.mapM_cons]
    | some v =>
      rcases ih with ⟨h1, h2⟩ | ⟨⟨q', hq', h1⟩, h2⟩
      · left
        refine ⟨?_, ?_⟩
        · intro q' hq'
          rcases List.mem_cons.1 hq' with rfl | h
          · simp [hq]
          · exact h1 q' h
        · simp [List.mapM_cons, hq, h2]
      · right
        exact ⟨⟨q', by simp [hq'], h1⟩, by simp [List.mapM_cons, hq, h2]⟩

theorem foldlM_searchFor (nodesOf : Nat → List Node) (qs : Nat → List NIQ) (L : List Nat) (hL : L.Nodup) :
    ∀ answers,
    ((∀ b ∈ L, ∀ q ∈ qs b, (lookup nodesOf q).isSome) ∧ L.foldlM (searchFor nodesOf qs) answers =
      some (fun b => if b ∈ L then answers b ++ (qs b).filterMap (lookup nodesOf) else answers b)) ∨
    ((∃ b ∈ L, ∃ q ∈ qs b, lookup nodesOf q = none) ∧ L.foldlM (searchFor nodesOf qs) answers = none) := by
  induction L with
  | nil => intro answers; left; simp
  | cons a L ih =>
    intro answers
    obtain ⟨ha, hL⟩ := List.nodup_cons.1 hL
    rcases mapM_lookup nodesOf (qs a) with ⟨h1, h2⟩ | ⟨⟨q, hq, h1⟩, h2⟩
    · have e : searchFor nodesOf qs answers a =
          some (Function.update answers a (answers a ++ (qs a).filterMap (lookup nodesOf))) := by
        simp [searchFor, h2]
      rcases ih hL (Function.update answers a (answers a ++ (qs a).filterMap (lookup nodesOf))) with
        ⟨h3, h4⟩ | ⟨⟨b, hb, q, hq, h3⟩, h4⟩
      · left
        refine ⟨?_, ?_⟩
        · intro b hb
          rcases List.mem_cons.1 hb with rfl | hb
          · exact h1
          · exact h3 b hb
        · rw [List.foldlM_cons, e]
          change List.foldlM _ _ L = _
          rw [h4]
          congr 1
          funext b
          by_cases hba : b = a
          · subst hba; simp [ha]
          · simp [hba]
      · right
        refine ⟨⟨b, by simp [hb], q, hq, h3⟩, ?_⟩
        rw [List.foldlM_cons, e]
        exact h4
    · right
      refine ⟨⟨a, by simp, q, hq, h1⟩, ?_⟩
      have e : searchFor nodesOf qs answers a = none := by simp [searchFor, h2]
      rw [List.foldlM_cons, e]
      rfl

/-- What `takeIn` stores: the last answer with the key. -/
theorem takeIn_some {as : List NodeAnswer} {nfn : ForeignNodes} {k : Nat × Nat} {v : Node}
    (h : takeIn nfn as k = some v) : nfn k = some v ∨ ∃ a ∈ as, (a.prevId, a.prevSeg) = k ∧ a.node = v := by
  induction as generalizing nfn with
  | nil => exact Or.inl h
  | cons a as ih =>
    rcases ih h with h | ⟨b, hb, h1⟩
    · change Function.update nfn (a.prevId, a.prevSeg) (some a.node) k = some v at h
      by_cases hk : k = (a.prevId, a.prevSeg)
      · subst hk
        rw [Function.update_self] at h
        exact Or.inr ⟨a, by simp, rfl, Option.some.inj h⟩
      · rw [Function.update_of_ne hk] at h
        exact Or.inl h
    · exact Or.inr ⟨b, by simp [hb], h1⟩

theorem takeIn_isSome (as : List NodeAnswer) (nfn : ForeignNodes) (k : Nat × Nat) :
    ((nfn k).isSome ∨ ∃ a ∈ as, (a.prevId, a.prevSeg) = k) → (takeIn nfn as k).isSome := by
  induction as generalizing nfn with
  | nil => rintro (h | ⟨a, ha, _⟩); exact h; cases ha
  | cons a as ih =>
    intro h
    apply ih
    change (Function.update nfn (a.prevId, a.prevSeg) (some a.node) k).isSome ∨ _
    by_cases hk : k = (a.prevId, a.prevSeg)
    · left; subst hk; simp
    · rw [Function.update_of_ne hk]
      rcases h with h | ⟨b, hb, h1⟩
      · exact Or.inl h
      · rcases List.mem_cons.1 hb with rfl | hb
        · exact absurd h1.symm hk
        · exact Or.inr ⟨b, hb, h1⟩

theorem takeIn_append (nfn : ForeignNodes) (as bs : List NodeAnswer) :
    takeIn nfn (as ++ bs) = takeIn (takeIn nfn as) bs := by simp [takeIn, List.foldl_append]

end NodeQA

namespace DirectNet
variable {P : Type}

theorem handleStep_running {s : DirectNet P} {m : DMsg P} {rest : List (DMsg P)}
    (h : (s.proto m.dst).isRunning = true) :
    (handleStep s m rest).processed = Function.update s.processed m.dst (s.processed m.dst ++ [m]) ∧
    (handleStep s m rest).done = (if ((handleStep s m rest).proto m.dst).isRunning then s.done
      else Function.update s.done m.dst (s.done m.dst + 1)) ∧
    (handleStep s m rest).started = s.started ∧ (handleStep s m rest).pay = s.pay := by
  unfold handleStep Proto.received
  simp only [h, if_true, Function.update_self]
  exact ⟨trivial, trivial, trivial, trivial⟩

theorem handleStep_idle {s : DirectNet P} {m : DMsg P} {rest : List (DMsg P)}
    (h : (s.proto m.dst).isRunning = false) :
    (handleStep s m rest).processed = s.processed ∧ (handleStep s m rest).done = s.done ∧
    (handleStep s m rest).started = s.started ∧ (handleStep s m rest).pay = s.pay := by
  unfold handleStep Proto.received
  simp [h]

theorem startStep_processed (incl : Bool) (n : Nat) (s : DirectNet P) (i : Nat) (f : Nat → P) :
    (startStep incl n s i f).processed = s.processed ∧ (startStep incl n s i f).started = Function.update s.started i true ∧
    (startStep incl n s i f).pay = Function.update s.pay i f := ⟨rfl, rfl, rfl⟩

theorem startStep_done {n : Nat} (hn : 0 < n) (s : DirectNet P) (i : Nat) (f : Nat → P) :
    (startStep true n s i f).done = s.done := by
  have : peers true n i ≠ [] := by
    intro e
    have : (0 : Nat) ∈ peers true n i := by simp [mem_peers, hn]
    rw [e] at this
    cases this
  unfold startStep
  simp [this]

/-- A node is waiting for messages iff it has started and is not done. -/
theorem running_iff {n : Nat} {s : DirectNet P} (h : Reachable true n s) {i : Nat} (hi : i < n) :
    (s.proto i).isRunning = true ↔ s.started i = true ∧ s.done i = 0 := by
  have hI := inv_reachable h
  cases hs : s.started i with
  | false =>
    obtain ⟨h1, h2, h3, h4, h5⟩ := hI.idle i hi hs
    simp [Proto.isRunning, h1]
  | true =>
    obtain ⟨h1, h2, h3, h4, h5⟩ := hI.active i hi hs
    have hle : (s.processed i).length ≤ total true n := by
      have h6 := account_length hI hi
      unfold account at h6
      simp only [List.length_append] at h6
      omega
    rw [h5]
    by_cases hc : (s.processed i).length = total true n
    · simp [Proto.isRunning, h1, h2, h3, hc]
    · have : (s.processed i).length < total true n := by omega
      simp [Proto.isRunning, h1, h2, hc, this]

end DirectNet

namespace QNet
open NodeQA

/-- The answers of node `a` for node `b` to the questions in the messages `ms`. -/
def collected (nodesOf : Nat → Nat → List Node) (a b : Nat) (ms : List (DMsg (Nat → List NIQ))) : List NodeAnswer :=
  if b = a then [] else ms.flatMap (fun m => (m.body b).filterMap (lookup (nodesOf a)))

/-- Inductive invariant of the exchange (as long as nobody has crashed). -/
structure Inv (n : Nat) (qs : Nat → NodeQuestions) (nodesOf : Nat → Nat → List Node) (s : QNet) : Prop where
  ask : DirectNet.ReachableWith true n (fun i a => qs i a) s.ask
  ans : DirectNet.Reachable true n s.ans
  before : ∀ a < n, s.ans.started a = false → s.ask.done a = 0 ∧
    ∀ b < n, s.answers a b = collected nodesOf a b (s.ask.processed a)
  after : ∀ a < n, s.ans.started a = true → s.ask.done a = 1 ∧
    ∀ b < n, s.ans.pay a b = collected nodesOf a b (s.ask.processed a)
  nfn : ∀ b, s.nfn b = takeIn (fun _ => none) ((s.ans.processed b).flatMap DMsg.body)
  fin : ∀ b < n, s.fin b = s.ans.done b
  found : ∀ a < n, ∀ m ∈ s.ask.processed a, ∀ b < n, b ≠ a → ∀ q ∈ m.body b, (lookup (nodesOf a) q).isSome

theorem inv_init (n : Nat) (qs : Nat → NodeQuestions) (nodesOf : Nat → Nat → List Node) :
    Inv n qs nodesOf (init qs) where
  ask := .init
  ans := .init _
  before := by intro a _ _; simp [init, DirectNet.init, collected]
  after := by intro a _ h; simp [init, DirectNet.init] at h
  nfn := by intro b; simp [init, DirectNet.init, takeIn]
  fin := by intro b _; rfl
  found := by intro a _ m hm; simp [init, DirectNet.init] at hm

theorem inv_start {n : Nat} (hn : 2 ≤ n) {qs : Nat → NodeQuestions} {nodesOf : Nat → Nat → List Node} {s : QNet}
    (h : Inv n qs nodesOf s) {i : Nat} (hi : i < n) (hs : s.ask.started i = false) :
    Inv n qs nodesOf (start n qs s i) := by
  unfold start
  rw [if_neg (by omega)]
  have hd := DirectNet.startStep_done (n := n) (by omega) s.ask i (qs i)
  refine ⟨.step h.ask (.start s.ask i hi hs), h.ans, ?_, ?_, h.nfn, h.fin, h.found⟩
  · intro a ha h0
    simp only [hd]
    exact h.before a ha h0
  · intro a ha h0
    simp only [hd]
    exact h.after a ha h0

theorem inv_ask {n : Nat} {qs : Nat → NodeQuestions} {nodesOf : Nat → Nat → List Node} {s : QNet}
    (h : Inv n qs nodesOf s) {pre post : List (DMsg (Nat → List NIQ))} {m : DMsg (Nat → List NIQ)}
    (hm : s.ask.pool = pre ++ m :: post) (hc : s.crashed = false) :
    ((handleAsk n nodesOf s m (pre ++ post)).crashed = false →
      Inv n qs nodesOf (handleAsk n nodesOf s m (pre ++ post))) ∧
    ((handleAsk n nodesOf s m (pre ++ post)).crashed = true →
      ∃ a < n, ∃ b < n, b ≠ a ∧ ∃ i < n, ∃ q ∈ qs i a b, lookup (nodesOf a) q = none) := by
  have hmp : m ∈ s.ask.pool := by rw [hm]; simp
  have hI := DirectNet.inv_reachable h.ask.toReachable
  have hdst := hI.dst m hmp
  have hn : 0 < n := by omega
  have hacc := (hI.mem m.dst hdst m).1 (by simp [DirectNet.account, hmp])
  have hbody : m.body = qs m.src m.dst := by rw [hacc.2.2.2.2, h.ask.pay_eq]
  have hnet : DirectNet.ReachableWith true n (fun i a => qs i a) (DirectNet.handleStep s.ask m (pre ++ post)) :=
    .step h.ask (.handle s.ask pre post m hm)
  unfold handleAsk
  by_cases hr : (s.ask.proto m.dst).isRunning = true
  · simp only [hr, if_true]
    obtain ⟨r1, r2, r3, r4⟩ := DirectNet.handleStep_running (rest := pre ++ post) hr
    obtain ⟨hst, hd0⟩ := (DirectNet.running_iff h.ask.toReachable hdst).1 hr
    have hans : s.ans.started m.dst = false := by
      cases e : s.ans.started m.dst with
      | false => rfl
      | true => rw [(h.after m.dst hdst e).1] at hd0; cases hd0
    obtain ⟨-, hb2⟩ := h.before m.dst hdst hans
    rcases foldlM_searchFor (nodesOf m.dst) m.body (DirectNet.peers false n m.dst) DirectNet.nodup_peers
      (s.answers m.dst) with ⟨f1, f2⟩ | ⟨⟨b, hb, q, hq, f1⟩, f2⟩
    · have f2' : searchAsked n m.dst (nodesOf m.dst) (s.answers m.dst) m.body = some (fun b =>
          if b ∈ DirectNet.peers false n m.dst then
            s.answers m.dst b ++ (m.body b).filterMap (lookup (nodesOf m.dst)) else s.answers m.dst b) := f2
      rw [f2']
      simp only
      generalize hA : (fun b => if b ∈ DirectNet.peers false n m.dst then
            s.answers m.dst b ++ (m.body b).filterMap (lookup (nodesOf m.dst)) else s.answers m.dst b) = A
      have hAb : ∀ b < n, A b = collected nodesOf m.dst b (s.ask.processed m.dst ++ [m]) := by
        intro b hb
        have := hb2 b hb
        rw [← hA]
        simp only [DirectNet.mem_peers, hb, true_and, Bool.false_eq_true, false_or]
        unfold collected at this ⊢
        by_cases e : b = m.dst
        · subst e; simp at this ⊢; exact this
        · rw [if_neg e] at this ⊢
          rw [if_pos e, this, List.flatMap_append]
          simp
      have hfound : ∀ a < n, ∀ m' ∈ (DirectNet.handleStep s.ask m (pre ++ post)).processed a, ∀ b < n, b ≠ a →
          ∀ q ∈ m'.body b, (lookup (nodesOf a) q).isSome := by
        intro a ha m' hm' b hb hba q hq
        rw [r1] at hm'
        by_cases e : a = m.dst
        · subst e
          rw [Function.update_self, List.mem_append, List.mem_singleton] at hm'
          rcases hm' with hm' | rfl
          · exact h.found _ ha m' hm' b hb hba q hq
          · exact f1 b (DirectNet.mem_peers.2 ⟨hb, Or.inr hba⟩) q hq
        · rw [Function.update_of_ne e] at hm'
          exact h.found a ha m' hm' b hb hba q hq
      by_cases hrun : ((DirectNet.handleStep s.ask m (pre ++ post)).proto m.dst).isRunning = true
      · rw [if_pos hrun] at r2
        rw [if_pos hrun]
        refine ⟨fun _ => ⟨hnet, h.ans, ?_, ?_, h.nfn, h.fin, hfound⟩, fun hne => absurd (hc.symm.trans hne) (by simp)⟩
        · intro a ha h0
          simp only [r2, r1]
          refine ⟨(h.before a ha h0).1, ?_⟩
          intro b hb
          by_cases e : a = m.dst
          · subst e; simp only [Function.update_self]; exact hAb b hb
          · simp only [Function.update_of_ne e]; exact (h.before a ha h0).2 b hb
        · intro a ha h0
          have e : a ≠ m.dst := by rintro rfl; rw [hans] at h0; cases h0
          simp only [r2, r1, Function.update_of_ne e]
          exact h.after a ha h0
      · rw [if_neg hrun] at r2
        rw [if_neg hrun]
        refine ⟨fun _ => ⟨hnet, .step h.ans (.start s.ans m.dst _ hdst hans), ?_, ?_, ?_, ?_, hfound⟩,
          fun hne => absurd (hc.symm.trans hne) (by simp)⟩
        · intro a ha h0
          simp only [startAnswering, DirectNet.startStep_processed] at h0 ⊢
          have e : a ≠ m.dst := by rintro rfl; simp at h0
          rw [Function.update_of_ne e] at h0
          simp only [r2, r1, Function.update_of_ne e]
          exact h.before a ha h0
        · intro a ha h0
          simp only [startAnswering, DirectNet.startStep_processed] at h0 ⊢
          by_cases e : a = m.dst
          · subst e
            simp only [r2, r1, Function.update_self, hd0]
            exact ⟨trivial, hAb⟩
          · rw [Function.update_of_ne e] at h0
            simp only [r2, r1, Function.update_of_ne e]
            exact h.after a ha h0
        · intro b
          simp only [startAnswering, DirectNet.startStep_processed]
          exact h.nfn b
        · intro b hb
          simp only [startAnswering, DirectNet.startStep_done hn]
          exact h.fin b hb
    · have f2' : searchAsked n m.dst (nodesOf m.dst) (s.answers m.dst) m.body = none := f2
      rw [f2']
      simp only
      have hb' := DirectNet.mem_peers.1 hb
      have hex : ∃ a < n, ∃ b < n, b ≠ a ∧ ∃ i < n, ∃ q ∈ qs i a b, lookup (nodesOf a) q = none :=
        ⟨m.dst, hdst, b, hb'.1, by simpa using hb'.2, m.src, hacc.2.1, q, by rw [← hbody]; exact hq, f1⟩
      exact ⟨fun hc => absurd hc (by simp), fun _ => hex⟩
  · have hr' : (s.ask.proto m.dst).isRunning = false := by simpa using hr
    rw [if_neg hr]
    obtain ⟨r1, r2, r3, r4⟩ := DirectNet.handleStep_idle (rest := pre ++ post) hr'
    refine ⟨fun _ => ⟨hnet, h.ans, ?_, ?_, h.nfn, h.fin, ?_⟩, fun hne => absurd (hc.symm.trans hne) (by simp)⟩
    · simp only [r1, r2]; exact h.before
    · simp only [r1, r2]; exact h.after
    · simp only [r1]; exact h.found

theorem inv_ans {n : Nat} {qs : Nat → NodeQuestions} {nodesOf : Nat → Nat → List Node} {s : QNet}
    (h : Inv n qs nodesOf s) {pre post : List (DMsg (List NodeAnswer))} {m : DMsg (List NodeAnswer)}
    (hm : s.ans.pool = pre ++ m :: post) : Inv n qs nodesOf (handleAns s m (pre ++ post)) := by
  have hmp : m ∈ s.ans.pool := by rw [hm]; simp
  have hI := DirectNet.inv_reachable h.ans
  have hdst := hI.dst m hmp
  have hnet : DirectNet.Reachable true n (DirectNet.handleStep s.ans m (pre ++ post)) :=
    .step h.ans (.handle s.ans pre post m hm)
  unfold handleAns
  by_cases hr : (s.ans.proto m.dst).isRunning = true
  · simp only [hr, if_true]
    obtain ⟨r1, r2, r3, r4⟩ := DirectNet.handleStep_running (rest := pre ++ post) hr
    refine ⟨h.ask, hnet, ?_, ?_, ?_, ?_, h.found⟩
    · simp only [r3]; exact h.before
    · simp only [r3, r4]; exact h.after
    · intro b
      simp only [r1]
      by_cases e : b = m.dst
      · subst e
        simp only [Function.update_self, List.flatMap_append, takeIn_append, h.nfn]
        simp
      · simp only [Function.update_of_ne e]; exact h.nfn b
    · intro b hb
      simp only [r2]
      have := h.fin b hb
      split
      · exact this
      · by_cases e : b = m.dst
        · subst e; simp [this]
        · simp only [Function.update_of_ne e]; exact this
  · have hr' : (s.ans.proto m.dst).isRunning = false := by simpa using hr
    rw [if_neg hr]
    obtain ⟨r1, r2, r3, r4⟩ := DirectNet.handleStep_idle (rest := pre ++ post) hr'
    refine ⟨h.ask, hnet, ?_, ?_, ?_, ?_, h.found⟩
    · simp only [r3]; exact h.before
    · simp only [r3, r4]; exact h.after
    · simp only [r1]; exact h.nfn
    · simp only [r2]; exact h.fin

theorem handleAns_crashed (s : QNet) (m : DMsg (List NodeAnswer)) (rest : List (DMsg (List NodeAnswer))) :
    (handleAns s m rest).crashed = s.crashed := by
  unfold handleAns
  simp only
  split <;> rfl

theorem start_crashed (n : Nat) (qs : Nat → NodeQuestions) (s : QNet) (i : Nat) :
    (start n qs s i).crashed = s.crashed := by
  unfold start
  split <;> rfl

theorem inv_reachable {n : Nat} (hn : 2 ≤ n) {qs : Nat → NodeQuestions} {nodesOf : Nat → Nat → List Node} {s : QNet}
    (h : Reachable n qs nodesOf s) : s.crashed = false → Inv n qs nodesOf s := by
  induction h with
  | init => intro _; exact inv_init n qs nodesOf
  | step _ hs ih =>
    intro hc
    cases hs with
    | start i hi hs hc0 => exact inv_start hn (ih hc0) hi hs
    | ask pre post m hm hc0 => exact (inv_ask (ih hc0) hm hc0).1 hc
    | ans pre post m hm hc0 => exact inv_ans (ih hc0) hm

/-- Every schedule: when node `b` has announced the end of node estimation, it knows an answer to every question asked
by anybody on its behalf, and only such answers: the node of the answering node with point and segment of the
question. -/
theorem C59_answers_complete {n : Nat} (hn : 2 ≤ n) {qs : Nat → NodeQuestions} {nodesOf : Nat → Nat → List Node} {s : QNet}
    (h : Reachable n qs nodesOf s) (hc : s.crashed = false) {b : Nat} (hb : b < n) (hf : s.fin b = 1) :
    (∀ k v, s.nfn b k = some v → ∃ i < n, ∃ a < n, a ≠ b ∧ ∃ q ∈ qs i a b,
      k = (q.prevId, q.prevSeg) ∧ v ∈ nodesOf a q.pointId ∧ v.seg = q.seg) ∧
    (∀ i < n, ∀ a < n, a ≠ b → ∀ q ∈ qs i a b, (s.nfn b (q.prevId, q.prevSeg)).isSome) := by
  have hI := inv_reachable hn h hc
  have hd : s.ans.done b = 1 := by rw [← hI.fin b hb]; exact hf
  obtain ⟨h1, h2, h3⟩ := (DirectNet.C17_done_complete hI.ans hb).2 hd
  have hst : ∀ a < n, s.ans.started a = true := fun a ha => h2 a ha (Or.inl rfl)
  have hproc : ∀ a < n, (s.ask.processed a).Perm
      ((DirectNet.peers true n a).map (fun i => DMsg.mk i a (qs i a))) := fun a ha =>
    hI.ask.done_complete ha (hI.after a ha (hst a ha)).1
  have hall : ∀ x, x ∈ (s.ans.processed b).flatMap DMsg.body ↔
      ∃ a < n, a ≠ b ∧ ∃ i < n, ∃ q ∈ qs i a b, lookup (nodesOf a) q = some x := by
    intro x
    rw [List.mem_flatMap]
    constructor
    · rintro ⟨m, hm, hx⟩
      have := h3.mem_iff.1 hm
      obtain ⟨a, ha, rfl⟩ := List.mem_map.1 this
      have ha := (DirectNet.mem_peers.1 ha).1
      simp only at hx
      rw [(hI.after a ha (hst a ha)).2 b hb] at hx
      unfold collected at hx
      split at hx
      · cases hx
      · next hba =>
        obtain ⟨m', hm', hx⟩ := List.mem_flatMap.1 hx
        obtain ⟨i, hi, rfl⟩ := List.mem_map.1 ((hproc a ha).mem_iff.1 hm')
        obtain ⟨q, hq, hx⟩ := List.mem_filterMap.1 hx
        exact ⟨a, ha, fun e => hba e.symm, i, (DirectNet.mem_peers.1 hi).1, q, hq, hx⟩
    · rintro ⟨a, ha, hab, i, hi, q, hq, hx⟩
      refine ⟨⟨a, b, s.ans.pay a b⟩, h3.mem_iff.2 (List.mem_map.2 ⟨a, DirectNet.mem_peers.2 ⟨ha, Or.inl rfl⟩, rfl⟩), ?_⟩
      simp only
      rw [(hI.after a ha (hst a ha)).2 b hb, collected, if_neg (fun e => hab e.symm), List.mem_flatMap]
      exact ⟨⟨i, a, qs i a⟩, (hproc a ha).mem_iff.2 (List.mem_map.2 ⟨i, DirectNet.mem_peers.2 ⟨hi, Or.inl rfl⟩, rfl⟩),
        List.mem_filterMap.2 ⟨q, hq, hx⟩⟩
  rw [hI.nfn b]
  constructor
  · intro k v hk
    rcases takeIn_some hk with hk | ⟨x, hx, rfl, rfl⟩
    · cases hk
    · obtain ⟨a, ha, hab, i, hi, q, hq, hl⟩ := (hall x).1 hx
      refine ⟨i, hi, a, ha, hab, q, hq, ?_⟩
      obtain ⟨v, hv, rfl⟩ := Option.map_eq_some_iff.1 hl
      refine ⟨rfl, List.mem_of_find?_eq_some hv, ?_⟩
      simpa using List.find?_some hv
  · intro i hi a ha hab q hq
    apply takeIn_isSome
    right
    have hm : DMsg.mk i a (qs i a) ∈ s.ask.processed a :=
      (hproc a ha).mem_iff.2 (List.mem_map.2 ⟨i, DirectNet.mem_peers.2 ⟨hi, Or.inl rfl⟩, rfl⟩)
    obtain ⟨x, hx⟩ := Option.isSome_iff_exists.1 (hI.found a ha _ hm b hb (fun e => hab e.symm) q hq)
    refine ⟨x, (hall x).2 ⟨a, ha, hab, i, hi, q, hq, hx⟩, ?_⟩
    obtain ⟨v, hv, rfl⟩ := Option.map_eq_some_iff.1 hx
    rfl

/-- An actor crashes only if some question has no answer at the node it is addressed to. -/
theorem C59_crash_cause {n : Nat} (hn : 2 ≤ n) {qs : Nat → NodeQuestions} {nodesOf : Nat → Nat → List Node} {s : QNet}
    (h : Reachable n qs nodesOf s) (hc : s.crashed = true) :
    ∃ a < n, ∃ b < n, b ≠ a ∧ ∃ i < n, ∃ q ∈ qs i a b, lookup (nodesOf a) q = none := by
  induction h with
  | init => cases hc
  | step hr hs ih =>
    cases hs with
    | start i hi hs hc0 => rw [start_crashed, hc0] at hc; cases hc
    | ask pre post m hm hc0 => exact (inv_ask (inv_reachable hn hr hc0) hm hc0).2 hc
    | ans pre post m hm hc0 => rw [handleAns_crashed, hc0] at hc; cases hc

/-- A schedule gets stuck only when everybody is done (or an actor has crashed). -/
theorem C59_stuck_done {n : Nat} (hn : 2 ≤ n) {qs : Nat → NodeQuestions} {nodesOf : Nat → Nat → List Node} {s : QNet}
    (h : Reachable n qs nodesOf s) (hc : s.crashed = false) (hstuck : ¬ ∃ t, Step n qs nodesOf s t) {b : Nat}
    (hb : b < n) : s.fin b = 1 := by
  have hI := inv_reachable hn h hc
  have hs1 : ∀ i < n, s.ask.started i = true := by
    intro i hi
    cases e : s.ask.started i with
    | true => rfl
    | false => exact absurd ⟨_, .start s i hi e hc⟩ hstuck
  have hp1 : s.ask.pool = [] := by
    cases hq : s.ask.pool with
    | nil => rfl
    | cons m rest => exact absurd ⟨_, .ask s [] rest m (by simpa using hq) hc⟩ hstuck
  have hp2 : s.ans.pool = [] := by
    cases hq : s.ans.pool with
    | nil => rfl
    | cons m rest => exact absurd ⟨_, .ans s [] rest m (by simpa using hq) hc⟩ hstuck
  have hs2 : ∀ a < n, s.ans.started a = true := by
    intro a ha
    cases e : s.ans.started a with
    | true => rfl
    | false =>
      have h0 := (hI.before a ha e).1
      rw [DirectNet.C17_quiescent_done hI.ask.toReachable hs1 hp1 ha] at h0
      cases h0
  rw [hI.fin b hb]
  exact DirectNet.C17_quiescent_done hI.ans hs2 hp2 hb

/-- Every schedule ends: a bound on the remaining steps decreases. -/
theorem C59_terminates {n : Nat} (hn : 2 ≤ n) {qs : Nat → NodeQuestions} {nodesOf : Nat → Nat → List Node} {s t : QNet}
    (h : Reachable n qs nodesOf s) (hst : Step n qs nodesOf s t) :
    DirectNet.remaining n t.ask + DirectNet.remaining n t.ans <
      DirectNet.remaining n s.ask + DirectNet.remaining n s.ans := by
  cases hst with
  | start i hi hs hc =>
    have hI := inv_reachable hn h hc
    unfold start
    rw [if_neg (by omega)]
    have := DirectNet.C17_terminates hI.ask.toReachable (.start s.ask i (qs i) hi hs)
    simp only
    omega
  | ask pre post m hm hc =>
    have hI := inv_reachable hn h hc
    have h1 := DirectNet.C17_terminates hI.ask.toReachable (.handle s.ask pre post m hm)
    have hdst := (DirectNet.inv_reachable hI.ask.toReachable).dst m (by rw [hm]; simp)
    unfold handleAsk
    by_cases hr : (s.ask.proto m.dst).isRunning = true
    · simp only [hr, if_true]
      cases searchAsked n m.dst (nodesOf m.dst) (s.answers m.dst) m.body with
      | none => simp only; omega
      | some as =>
        simp only
        split
        · simp only; omega
        · have hans : s.ans.started m.dst = false := by
            cases e : s.ans.started m.dst with
            | false => rfl
            | true =>
              have := ((DirectNet.running_iff hI.ask.toReachable hdst).1 hr).2
              rw [(hI.after m.dst hdst e).1] at this
              cases this
          have h2 := DirectNet.C17_terminates hI.ans (.start s.ans m.dst
            (Function.update s.answers m.dst as m.dst) hdst hans)
          simp only [startAnswering]
          omega
    · rw [if_neg hr]
      simp only; omega
  | ans pre post m hm hc =>
    have hI := inv_reachable hn h hc
    have h1 := DirectNet.C17_terminates hI.ans (.handle s.ans pre post m hm)
    unfold handleAns
    simp only
    split <;> (simp only; omega)

/-- On a single node nothing is asked and nothing is known. -/
theorem C59_single_node {n : Nat} (hn : n ≤ 1) {qs : Nat → NodeQuestions} {nodesOf : Nat → Nat → List Node} {s : QNet}
    (h : Reachable n qs nodesOf s) : (∀ i k, s.nfn i k = none) ∧ s.crashed = false ∧
      ∀ i, s.fin i = if s.ask.started i then 1 else 0 := by
  have key : (∀ i k, s.nfn i k = none) ∧ s.crashed = false ∧ s.ask.pool = [] ∧ s.ans.pool = [] ∧
      ∀ i, s.fin i = if s.ask.started i then 1 else 0 := by
    induction h with
    | init => simp [init, DirectNet.init]
    | step _ hs ih =>
      obtain ⟨h1, h2, h3, h4, h5⟩ := ih
      cases hs with
      | start i hi hs hc =>
        unfold start
        rw [if_pos hn]
        refine ⟨h1, h2, h3, h4, ?_⟩
        intro j
        have := h5 j
        by_cases e : j = i
        · subst e; simp [hs] at this ⊢; exact this
        · simp only [Function.update_of_ne e]; exact this
      | ask pre post m hm hc => rw [h3] at hm; simp at hm
      | ans pre post m hm hc => rw [h4] at hm; simp at hm
  exact ⟨key.1, key.2.1, key.2.2.2.2⟩

/-! ### Executable schedules -/

/-- An action of a schedule: a node starts, or the `k`-th question or answer message on the wire is handled. -/
inductive Act | start (i : Nat) | ask (k : Nat) | ans (k : Nat)
  deriving Repr

/-- Performs one action, if it is enabled. -/
def act (n : Nat) (qs : Nat → NodeQuestions) (nodesOf : Nat → Nat → List Node) (s : QNet) : Act → Option QNet
  | .start i => if i < n ∧ s.ask.started i = false ∧ s.crashed = false then some (start n qs s i) else none
  | .ask k => match s.ask.pool.drop k with
    | m :: post => if s.crashed = false then some (handleAsk n nodesOf s m (s.ask.pool.take k ++ post)) else none
    | [] => none
  | .ans k => match s.ans.pool.drop k with
    | m :: post => if s.crashed = false then some (handleAns s m (s.ans.pool.take k ++ post)) else none
    | [] => none

/-- Performs a schedule. -/
def exec (n : Nat) (qs : Nat → NodeQuestions) (nodesOf : Nat → Nat → List Node) (s : QNet) : List Act → Option QNet
  | [] => some s
  | a :: as => do exec n qs nodesOf (← act n qs nodesOf s a) as

theorem act_step {n : Nat} {qs : Nat → NodeQuestions} {nodesOf : Nat → Nat → List Node} {s t : QNet} {a : Act}
    (h : act n qs nodesOf s a = some t) : Step n qs nodesOf s t := by
  cases a with
  | start i =>
    simp only [act] at h
    split at h
    · rename_i hc
      cases h
      exact .start s i hc.1 hc.2.1 hc.2.2
    · cases h
  | ask k =>
    simp only [act] at h
    split at h
    · rename_i m post hd
      split at h
      · rename_i hc
        cases h
        exact .ask s _ _ m (by rw [← hd, List.take_append_drop]) hc
      · cases h
    · cases h
  | ans k =>
    simp only [act] at h
    split at h
    · rename_i m post hd
      split at h
      · rename_i hc
        cases h
        exact .ans s _ _ m (by rw [← hd, List.take_append_drop]) hc
      · cases h
    · cases h

theorem exec_reachable {n : Nat} {qs : Nat → NodeQuestions} {nodesOf : Nat → Nat → List Node} {s t : QNet}
    (as : List Act) (h : Reachable n qs nodesOf s) (he : exec n qs nodesOf s as = some t) :
    Reachable n qs nodesOf t := by
  induction as generalizing s with
  | nil => simp only [exec, Option.some.injEq] at he; subst he; exact h
  | cons a as ih =>
    simp only [exec] at he
    cases ha : act n qs nodesOf s a with
    | none => rw [ha] at he; simp at he
    | some s' => rw [ha] at he; exact ih (.step h (act_step ha)) (by simpa using he)

/-- Node 0 wants from node 1 the successor of `(0, 3)`, node 1 wants from node 0 the successor of `(2, 7)`. -/
private def exQs : Nat → NodeQuestions := fun i a b =>
  if i = 0 ∧ a = 1 ∧ b = 0 then [⟨0, 3, 1, 4⟩] else if i = 1 ∧ a = 0 ∧ b = 1 then [⟨2, 7, 3, 0⟩] else []
private def exNodesOf : Nat → Nat → List Node := fun a pid =>
  if a = 0 ∧ pid = 3 then [⟨0, 5, 3⟩, ⟨1, 1, 3⟩] else if a = 1 ∧ pid = 1 then [⟨5, 1, 1⟩, ⟨4, 2, 1⟩] else []
private def exSched : List Act :=
  [.start 1, .ask 0, .ask 0, .start 0, .ask 1, .ask 0, .ask 0, .ans 1, .ans 0, .ans 0, .ans 0]

/-- The exchange of two nodes: node 0 learns the node `(4, 2)`, node 1 the node `(0, 5)`. -/
example : (exec 2 exQs exNodesOf (init exQs) exSched).map
    (fun s => (s.crashed, s.fin 0, s.fin 1, s.nfn 0 (0, 3), s.nfn 1 (2, 7))) =
    some (false, 1, 1, some ⟨4, 2, 1⟩, some ⟨0, 5, 3⟩) := by decide

end QNet
end S2G
