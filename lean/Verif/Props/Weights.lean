import Verif.Model.Weights
import Verif.Props.Ring
import Verif.Props.Transposition
import Verif.Props.EdgesDistributed
import Mathlib.Data.List.Dedup
import Mathlib.Algebra.BigOperators.Group.List.Basic

/-!
# C45, C46: edge weights and node degrees
-/

namespace S2G
namespace Counts
variable {K : Type} [DecidableEq K]

/-- The count as a number. -/
def val (m : Counts K) (k : K) : Nat := (m k).getD 0

theorem add_self (m : Counts K) (k : K) (w : Nat) : (m.add k w) k = some (m.val k + w) := by
  unfold add val
  rw [Function.update_self]
  cases m k <;> simp

theorem add_of_ne (m : Counts K) {k k' : K} (w : Nat) (h : k' ≠ k) : (m.add k w) k' = m k' := by
  unfold add
  rw [Function.update_of_ne h]

theorem val_add (m : Counts K) (k k' : K) (w : Nat) : (m.add k w).val k' = m.val k' + if k' = k then w else 0 := by
  by_cases h : k' = k
  · subst h
    rw [if_pos rfl, val, add_self, Option.getD_some]
  · rw [if_neg h, val, add_of_ne m w h, Nat.add_zero, val]

theorem isSome_add (m : Counts K) (k k' : K) (w : Nat) : ((m.add k w) k').isSome ↔ (m k').isSome ∨ k' = k := by
  by_cases h : k' = k
  · subst h
    rw [add_self]
    simp
  · rw [add_of_ne m w h]
    simp [h]

theorem val_merge (m r : Counts K) (k : K) : (m.merge r).val k = m.val k + r.val k := by
  unfold merge
  cases h : r k with
  | none => simp [val, h]
  | some w =>
    have hw : r.val k = w := by simp [val, h]
    rw [hw]
    simp only [val, h]
    have := add_self m k w
    rw [this]
    rfl

theorem isSome_merge (m r : Counts K) (k : K) : ((m.merge r) k).isSome ↔ (m k).isSome ∨ (r k).isSome := by
  unfold merge
  cases h : r k with
  | none => simp
  | some w => simp [isSome_add]

theorem val_foldl_merge (m : Counts K) (l : List (Counts K)) (k : K) :
    (l.foldl merge m).val k = m.val k + (l.map (fun r => r.val k)).sum := by
  induction l generalizing m with
  | nil => simp
  | cons r l ih => rw [List.foldl_cons, ih, val_merge, List.map_cons, List.sum_cons]; omega

theorem isSome_foldl_merge (m : Counts K) (l : List (Counts K)) (k : K) :
    ((l.foldl merge m) k).isSome ↔ (m k).isSome ∨ ∃ r ∈ l, (r k).isSome := by
  induction l generalizing m with
  | nil => simp
  | cons r l ih => rw [List.foldl_cons, ih, isSome_merge]; simp [or_assoc]

end Counts

namespace Weights
open Counts

theorem edgeWeight_append_singleton (l : List Edge) (e : Edge) :
    edgeWeight (l ++ [e]) = (edgeWeight l).add e.edgeKey 1 := by
  unfold edgeWeight
  rw [List.foldl_append]
  rfl

/-- C45 (one node): the weight of an edge is the number of its occurrences; the map has exactly the occurring edges. -/
theorem C45_local (edges : List Edge) (k : EdgeKey) :
    edgeWeight edges k = if edges.countP (fun e => e.edgeKey = k) = 0 then none
      else some (edges.countP (fun e => e.edgeKey = k)) := by
  induction edges using List.reverseRecOn with
  | nil => rfl
  | append_singleton l e ih =>
    rw [edgeWeight_append_singleton, List.countP_append, List.countP_singleton]
    by_cases h : k = e.edgeKey
    · subst h
      rw [add_self, val, ih]
      simp only [decide_true, if_true, Nat.add_eq_zero_iff, Nat.one_ne_zero, and_false, if_false]
      congr 1
      split <;> simp_all
    · rw [add_of_ne _ _ h, ih]
      have : ¬ (e.edgeKey = k) := fun e => h e.symm
      simp [this]

theorem edgeWeight_val (edges : List Edge) (k : EdgeKey) :
    (edgeWeight edges).val k = edges.countP (fun e => e.edgeKey = k) := by
  rw [val, C45_local]
  split
  · next h => rw [h]; rfl
  · rfl

/-- The distinct edges of a list. -/
def distinct (edges : List Edge) : List EdgeKey := (edges.map Edge.edgeKey).dedup

/-- Specification of the degree: the number of ends at `v` of the distinct edges; a self loop has two. -/
def degreeSpec (keys : List EdgeKey) (v : NodeKey) : Nat :=
  keys.countP (fun k => k.1 = v) + keys.countP (fun k => k.2 = v)

theorem degree_fold (edges : List Edge) :
    (edges.foldl degreeStep ([], Counts.empty)).1.Nodup ∧
    (∀ k, k ∈ (edges.foldl degreeStep ([], Counts.empty)).1 ↔ k ∈ edges.map Edge.edgeKey) ∧
    (∀ v, (nodeDegrees edges).val v = degreeSpec (edges.foldl degreeStep ([], Counts.empty)).1 v) ∧
    (∀ v, (nodeDegrees edges v).isSome ↔ ∃ e ∈ edges, e.src.nodeKey = v ∨ e.dst.nodeKey = v) := by
  unfold nodeDegrees
  induction edges using List.reverseRecOn with
  | nil => simp [Counts.empty, val, degreeSpec]
  | append_singleton l e ih =>
    obtain ⟨h1, h2, h3, h4⟩ := ih
    rw [List.foldl_append, List.foldl_cons, List.foldl_nil]
    generalize l.foldl degreeStep ([], Counts.empty) = s at h1 h2 h3 h4 ⊢
    unfold degreeStep
    by_cases hm : e.edgeKey ∈ s.1
    · rw [if_pos hm]
      refine ⟨h1, fun k => ?_, h3, fun v => ?_⟩
      · rw [h2 k]
        simp only [List.map_append, List.map_cons, List.map_nil, List.mem_append, List.mem_singleton]
        constructor
        · exact Or.inl
        · rintro (h | rfl)
          · exact h
          · exact (h2 _).1 hm
      · rw [h4 v]
        constructor
        · rintro ⟨e', he', hv⟩
          exact ⟨e', by simp [he'], hv⟩
        · rintro ⟨e', he', hv⟩
          rcases List.mem_append.1 he' with he' | he'
          · exact ⟨e', he', hv⟩
          · obtain rfl : e' = e := by simpa using he'
            obtain ⟨e'', he'', hk⟩ := List.mem_map.1 ((h2 _).1 hm)
            refine ⟨e'', he'', ?_⟩
            have h1 : e''.src.nodeKey = e'.src.nodeKey := congrArg Prod.fst hk
            have h2 : e''.dst.nodeKey = e'.dst.nodeKey := congrArg Prod.snd hk
            rw [h1, h2]
            exact hv
    · rw [if_neg hm]
      refine ⟨?_, fun k => ?_, fun v => ?_, fun v => ?_⟩
      · exact List.nodup_append.2 ⟨h1, List.nodup_singleton _, fun a ha b hb => by
          rw [List.mem_singleton] at hb
          subst hb
          exact fun h => hm (h ▸ ha)⟩
      · simp [h2 k]
      · rw [val_add, val_add, h3 v]
        have e1 : e.edgeKey.1 = e.src.nodeKey := rfl
        have e2 : e.edgeKey.2 = e.dst.nodeKey := rfl
        simp only [degreeSpec, List.countP_append, List.countP_singleton, e1, e2, decide_eq_true_eq, eq_comm (a := v)]
        omega
      · rw [isSome_add, isSome_add, h4 v]
        simp only [List.mem_append, List.mem_singleton, or_and_right, exists_or, exists_eq_left, eq_comm (a := v), or_assoc]

/-- C46 (one node): the degree of a node is the number of ends of distinct edges at it; the map has exactly the nodes of
the edges. -/
theorem C46_local (edges : List Edge) (v : NodeKey) :
    (nodeDegrees edges).val v = degreeSpec (distinct edges) v ∧
    ((nodeDegrees edges v).isSome ↔ ∃ e ∈ edges, e.src.nodeKey = v ∨ e.dst.nodeKey = v) := by
  obtain ⟨h1, h2, h3, h4⟩ := degree_fold edges
  refine ⟨?_, h4 v⟩
  rw [h3 v]
  have hp : (edges.foldl degreeStep ([], Counts.empty)).1.Perm (distinct edges) :=
    (List.perm_ext_iff_of_nodup h1 (List.nodup_dedup _)).2 (fun k => by rw [h2 k]; exact List.mem_dedup.symm)
  unfold degreeSpec
  rw [hp.countP_eq, hp.countP_eq]

theorem rotated_val {K : Type} [DecidableEq K] {k : Nat} (hk : 2 ≤ k) {s : RingNet (Counts K)}
    (h : RingNet.Reachable true k s) {i : Nat} (hi : i < k) (hd : s.done i = 1) (x : K) :
    (rotated s i).val x = ((List.range k).map (fun j => (s.pay j).val x)).sum ∧
    ((rotated s i x).isSome ↔ ∃ j < k, (s.pay j x).isSome) := by
  have hp := (RingNet.C18_rotation_complete hk h hi).2 hd
  have hr := DirectNet.range_perm hi
  constructor
  · rw [rotated, val_foldl_merge, List.map_map]
    have h1 : ((s.processed i).map ((fun r => Counts.val r x) ∘ RMsg.body)).sum =
        ((DirectNet.peers false k i).map (fun j => (s.pay j).val x)).sum := by
      have := (hp.map ((fun r => Counts.val r x) ∘ RMsg.body)).sum_eq
      rw [this, List.map_map]
      rfl
    rw [h1, ← List.sum_cons, ← List.map_cons (f := fun j => (s.pay j).val x)]
    exact (hr.map _).sum_eq
  · rw [rotated, isSome_foldl_merge]
    constructor
    · rintro (h1 | ⟨r, hr', h1⟩)
      · exact ⟨i, hi, h1⟩
      · obtain ⟨m, hm, rfl⟩ := List.mem_map.1 hr'
        obtain ⟨j, hj, rfl⟩ := List.mem_map.1 (hp.subset hm)
        exact ⟨j, (DirectNet.mem_peers.1 hj).1, h1⟩
    · rintro ⟨j, hj, h1⟩
      by_cases hji : j = i
      · subst hji; exact Or.inl h1
      · refine Or.inr ⟨s.pay j, ?_, h1⟩
        refine List.mem_map.2 ⟨⟨j, s.pay j⟩, hp.symm.subset (List.mem_map.2 ⟨j, ?_, rfl⟩), rfl⟩
        exact DirectNet.mem_peers.2 ⟨hj, Or.inr hji⟩

/-- C45: after the rotation of the weights (schedules of C18) every node knows for every edge the number of its
occurrences in all nodes. -/
theorem C45_global {k : Nat} (hk : 2 ≤ k) {s : RingNet (Counts EdgeKey)} (h : RingNet.Reachable true k s)
    {edges : Nat → List Edge} (hpay : ∀ j < k, s.pay j = edgeWeight (edges j)) {i : Nat} (hi : i < k)
    (hd : s.done i = 1) (x : EdgeKey) :
    (rotated s i).val x = ((List.range k).flatMap edges).countP (fun e => e.edgeKey = x) ∧
    ((rotated s i x).isSome ↔ ∃ e ∈ (List.range k).flatMap edges, e.edgeKey = x) := by
  obtain ⟨h1, h2⟩ := rotated_val hk h hi hd x
  constructor
  · rw [h1, List.countP_flatMap]
    congr 1
    apply List.map_congr_left
    intro j hj
    rw [List.mem_range] at hj
    simp only [Function.comp_apply, hpay j hj, edgeWeight_val]
  · rw [h2]
    have key : ∀ j < k, ((s.pay j x).isSome ↔ ∃ e ∈ edges j, e.edgeKey = x) := by
      intro j hj
      rw [hpay j hj, C45_local]
      split
      · next hc =>
        rw [List.countP_eq_zero] at hc
        simp only [Option.isSome_none, Bool.false_eq_true, false_iff, not_exists, not_and]
        intro e he
        simpa using hc e he
      · next hc =>
        simp only [Option.isSome_some, true_iff]
        have := List.countP_pos_iff.1 (Nat.pos_of_ne_zero hc)
        simpa using this
    constructor
    · rintro ⟨j, hj, hs⟩
      obtain ⟨e, he, hx⟩ := (key j hj).1 hs
      exact ⟨e, List.mem_flatMap.2 ⟨j, List.mem_range.2 hj, he⟩, hx⟩
    · rintro ⟨e, he, hx⟩
      obtain ⟨j, hj, he⟩ := List.mem_flatMap.1 he
      rw [List.mem_range] at hj
      exact ⟨j, hj, (key j hj).2 ⟨e, he, hx⟩⟩

/-- C45: with two nodes in every schedule. -/
theorem C45_two_nodes {s : RingNet (Counts EdgeKey)} (h : RingNet.Reachable false 2 s)
    {edges : Nat → List Edge} (hpay : ∀ j < 2, s.pay j = edgeWeight (edges j)) {i : Nat} (hi : i < 2)
    (hd : s.done i = 1) (x : EdgeKey) :
    (rotated s i).val x = (edges 0 ++ edges 1).countP (fun e => e.edgeKey = x) := by
  have := (C45_global le_rfl (RingNet.C18_two_nodes h) hpay hi hd x).1
  rw [this]
  simp [List.range_succ]

/-- Equal edges are held by one node. -/
def HeldOnce (k : Nat) (edges : Nat → List Edge) : Prop :=
  ∀ i < k, ∀ j < k, ∀ e ∈ edges i, ∀ f ∈ edges j, e.edgeKey = f.edgeKey → i = j

theorem distinct_flatMap {k : Nat} {edges : Nat → List Edge} (h : HeldOnce k edges) :
    ((List.range k).flatMap (fun j => distinct (edges j))).Perm (distinct ((List.range k).flatMap edges)) := by
  refine (List.perm_ext_iff_of_nodup ?_ (List.nodup_dedup _)).2 ?_
  · rw [List.nodup_flatMap]
    refine ⟨fun j _ => List.nodup_dedup _, ?_⟩
    have hlt : (List.range k).Pairwise (· < ·) := List.pairwise_lt_range
    refine hlt.imp_of_mem ?_
    intro i j hi hj hij x hx hy
    rw [List.mem_range] at hi hj
    simp only [distinct, List.mem_dedup, List.mem_map] at hx hy
    obtain ⟨e, he, rfl⟩ := hx
    obtain ⟨f, hf, hef⟩ := hy
    have := h i hi j hj e he f hf hef.symm
    omega
  · intro x
    simp only [distinct, List.mem_flatMap, List.mem_dedup, List.mem_map]
    constructor
    · rintro ⟨j, hj, e, he, rfl⟩; exact ⟨e, ⟨j, hj, he⟩, rfl⟩
    · rintro ⟨e, ⟨j, hj, he⟩, rfl⟩; exact ⟨j, hj, e, he, rfl⟩

/-- C46: if equal edges are held by one node, after the rotation of the degrees (schedules of C18) every node knows the
degrees of the whole graph. -/
theorem C46_global {k : Nat} (hk : 2 ≤ k) {s : RingNet (Counts NodeKey)} (h : RingNet.Reachable true k s)
    {edges : Nat → List Edge} (hpay : ∀ j < k, s.pay j = nodeDegrees (edges j)) (hone : HeldOnce k edges) {i : Nat}
    (hi : i < k) (hd : s.done i = 1) (v : NodeKey) :
    (rotated s i).val v = degreeSpec (distinct ((List.range k).flatMap edges)) v ∧
    ((rotated s i v).isSome ↔ ∃ e ∈ (List.range k).flatMap edges, e.src.nodeKey = v ∨ e.dst.nodeKey = v) := by
  obtain ⟨h1, h2⟩ := rotated_val hk h hi hd v
  constructor
  · rw [h1]
    have hp := distinct_flatMap hone
    unfold degreeSpec
    rw [← hp.countP_eq, ← hp.countP_eq, List.countP_flatMap, List.countP_flatMap, ← List.sum_map_add]
    congr 1
    apply List.map_congr_left
    intro j hj
    rw [List.mem_range] at hj
    rw [hpay j hj, (C46_local (edges j) v).1]
    rfl
  · rw [h2]
    constructor
    · rintro ⟨j, hj, hs⟩
      rw [hpay j hj, (C46_local _ _).2] at hs
      obtain ⟨e, he, hx⟩ := hs
      exact ⟨e, List.mem_flatMap.2 ⟨j, List.mem_range.2 hj, he⟩, hx⟩
    · rintro ⟨e, he, hx⟩
      obtain ⟨j, hj, he⟩ := List.mem_flatMap.1 he
      rw [List.mem_range] at hj
      exact ⟨j, hj, by rw [hpay j hj, (C46_local _ _).2]; exact ⟨e, he, hx⟩⟩

/-- C46: an edge that two nodes hold is counted twice, so the condition is necessary. -/
theorem C46_held_twice_counterexample : ∃ (s : RingNet (Counts NodeKey)) (edges : Nat → List Edge),
    RingNet.Reachable true 2 s ∧ (∀ j < 2, s.pay j = nodeDegrees (edges j)) ∧ s.done 0 = 1 ∧
    (rotated s 0).val (0, 0) = 2 ∧ degreeSpec (distinct (edges 0 ++ edges 1)) (0, 0) = 1 := by
  let e : Edge := ⟨⟨0, 0, 1⟩, ⟨1, 0, 1⟩⟩
  let d := nodeDegrees [e]
  let s0 : RingNet (Counts NodeKey) := RingNet.init (fun _ => d)
  let s1 := RingNet.startStep 2 s0 0 d
  let s2 := RingNet.startStep 2 s1 1 d
  let s3 := RingNet.arriveStep s2 0 ⟨1, d⟩ []
  let s4 := RingNet.handleStep 2 s3 0 ⟨1, d⟩ []
  refine ⟨s4, fun _ => [e], ?_, ?_, rfl, rfl, rfl⟩
  · have h1 : RingNet.Reachable true 2 s1 := .step (.init _) (.start _ 0 d (by decide) rfl (fun _ => Or.inl rfl))
    have h2 : RingNet.Reachable true 2 s2 := .step h1 (.start _ 1 d (by decide) rfl (fun _ => Or.inl rfl))
    have h3 : RingNet.Reachable true 2 s3 := .step h2 (.arrive _ 0 _ _ (by decide) rfl)
    exact .step h3 (.handle _ 0 _ _ (by decide) rfl)
  · intro j hj
    have : j = 0 ∨ j = 1 := by omega
    rcases this with rfl | rfl <;> rfl

/-! ### Three nodes: the race -/
end Weights

/-- change the contribution -/
def RMsg.map {P Q : Type} (g : P → Q) (m : RMsg P) : RMsg Q := ⟨m.origin, g m.body⟩

/-- change the buffered messages -/
def Proto.map {S T : Type} (g : S → T) (p : Proto S) : Proto T := ⟨p.nTotal, p.nReceived, p.nSent, p.buffer.map g⟩

namespace RingNet
variable {P Q : Type}

/-- change all contributions -/
def map (g : P → Q) (s : RingNet P) : RingNet Q where
  proto := fun i => (s.proto i).map (RMsg.map g)
  started := s.started
  processed := fun i => (s.processed i).map (RMsg.map g)
  done := s.done
  mailbox := fun i => (s.mailbox i).map (RMsg.map g)
  net := fun i => (s.net i).map (RMsg.map g)
  pay := fun i => g (s.pay i)

theorem update_map {A B : Type} (f : A → B) (u : Nat → A) (i : Nat) (a : A) :
    (fun j => f (Function.update u i a j)) = Function.update (fun j => f (u j)) i (f a) := by
  funext j
  by_cases h : j = i
  · subst h; simp
  · simp [h]

theorem map_startStep (g : P → Q) (k : Nat) (s : RingNet P) (i : Nat) (b : P) :
    (startStep k s i b).map g = startStep k (s.map g) i (g b) := by
  unfold startStep map
  simp only [RingNet.mk.injEq, update_map (Proto.map (RMsg.map g)), update_map (List.map (RMsg.map g)), update_map g,
    List.map_append, List.map_cons, List.map_nil, true_and]
  exact ⟨rfl, rfl, rfl, trivial⟩

theorem map_arriveStep (g : P → Q) (s : RingNet P) (i : Nat) (m : RMsg P) (rest : List (RMsg P)) :
    (arriveStep s i m rest).map g = arriveStep (s.map g) i (m.map g) (rest.map (RMsg.map g)) := by
  unfold arriveStep map
  simp only [update_map (List.map (RMsg.map g)), List.map_append, List.map_cons, List.map_nil]

theorem map_handleStep (g : P → Q) (k : Nat) (s : RingNet P) (i : Nat) (m : RMsg P) (rest : List (RMsg P)) :
    (handleStep k s i m rest).map g = handleStep k (s.map g) i (m.map g) (rest.map (RMsg.map g)) := by
  have hr : ((s.proto i).map (RMsg.map g)).received (m.map g) =
      (((s.proto i).received m).1, ((s.proto i).received m).2.map (RMsg.map g)) := by
    unfold Proto.received
    change (if (s.proto i).isRunning = true then _ else _) = _
    split
    · rfl
    · simp [Proto.map]
  unfold handleStep
  change _ = (match ((s.proto i).map (RMsg.map g)).received (m.map g) with | (false, p) => _ | (true, p) => _)
  rw [hr]
  obtain ⟨b, p⟩ := (s.proto i).received m
  cases b with
  | false =>
    simp only [map, update_map (Proto.map (RMsg.map g)), update_map (List.map (RMsg.map g))]
  | true =>
    have hrun : (p.map (RMsg.map g)).isRunning = p.isRunning := rfl
    simp only [hrun]
    split
    · simp only [map, RingNet.mk.injEq, update_map (Proto.map (RMsg.map g)), update_map (List.map (RMsg.map g)),
        and_true, List.map_append, List.map_cons, List.map_nil]
      rfl
    · simp only [map, update_map (Proto.map (RMsg.map g)), update_map (List.map (RMsg.map g)),
        List.map_append, List.map_cons, List.map_nil]

/-- The protocol does not look at the contributions. -/
theorem Reachable.map {b : Bool} {k : Nat} {s : RingNet P} (h : Reachable b k s) (g : P → Q) : Reachable b k (s.map g) := by
  induction h with
  | init pay => exact .init _
  | @step s t _ hs ih =>
    refine .step ih ?_
    cases hs with
    | start i c hi hst hb =>
      rw [map_startStep]
      refine .start _ i (g c) hi hst (fun e => ?_)
      rcases hb e with h | h
      · exact Or.inl (by simp [RingNet.map, h])
      · exact Or.inr (by simp [RingNet.map, Proto.map, h])
    | arrive i m rest hi hn =>
      rw [map_arriveStep]
      exact .arrive _ i _ _ hi (by simp [RingNet.map, hn])
    | handle i m rest hi hm =>
      rw [map_handleStep]
      exact .handle _ i _ _ hi (by simp [RingNet.map, hm])

end RingNet

namespace Weights
open Counts

theorem race {P : Type} (w : Nat → P) : ∃ s : RingNet P, RingNet.Reachable false 3 s ∧ (∀ j < 3, s.pay j = w j) ∧
    (∀ j < 3, s.done j = 1) ∧ (s.processed 0).map RMsg.body = [w 2, w 1] ∧
    (s.processed 2).map RMsg.body = [w 1, w 2] := by
  let sched : List (RingNet.Act Nat) :=
    [.start 0 0, .arrive 1, .handle 1, .start 2 2, .arrive 0, .handle 0, .arrive 1, .start 1 1, .handle 1,
     .handle 1, .arrive 2, .handle 2, .arrive 2, .handle 2, .arrive 0, .handle 0]
  have h : ∃ s, RingNet.exec 3 (RingNet.init id) sched = some s := by rw [← Option.isSome_iff_exists]; rfl
  obtain ⟨s, hs⟩ := h
  have key : (RingNet.exec 3 (RingNet.init id) sched).map (fun s => (s.done 0, s.done 1, s.done 2)) =
    some (1, 1, 1) := rfl
  have key1 : (RingNet.exec 3 (RingNet.init id) sched).map (fun s => (s.pay 0, s.pay 1, s.pay 2)) =
    some (0, 1, 2) := rfl
  have key2 : (RingNet.exec 3 (RingNet.init id) sched).map (fun s =>
    ((s.processed 0).map RMsg.body, (s.processed 2).map RMsg.body)) = some ([2, 1], [1, 2]) := rfl
  rw [hs] at key key1 key2
  simp only [Option.map_some, Option.some.injEq, Prod.mk.injEq] at key key1 key2
  refine ⟨s.map w, (RingNet.exec_reachable _ (.init _) hs).map w, ?_, ?_, ?_, ?_⟩
  · intro j hj
    match j, hj with
    | 0, _ => exact congrArg w key1.1
    | 1, _ => exact congrArg w key1.2.1
    | 2, _ => exact congrArg w key1.2.2
  · intro j hj
    match j, hj with
    | 0, _ => exact key.1
    | 1, _ => exact key.2.1
    | 2, _ => exact key.2.2
  · have := congrArg (List.map w) key2.1
    rw [List.map_map] at this
    simpa [RingNet.map, RMsg.map, Function.comp_def] using this
  · have := congrArg (List.map w) key2.2
    rw [List.map_map] at this
    simpa [RingNet.map, RMsg.map, Function.comp_def] using this

/-- C45: with three nodes the claim fails in the schedule of `RingNet.C18_counterexample`: only node 0 holds the edge, all
rotations complete, but node 2 does not know it. -/
theorem C45_race_counterexample : ∃ (s : RingNet (Counts EdgeKey)) (edges : Nat → List Edge),
    RingNet.Reachable false 3 s ∧ (∀ j < 3, s.pay j = edgeWeight (edges j)) ∧ (∀ j < 3, s.done j = 1) ∧
    edges 0 = [⟨⟨0, 0, 1⟩, ⟨1, 0, 1⟩⟩] ∧ edges 1 = [] ∧ edges 2 = [] ∧
    (rotated s 0).val ((0, 0), (1, 0)) = 1 ∧ (rotated s 2).val ((0, 0), (1, 0)) = 0 := by
  let edges : Nat → List Edge := fun j => if j = 0 then [⟨⟨0, 0, 1⟩, ⟨1, 0, 1⟩⟩] else []
  obtain ⟨s, h1, h2, h3, h4, h5⟩ := race (fun j => edgeWeight (edges j))
  refine ⟨s, edges, h1, h2, h3, rfl, rfl, rfl, ?_, ?_⟩
  · rw [rotated, val_foldl_merge, h4, h2 0 (by decide)]; rfl
  · rw [rotated, val_foldl_merge, h5, h2 2 (by decide)]; rfl

/-! ### Together with the preceding stages -/

section
open Edges
variable {p : Parameters} {pts : Nat → List Pt} {len : Nat} {sg : SegNet} {nodes : Nat → List Node} {q : QNet}

/-- C46: whatever happened before, edge estimation leaves equal edges at one node: the owner of the start. -/
theorem C46_edges_held_once (h : Run p pts len sg nodes q) (hf : ∀ j < p.nClusterNodes, q.fin j = 1)
    {edges : Nat → List Edge}
    (he : ∀ j < p.nClusterNodes, connectNodes len (NodeEst.nodesOf (nodes j)) (q.nfn j) = some (edges j)) :
    HeldOnce p.nClusterNodes edges := by
  have key : ∀ j < p.nClusterNodes, ∀ e ∈ edges j, owner p e.src.seg = j := by
    intro j hj e hm
    have h1 := he j hj
    rw [connect_visit h.wf hj h.steps (h.localNodes hj) (h.sound hj (hf j hj)) (fun _ _ hcr => by
      have := hcr.1
      have := h.several
      omega)] at h1
    rw [← Option.some.inj h1] at hm
    rcases foldl_visit_mem (p := p) (j := j) (fun x => q.nfn j (x.fromId, x.seg)) (own p j _)
      (by intro x hx; simpa using (List.mem_filter.1 hx).2) _ (by simp) e hm with h | ⟨h1, -⟩
    · cases h
    · exact h1
  intro i hi j hj e hm f hm' hk
  have hs : e.src.seg = f.src.seg := congrArg (fun k : EdgeKey => k.1.1) hk
  rw [← key i hi e hm, ← key j hj f hm', hs]

/-- C46 with the preceding stages: every node ends with the degrees of the graph of the whole series. -/
theorem C46_end_to_end (h : Run p pts len sg nodes q) (hb : ∀ i, i + 1 < p.nClusterNodes → BorderOK p pts i)
    (hf : ∀ j < p.nClusterNodes, q.fin j = 1) {edges : Nat → List Edge}
    (he : ∀ j < p.nClusterNodes, connectNodes len (NodeEst.nodesOf (nodes j)) (q.nfn j) = some (edges j))
    {s : RingNet (Counts NodeKey)} (hs : RingNet.Reachable true p.nClusterNodes s)
    (hpay : ∀ j < p.nClusterNodes, s.pay j = nodeDegrees (edges j)) {i : Nat} (hi : i < p.nClusterNodes)
    (hd : s.done i = 1) (v : NodeKey) :
    (rotated s i).val v = degreeSpec (distinct (pairs (walk p.rate (labels p nodes) (allSteps p pts)))) v := by
  rw [(C46_global h.several hs hpay (C46_edges_held_once h hf he) hi hd v).1]
  have hp := (C43_union_of_borders h hb hf he)
  have hp' : (distinct ((List.range p.nClusterNodes).flatMap edges)).Perm
      (distinct (pairs (walk p.rate (labels p nodes) (allSteps p pts)))) :=
    (hp.map Edge.edgeKey).dedup
  unfold degreeSpec
  rw [hp'.countP_eq, hp'.countP_eq]

/-- C45 with the preceding stages: after transposition and rotation the weight of an edge at every node is the number of
its occurrences in the walk of the whole series. -/
theorem C45_end_to_end (h : Run p pts len sg nodes q) (hb : ∀ i, i + 1 < p.nClusterNodes → BorderOK p pts i)
    (hf : ∀ j < p.nClusterNodes, q.fin j = 1) {edges : Nat → List Edge}
    (he : ∀ j < p.nClusterNodes, connectNodes len (NodeEst.nodesOf (nodes j)) (q.nfn j) = some (edges j))
    {t : TransNet} (hlen : p.nClusterNodes ≤ len) (ht : TransNet.Reachable p.nClusterNodes len edges t)
    (htd : ∀ j < p.nClusterNodes, t.net.done j = 1)
    {s : RingNet (Counts EdgeKey)} (hs : RingNet.Reachable true p.nClusterNodes s)
    (hpay : ∀ j < p.nClusterNodes, s.pay j = edgeWeight (t.store j)) {i : Nat} (hi : i < p.nClusterNodes)
    (hd : s.done i = 1) (x : EdgeKey) :
    (rotated s i).val x =
      (pairs (walk p.rate (labels p nodes) (allSteps p pts))).countP (fun e => e.edgeKey = x) := by
  rw [(C45_global h.several hs hpay hi hd x).1]
  exact ((TransNet.C44_timeline (by omega) hlen ht htd).1.trans (C43_union_of_borders h hb hf he)).countP_eq _

end

/-! ### Concrete instances -/

private def exE : List Edge := [⟨⟨0, 0, 1⟩, ⟨1, 0, 1⟩⟩, ⟨⟨1, 0, 1⟩, ⟨1, 0, 2⟩⟩, ⟨⟨0, 0, 3⟩, ⟨1, 0, 3⟩⟩]

example : edgeWeight exE ((0, 0), (1, 0)) = some 2 ∧ edgeWeight exE ((1, 0), (1, 0)) = some 1 ∧
    edgeWeight exE ((0, 0), (0, 0)) = none := by decide
example : nodeDegrees exE (0, 0) = some 1 ∧ nodeDegrees exE (1, 0) = some 3 ∧ nodeDegrees exE (2, 0) = none := by decide

end Weights
end S2G
