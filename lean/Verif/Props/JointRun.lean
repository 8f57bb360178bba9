import Verif.Props.JointStages

/-!
# Overlapping stages deliver what the stages one after the other deliver
-/

namespace S2G
namespace Stage
variable {I O J Q L P : Type} {n : Nat}

section
variable {prep : Nat → I → Option L} {body : L → Nat → P} {result : Nat → L → List (DMsg P) → O} {pay : Nat → Nat → P}

theorem direct_ends [Nonempty L] {f : Nat → I} {y : Nat → O} : (direct n prep body result pay).Ends n f y ↔
    ∃ (l : Nat → L) (d : DirectNet P), (∀ i < n, prep i (f i) = some (l i)) ∧ DirectNet.ReachableWith false n (fun i => body (l i)) d ∧
      (∀ i < n, d.done i = 1) ∧ ∀ i < n, y i = result i (l i) (d.processed i) := by
  constructor
  · rintro ⟨s, hs, hy⟩
    have h1 : ∀ i, ∃ l, i < n → s.2.done i = 1 ∧ prep i (f i) = some l ∧ y i = result i l (s.2.processed i) := by
      intro i
      by_cases hi : i < n
      · obtain ⟨-, hd, l, hl, he⟩ := (direct_out hs).1 (hy i hi)
        exact ⟨l, fun _ => ⟨hd, hl, he⟩⟩
      · exact ⟨Classical.arbitrary L, fun h => absurd h hi⟩
    choose l hl using h1
    refine ⟨l, _, fun i hi => (hl i hi).2.1, direct_with hs fun i hi => ?_, fun i hi => (hl i hi).1, fun i hi => (hl i hi).2.2⟩
    exact (hl i ((direct_run hs).2.2 i hi).1).2.1
  · rintro ⟨l, d, hl, hd, hdone, hy⟩
    obtain ⟨s, hs, rfl⟩ := with_direct (result := result) (pay := pay) hd hl
    exact ⟨s, hs, fun i hi => (direct_out hs).2 ⟨hi, hdone i hi, l i, hl i hi, hy i hi⟩⟩

end

section
variable {pay : Nat → P} {result : P → List (RMsg P) → Nat → O}

/-- The messages which node `i` handles in a rotation: those of its predecessors, the nearest one first. -/
def ringMsgs (n : Nat) (f : Nat → P) (i : Nat) : List (RMsg P) :=
  (List.range (n - 1)).map (fun j => ⟨(i + n - (j + 1)) % n, f ((i + n - (j + 1)) % n)⟩)

theorem ring_ends (hn : 2 ≤ n) {f : Nat → P} {y : Nat → O} :
    (ring n pay result).Ends n f y ↔ ∀ i < n, y i = result (f i) (ringMsgs n f i) i := by
  constructor
  · rintro ⟨s, hs, hy⟩ i hi
    obtain ⟨-, hd, h1⟩ := ring_out.1 (hy i hi)
    obtain ⟨h2, h3⟩ := ring_result hn hs hi hd
    exact h1.trans (by rw [h2, h3]; rfl)
  · intro hy
    obtain ⟨s, t, h1, h2, h3⟩ := ring_complete (pay := pay) (result := result) hn f
    have hr := h2.run h1.run
    refine ⟨t, hr, fun i hi => ring_out.2 ⟨hi, h3 i hi, ?_⟩⟩
    obtain ⟨h4, h5⟩ := ring_result hn hr hi (h3 i hi)
    exact (hy i hi).trans (by rw [h4, h5]; rfl)

theorem rings_ends {P' O' : Type} {pay' : Nat → P'} {result' : P' → List (RMsg P') → Nat → O'} (hn : 2 ≤ n) {f : Nat → P × P'}
    {y : Nat → O × O'} : (both (ring n pay result) (ring n pay' result')).Ends n f y ↔
      ∀ i < n, (y i).1 = result (f i).1 (ringMsgs n (fun i => (f i).1) i) i ∧ (y i).2 = result' (f i).2 (ringMsgs n (fun i => (f i).2) i) i := by
  constructor
  · intro h i hi
    obtain ⟨h1, h2⟩ := both_ends (ring_laws hn) (ring_laws hn) h
    exact ⟨(ring_ends hn).1 h1 i hi, (ring_ends hn).1 h2 i hi⟩
  · intro hy
    obtain ⟨s, t, h1, h2, h3⟩ := ring_complete (pay := pay) (result := result) hn (fun i => (f i).1)
    obtain ⟨s', t', h1', h2', h3'⟩ := ring_complete (pay := pay') (result := result') hn (fun i => (f i).2)
    refine ⟨(t, t'), both_run h1 h1' h2 h2', fun i hi => ?_⟩
    obtain ⟨h4, h5⟩ := ring_result hn (h2.run h1.run) hi (h3 i hi)
    obtain ⟨h4', h5'⟩ := ring_result hn (h2'.run h1'.run) hi (h3' i hi)
    exact both_out_iff.2 ⟨ring_out.2 ⟨hi, h3 i hi, (hy i hi).1.trans (by rw [h4, h5]; rfl)⟩,
      ring_out.2 ⟨hi, h3' i hi, (hy i hi).2.trans (by rw [h4', h5']; rfl)⟩⟩

/-- A rotation which is over on all nodes, as a network. -/
theorem ring_over (hn : 2 ≤ n) (f : Nat → P) : ∃ s : RingNet P, RingNet.Reachable true n s ∧ (∀ i < n, s.pay i = f i) ∧ ∀ i < n, s.done i = 1 := by
  obtain ⟨s, t, h1, h2, h3⟩ := ring_complete (pay := fun _ => f 0) (result := fun _ _ _ => ()) hn f
  have hr := h2.run h1.run
  exact ⟨t, (ring_run hr).1, fun i hi => (ring_result hn hr hi (h3 i hi)).1, h3⟩

theorem over_processed (hn : 2 ≤ n) {s : RingNet P} (h : RingNet.Reachable true n s) {f : Nat → P} (hp : ∀ i < n, s.pay i = f i)
    {i : Nat} (hi : i < n) (hd : s.done i = 1) : s.processed i = ringMsgs n f i := by
  rw [ring_processed hn h hi hd]
  refine List.map_congr_left fun j _ => ?_
  rw [hp _ (Nat.mod_lt _ (by omega))]

theorem ringMsgs_congr (hn : 2 ≤ n) {f g : Nat → P} (h : ∀ i < n, f i = g i) (i : Nat) : ringMsgs n f i = ringMsgs n g i :=
  List.map_congr_left fun j _ => by rw [h _ (Nat.mod_lt _ (by omega))]

/-- If the last stage is a rotation and one node has its result, then the run can end on all nodes, with this result on this node. -/
theorem comp_ring_delivered {A : Stage I O} {glue : Nat → O → Option P} {result : P → List (RMsg P) → Nat → Q} (hn : 2 ≤ n)
    (hA : A.Laws n) {f : Nat → I} {s : (comp A glue (ring n pay result)).S} (h : (comp A glue (ring n pay result)).Run f s) {i : Nat} {r : Q}
    (hr : (comp A glue (ring n pay result)).out s i = some r) :
    ∃ y, (comp A glue (ring n pay result)).Ends n f y ∧ i < n ∧ y i = r := by
  have hP : Nonempty P := ⟨pay 0⟩
  obtain ⟨g, hg⟩ := exists_inputs A glue s.1
  have h1 := (run_comp hA h).2 g hg
  obtain ⟨hi, hd, rfl⟩ := ring_out.1 (show (ring n pay result).out s.2 i = some r from hr)
  have hall : ∀ j < n, RingNet.started s.2 j = true := fun j hj => ring_done_all hn (ring_run h1).1 hi hd hj
  obtain ⟨t, h2, h3, h4, h5⟩ := ring_finish (pay := pay) (result := result) hn _ le_rfl (ring_run h1).1 hall
  have h6 : (comp A glue (ring n pay result)).Run f (s.1, t) := by
    have key : ∀ {u v : (ring n pay result).S}, (ring n pay result).Steps u v → (comp A glue (ring n pay result)).Run f (s.1, u) →
        (comp A glue (ring n pay result)).Run f (s.1, v) := by
      intro u v huv hu
      induction huv with
      | refl => exact hu
      | step _ hs ih => exact .step ih (.inr (.inl ⟨_, hs, rfl⟩))
    exact key h2 h
  have h7 := h2.run h1
  refine ⟨fun j => result (RingNet.pay t j) (RingNet.processed t j) j, ⟨(s.1, t), h6, fun j hj => ring_out (pay := pay) |>.2 ⟨hj, h5 j hj, rfl⟩⟩, hi, ?_⟩
  obtain ⟨e1, e2⟩ := ring_result hn h7 hi (h5 i hi)
  obtain ⟨e3, e4⟩ := ring_result hn h1 hi hd
  show result (RingNet.pay t i) (RingNet.processed t i) i = result (RingNet.pay s.2 i) (RingNet.processed s.2 i) i
  rw [e1, e2, e3, e4]

end
end Stage

namespace Joint
open Stage Cluster

variable {n q threads : Nat} {X : Type}

theorem exists_below {α : Type} [Nonempty α] {P : Nat → α → Prop} (h : ∀ i < n, ∃ x, P i x) : ∃ x : Nat → α, ∀ i < n, P i (x i) := by
  have : ∀ i, ∃ x, i < n → P i x := fun i => by
    by_cases hi : i < n
    · obtain ⟨x, hx⟩ := h i hi
      exact ⟨x, fun _ => hx⟩
    · exact ⟨Classical.arbitrary α, fun h => absurd h hi⟩
  choose x hx using this
  exact ⟨x, hx⟩

theorem asking_ends (hn : 2 ≤ n) {f : Nat → NodeQuestions × (Nat → List Node)} {y : Nat → ForeignNodes} : (asking n).Ends n f y ↔
    ∃ s, QNet.Reachable n (fun i => (f i).1) (fun i => (f i).2) s ∧ ∀ i < n, s.fin i = 1 ∧ y i = s.nfn i := by
  constructor
  · rintro ⟨s, hs, hy⟩
    exact ⟨_, (asking_run hn hs).1, fun i hi => (asking_out.1 (hy i hi)).2⟩
  · rintro ⟨s, hs, hy⟩
    obtain ⟨t, ht, rfl⟩ := run_asking hn hs
    exact ⟨t, ht, fun i hi => asking_out.2 ⟨hi, hy i hi⟩⟩

theorem overlap_ends {f : Nat → List Edge × List Nat} {y : Nat → List Edge × List Nat} : (overlap n q).Ends n f y ↔
    ∃ s, OvNet.Reachable n q (fun i => (f i).1) (fun i => (f i).2) s ∧ ∀ i < n, s.scored i = [y i] := by
  constructor
  · rintro ⟨s, hs, hy⟩
    exact ⟨_, (overlap_run hs).1, fun i hi => (overlap_out.1 (hy i hi)).2⟩
  · rintro ⟨s, hs, hy⟩
    obtain ⟨t, ht, rfl⟩ := run_overlap hs
    exact ⟨t, ht, fun i hi => overlap_out.2 ⟨hi, hy i hi⟩⟩

theorem helpers_ends {f : Nat → (List Edge × List Nat) × Counts EdgeKey × Counts NodeKey} {y : Nat → List ℚ × Bool} :
    (helpers n q threads).Ends n f y ↔ ∃ par : Nat → ParScore, ∀ i < n, ∃ s0, Job q threads (f i) s0 ∧ ParScore.Reachable s0 (par i) ∧ (par i).final = [y i] := by
  constructor
  · rintro ⟨s, hs, hy⟩
    have : Nonempty ParScore := ⟨{ proto := {}, pool := [] }⟩
    refine exists_below (P := fun i a => ∃ s0, Job q threads (f i) s0 ∧ ParScore.Reachable s0 a ∧ ParScore.final a = [y i]) fun i hi => ?_
    obtain ⟨a, ha, hf⟩ := helpers_out.1 (hy i hi)
    obtain ⟨-, -, s0, h1, h2⟩ := helpers_run hs ha
    exact ⟨a, s0, h1, h2, hf⟩
  · rintro ⟨par, h⟩
    obtain ⟨s, hs, hp⟩ := run_helpers (n := n) (q := q) (threads := threads) (f := f) (par := par) fun i hi => by
      obtain ⟨s0, h1, h2, -⟩ := h i hi
      exact ⟨s0, h1, h2⟩
    refine ⟨s, hs, fun i hi => helpers_out.2 ⟨par i, hp i hi, ?_⟩⟩
    obtain ⟨-, -, -, h3⟩ := h i hi
    exact h3

/-! ### The stages together -/

section
variable {clu : List X → Option (List Nat)} {coord : Inter → X} {p : Parameters} {len : Nat} {points : Nat → Nat}

local notation "N" => Parameters.nClusterNodes p

instance : Nonempty ForeignNodes := ⟨fun _ => none⟩

theorem inter_laws : (inter p).Laws N := direct_laws

theorem inter_ends {f : Nat → List Trans} {y : Nat → List Inter} : (inter p).Ends N f y ↔
    ∃ it, InterNet.Reachable p f it ∧ (∀ i < N, it.net.done i = 1) ∧ ∀ i < N, y i = it.store p i := by
  have : Nonempty Inter.State := ⟨{}⟩
  constructor
  · intro h
    obtain ⟨l, d, h1, h2, h3, h4⟩ := direct_ends.1 h
    exact ⟨⟨l, d⟩, ⟨h1, h2⟩, h3, h4⟩
  · rintro ⟨it, ⟨h1, h2⟩, h3, h4⟩
    exact direct_ends.2 ⟨it.loc, it.net, h1, h2, h3, h4⟩

theorem transposition_laws : (transposition N len).Laws N := direct_laws

theorem transposition_ends (hn : 2 ≤ N) {f y : Nat → List Edge} : (transposition N len).Ends N f y ↔
    ∃ tr, TransNet.Reachable N len f tr ∧ (∀ i < N, tr.net.done i = 1) ∧ ∀ i < N, y i = tr.store i := by
  constructor
  · intro h
    obtain ⟨l, d, h1, h2, h3, h4⟩ := direct_ends.1 h
    obtain ⟨pl, hpl, -⟩ := Option.bind_eq_some_iff.1 (h1 0 (by omega))
    refine ⟨⟨l, d⟩, ⟨pl, hpl, fun i hi => ?_, h2⟩, h3, h4⟩
    have := h1 i hi
    rwa [hpl] at this
  · rintro ⟨tr, ⟨pl, hpl, h1, h2⟩, h3, h4⟩
    refine direct_ends.2 ⟨tr.assigned, tr.net, fun i hi => ?_, h2, h3, h4⟩
    rw [hpl]
    exact h1 i hi

theorem exchange_laws (hn : 2 ≤ N) : (exchange clu coord p).Laws N :=
  comp_laws (carry_laws inter_laws) (carry_laws (asking_laws hn))

theorem exchange_ends (hn : 2 ≤ N) {f : Nat → List Trans × NodeQuestions} {y : Nat → ForeignNodes × (Nat → List Node)} :
    (exchange clu coord p).Ends N f y ↔ ∃ (it : InterNet) (nodes : Nat → List Node) (qn : QNet),
      InterNet.Reachable p (fun i => (f i).1) it ∧ (∀ i < N, it.net.done i = 1) ∧
      (∀ j < N, NodeEst.estimateNodes clu coord p j (it.store p j) = some (nodes j)) ∧
      QNet.Reachable N (fun i => (f i).2) (fun a => NodeEst.nodesOf (nodes a)) qn ∧ (∀ j < N, qn.fin j = 1) ∧
      ∀ j < N, y j = (qn.nfn j, NodeEst.nodesOf (nodes j)) := by
  unfold exchange
  rw [comp_ends (carry_laws inter_laws) (carry_laws (asking_laws hn))]
  constructor
  · rintro ⟨x, g, h1, h2, h3⟩
    rw [carry_ends inter_laws, inter_ends] at h1
    obtain ⟨⟨it, h1, h4, h5⟩, h6⟩ := h1
    obtain ⟨nodes, hnodes⟩ := exists_below (n := N) (P := fun j v => NodeEst.estimateNodes clu coord p j (it.store p j) = some v ∧
        g j = (((f j).2, NodeEst.nodesOf v), NodeEst.nodesOf v)) fun j hj => by
      obtain ⟨v, hv, e⟩ := Option.map_eq_some_iff.1 (h2 j hj)
      rw [h5 j hj] at hv
      rw [h6 j hj] at e
      exact ⟨v, hv, e.symm⟩
    rw [carry_ends (asking_laws hn)] at h3
    obtain ⟨h3, h7⟩ := h3
    have h3' := h3.congr (asking_laws hn) (g := fun j => ((f j).2, NodeEst.nodesOf (nodes j))) (z := fun i => (y i).1)
      (fun i hi => by rw [(hnodes i hi).2]) fun _ _ => rfl
    obtain ⟨qn, h8, h9⟩ := (asking_ends hn).1 h3'
    refine ⟨it, nodes, qn, h1, h4, fun j hj => (hnodes j hj).1, h8, fun j hj => (h9 j hj).1, fun j hj => ?_⟩
    exact Prod.ext (h9 j hj).2 ((h7 j hj).trans (by rw [(hnodes j hj).2]))
  · rintro ⟨it, nodes, qn, h1, h2, h3, h4, h5, h6⟩
    refine ⟨fun i => (it.store p i, (f i).2), fun j => (((f j).2, NodeEst.nodesOf (nodes j)), NodeEst.nodesOf (nodes j)),
      (carry_ends inter_laws).2 ⟨inter_ends.2 ⟨it, h1, h2, fun _ _ => rfl⟩, fun _ _ => rfl⟩, fun i hi => ?_, ?_⟩
    · dsimp only
      rw [h3 i hi]
      rfl
    · refine (carry_ends (asking_laws hn)).2 ⟨?_, fun i hi => by rw [h6 i hi]⟩
      exact (asking_ends hn).2 ⟨qn, h4, fun i hi => ⟨h5 i hi, by rw [h6 i hi]⟩⟩

theorem transposed_laws (hn : 2 ≤ N) : (transposed clu coord p len).Laws N :=
  comp_laws (exchange_laws hn) (carry_laws transposition_laws)

theorem transposed_ends (hn : 2 ≤ N) {f : Nat → List Trans × NodeQuestions} {y : Nat → List Edge × List Edge} :
    (transposed clu coord p len).Ends N f y ↔ ∃ x, (exchange clu coord p).Ends N f x ∧ ∃ (es : Nat → List Edge) (tr : TransNet),
      (∀ j < N, Edges.connectNodes len (x j).2 (x j).1 = some (es j)) ∧
      TransNet.Reachable N len (fun j => Transposition.sortEdges (es j)) tr ∧ (∀ j < N, tr.net.done j = 1) ∧
      ∀ j < N, y j = (tr.store j, Transposition.sortEdges (es j)) := by
  unfold transposed
  rw [comp_ends (exchange_laws hn) (carry_laws transposition_laws)]
  refine exists_congr fun x => ?_
  constructor
  · rintro ⟨g, h1, h2, h3⟩
    refine ⟨h1, ?_⟩
    obtain ⟨es, hes⟩ := exists_below (n := N) (P := fun j v => Edges.connectNodes len (x j).2 (x j).1 = some v ∧
        g j = (Transposition.sortEdges v, Transposition.sortEdges v)) fun j hj => by
      obtain ⟨v, hv, e⟩ := Option.map_eq_some_iff.1 (h2 j hj)
      exact ⟨v, hv, e.symm⟩
    rw [carry_ends transposition_laws] at h3
    obtain ⟨h3, h7⟩ := h3
    have h3' := h3.congr transposition_laws (g := fun j => Transposition.sortEdges (es j)) (z := fun i => (y i).1)
      (fun i hi => by rw [(hes i hi).2]) fun _ _ => rfl
    obtain ⟨tr, h8, h9, h10⟩ := (transposition_ends hn).1 h3'
    exact ⟨es, tr, fun j hj => (hes j hj).1, h8, h9, fun j hj => Prod.ext (h10 j hj) ((h7 j hj).trans (by rw [(hes j hj).2]))⟩
  · rintro ⟨h1, es, tr, h2, h3, h4, h5⟩
    refine ⟨fun j => (Transposition.sortEdges (es j), Transposition.sortEdges (es j)), h1, fun i hi => by rw [h2 i hi]; rfl, ?_⟩
    refine (carry_ends transposition_laws).2 ⟨?_, fun i hi => by rw [h5 i hi]⟩
    exact (transposition_ends hn).2 ⟨tr, h3, h4, fun i hi => by rw [h5 i hi]⟩

theorem weighed_laws (hn : 2 ≤ N) : (weighed clu coord p len points).Laws N :=
  comp_laws (transposed_laws hn) (carry_laws (both_laws (ring_laws hn) (ring_laws hn)))

theorem weighed_ends (hn : 2 ≤ N) {f : Nat → List Trans × NodeQuestions} {y : Nat → (Counts NodeKey × Counts EdgeKey) × (List Edge × List Nat)} :
    (weighed clu coord p len points).Ends N f y ↔ ∃ x, (transposed clu coord p len).Ends N f x ∧ ∃ (m : Nat → Nat) (cnt : Nat → List Nat),
      ∀ i < N, EdgesInTime.resultLength N i (points i) = some (m i) ∧
        EdgesInTime.count (Transposition.rangeStart (len / N) i) (m i) ((x i).1.map Edge.toId) = some (cnt i) ∧
        (y i).1.1 = ((ringMsgs N (fun j => Weights.nodeDegrees (x j).2) i).map RMsg.body).foldl Counts.merge (Weights.nodeDegrees (x i).2) ∧
        (y i).1.2 = ((ringMsgs N (fun j => Weights.edgeWeight (x j).1) i).map RMsg.body).foldl Counts.merge (Weights.edgeWeight (x i).1) ∧
        (y i).2 = ((x i).1, cnt i) := by
  have hB : (both (counts NodeKey N) (counts EdgeKey N)).Laws N := both_laws (ring_laws hn) (ring_laws hn)
  unfold weighed
  rw [comp_ends (transposed_laws hn) (carry_laws hB)]
  refine exists_congr fun x => ?_
  constructor
  · rintro ⟨g, h1, h2, h3⟩
    refine ⟨h1, ?_⟩
    obtain ⟨mc, hmc⟩ := exists_below (n := N) (P := fun i (v : Nat × List Nat) => EdgesInTime.resultLength N i (points i) = some v.1 ∧
        EdgesInTime.count (Transposition.rangeStart (len / N) i) v.1 ((x i).1.map Edge.toId) = some v.2 ∧
        g i = ((Weights.nodeDegrees (x i).2, Weights.edgeWeight (x i).1), ((x i).1, v.2))) fun i hi => by
      obtain ⟨m, hm, h⟩ := Option.bind_eq_some_iff.1 (h2 i hi)
      obtain ⟨c, hc, e⟩ := Option.map_eq_some_iff.1 h
      exact ⟨(m, c), hm, hc, e.symm⟩
    rw [carry_ends hB] at h3
    obtain ⟨h3, h7⟩ := h3
    have h3' := h3.congr hB (g := fun i => (Weights.nodeDegrees (x i).2, Weights.edgeWeight (x i).1)) (z := fun i => (y i).1)
      (fun i hi => by rw [(hmc i hi).2.2]) fun _ _ => rfl
    have h8 := (rings_ends hn).1 h3'
    exact ⟨fun i => (mc i).1, fun i => (mc i).2, fun i hi => ⟨(hmc i hi).1, (hmc i hi).2.1, (h8 i hi).1, (h8 i hi).2,
      (h7 i hi).trans (by rw [(hmc i hi).2.2])⟩⟩
  · rintro ⟨h1, m, cnt, h⟩
    refine ⟨fun i => ((Weights.nodeDegrees (x i).2, Weights.edgeWeight (x i).1), ((x i).1, cnt i)), h1, fun i hi => ?_, ?_⟩
    · dsimp only
      rw [(h i hi).1, Option.bind_some, (h i hi).2.1]
      rfl
    · refine (carry_ends hB).2 ⟨?_, fun i hi => (h i hi).2.2.2.2⟩
      exact (rings_ends hn).2 fun i hi => ⟨(h i hi).2.2.1, (h i hi).2.2.2.1⟩

theorem overlapped_laws (hn : 2 ≤ N) : (overlapped clu coord p len points).Laws N :=
  comp_laws (weighed_laws hn) (carry_laws overlap_laws)

theorem overlapped_ends (hn : 2 ≤ N) {f : Nat → List Trans × NodeQuestions} {y : Nat → (List Edge × List Nat) × Counts EdgeKey × Counts NodeKey} :
    (overlapped clu coord p len points).Ends N f y ↔ ∃ x, (weighed clu coord p len points).Ends N f x ∧
      (overlap N p.queryLength).Ends N (fun i => (x i).2) (fun i => (y i).1) ∧ ∀ i < N, (y i).2 = ((x i).1.2, (x i).1.1) := by
  unfold overlapped
  rw [comp_ends (weighed_laws hn) (carry_laws overlap_laws)]
  refine exists_congr fun x => ?_
  constructor
  · rintro ⟨g, h1, h2, h3⟩
    rw [carry_ends overlap_laws] at h3
    refine ⟨h1, h3.1.congr overlap_laws (fun i hi => by rw [← Option.some.inj (h2 i hi)]) fun _ _ => rfl, fun i hi => ?_⟩
    rw [h3.2 i hi, ← Option.some.inj (h2 i hi)]
  · rintro ⟨h1, h2, h3⟩
    exact ⟨fun i => ((x i).2, ((x i).1.2, (x i).1.1)), h1, fun _ _ => rfl, (carry_ends overlap_laws).2 ⟨h2, h3⟩⟩

theorem scored_laws (hn : 2 ≤ N) : (scored clu coord p len points).Laws N :=
  comp_laws (overlapped_laws hn) helpers_laws

theorem id_ends {I O Q : Type} [Nonempty O] {A : Stage I O} {B : Stage O Q} (hA : A.Laws n) (hB : B.Laws n) {f : Nat → I} {y : Nat → Q} :
    (comp A (fun _ x => some x) B).Ends n f y ↔ ∃ x, A.Ends n f x ∧ B.Ends n x y := by
  rw [comp_ends hA hB]
  refine exists_congr fun x => ?_
  constructor
  · rintro ⟨g, h1, h2, h3⟩
    exact ⟨h1, h3.congr hB (fun i hi => (Option.some.inj (h2 i hi)).symm) fun _ _ => rfl⟩
  · rintro ⟨h1, h2⟩
    exact ⟨x, h1, fun _ _ => rfl, h2⟩

theorem scoring_laws (hn : 2 ≤ N) : (scoring clu coord p len points).Laws N :=
  comp_laws (scored_laws hn) (ring_laws hn)

theorem scored_overlapped (hn : 2 ≤ N) {stores : Nat → List Trans} {qs : Nat → NodeQuestions} {it nodes qn es edges tr deg wt m cnt ov job par sub}
    (h : Scored clu coord p len points stores qs it nodes qn es edges tr deg wt m cnt ov job par sub) :
    (overlapped clu coord p len points).Ends N (fun i => (stores i, qs i)) (fun i => (job i, Weights.rotated wt i, Weights.rotated deg i)) := by
  refine (overlapped_ends hn).2 ⟨fun i => ((Weights.rotated deg i, Weights.rotated wt i), (tr.store i, cnt i)), ?_,
    overlap_ends.2 ⟨ov, h.overlap, h.overlapped⟩, fun _ _ => rfl⟩
  refine (weighed_ends hn).2 ⟨fun i => (tr.store i, edges i), ?_, m, cnt, fun i hi => ⟨h.resultLength i hi, h.count i hi, ?_, ?_, rfl⟩⟩
  · refine (transposed_ends hn).2 ⟨fun i => (qn.nfn i, NodeEst.nodesOf (nodes i)), ?_, es, tr, h.connect, ?_, h.transposed,
      fun j hj => by rw [h.sorted j hj]⟩
    · exact (exchange_ends hn).2 ⟨it, nodes, qn, h.inter, h.interDone, h.estimate, h.exchange, h.exchanged, fun _ _ => rfl⟩
    · obtain ⟨pl, t1, t2, t3⟩ := h.transposition
      exact ⟨pl, t1, fun i hi => by show Transposition.assignEdges N pl (Transposition.sortEdges (es i)) = _; rw [← h.sorted i hi]; exact t2 i hi, t3⟩
  · unfold Weights.rotated
    rw [over_processed hn h.degrees h.degreesPay hi (h.degreesDone i hi), h.degreesPay i hi]
  · unfold Weights.rotated
    rw [over_processed hn h.weights h.weightsPay hi (h.weightsDone i hi), h.weightsPay i hi]

/-- **The overlapping stages end exactly as the stages of `Cluster.Scored` one after the other.** -/
theorem scoring_ends (hn : 2 ≤ N) {f : Nat → List Trans × NodeQuestions} {y : Nat → Nat → Option (List ℚ × Bool)} :
    (scoring clu coord p len points).Ends N f y ↔ ∃ it nodes qn es edges tr deg wt m cnt ov job par sub,
      Scored clu coord p len points (fun i => (f i).1) (fun i => (f i).2) it nodes qn es edges tr deg wt m cnt ov job par sub ∧
      ∀ i < N, y i = SubScores.subscores sub i := by
  unfold scoring scored
  have hS : (scores N).Laws N := ring_laws hn
  rw [id_ends (comp_laws (overlapped_laws hn) helpers_laws) hS]
  constructor
  · rintro ⟨z, h1, h2⟩
    rw [id_ends (overlapped_laws hn) helpers_laws] at h1
    obtain ⟨w, h1, h3⟩ := h1
    obtain ⟨x, h1, h4, h5⟩ := (overlapped_ends hn).1 h1
    obtain ⟨v, h1, m, cnt, h6⟩ := (weighed_ends hn).1 h1
    obtain ⟨u, h1, es, tr, h7, h8, h9, h10⟩ := (transposed_ends hn).1 h1
    obtain ⟨it, nodes, qn, h11, h12, h13, h14, h15, h16⟩ := (exchange_ends hn).1 h1
    obtain ⟨par, h17⟩ := helpers_ends.1 h3
    obtain ⟨deg, d1, d2, d3⟩ := ring_over hn (fun j => Weights.nodeDegrees (Transposition.sortEdges (es j)))
    obtain ⟨wt, e1, e2, e3⟩ := ring_over hn (fun j => Weights.edgeWeight (tr.store j))
    obtain ⟨sub, s1, s2, s3⟩ := ring_over hn z
    have h4' := h4.congr overlap_laws (g := fun i => (tr.store i, cnt i)) (z := fun i => (w i).1)
      (fun i hi => by rw [(h6 i hi).2.2.2.2, h10 i hi]) fun _ _ => rfl
    obtain ⟨ov, o1, o2⟩ := overlap_ends.1 h4'
    have hw : ∀ i < N, (w i).2 = (Weights.rotated wt i, Weights.rotated deg i) := by
      intro i hi
      rw [h5 i hi, (h6 i hi).2.2.1, (h6 i hi).2.2.2.1]
      unfold Weights.rotated
      rw [over_processed hn d1 d2 hi (d3 i hi), over_processed hn e1 e2 hi (e3 i hi), d2 i hi, e2 i hi, h10 i hi,
        ringMsgs_congr hn (g := fun j => Weights.nodeDegrees (Transposition.sortEdges (es j))) (fun j hj => by rw [h10 j hj]),
        ringMsgs_congr hn (g := fun j => Weights.edgeWeight (tr.store j)) (fun j hj => by rw [h10 j hj])]
    refine ⟨it, nodes, qn, es, fun j => Transposition.sortEdges (es j), tr, deg, wt, m, cnt, ov, fun i => (w i).1, par, sub, ?_, ?_⟩
    · exact {
        inter := h11
        interDone := h12
        estimate := h13
        exchange := h14
        exchanged := h15
        connect := fun j hj => by have := h7 j hj; rwa [h16 j hj] at this
        sorted := fun _ _ => rfl
        transposition := h8
        transposed := h9
        degrees := d1
        degreesPay := d2
        degreesDone := d3
        weights := e1
        weightsPay := e2
        weightsDone := e3
        resultLength := fun i hi => (h6 i hi).1
        count := fun i hi => by have := (h6 i hi).2.1; rwa [h10 i hi] at this
        overlap := o1
        overlapped := o2
        threads := fun i hi => by
          obtain ⟨s0, ⟨sl, j1, j2⟩, j3, j4⟩ := h17 i hi
          rw [hw i hi] at j2
          exact ⟨sl, s0, j1, j2, j3, by rw [s2 i hi]; exact j4⟩
        scores := s1
        scoresDone := s3 }
    · intro i hi
      rw [(ring_ends hn).1 h2 i hi]
      unfold SubScores.subscores
      rw [over_processed hn s1 s2 hi (s3 i hi), s2 i hi]
  · rintro ⟨it, nodes, qn, es, edges, tr, deg, wt, m, cnt, ov, job, par, sub, h, hy⟩
    refine ⟨sub.pay, ?_, (ring_ends hn).2 fun i hi => ?_⟩
    · refine (id_ends (overlapped_laws hn) helpers_laws).2 ⟨fun i => (job i, Weights.rotated wt i, Weights.rotated deg i), ?_,
        helpers_ends.2 ⟨par, fun i hi => ?_⟩⟩
      · exact scored_overlapped hn h
      · obtain ⟨sl, s0, j1, j2, j3, j4⟩ := h.threads i hi
        exact ⟨s0, ⟨sl, j1, j2⟩, j3, j4⟩
    · rw [hy i hi]
      unfold SubScores.subscores
      rw [over_processed hn h.scores (fun _ _ => rfl) hi (h.scoresDone i hi)]

/-- As soon as one node has its scores in a run with overlapping stages, the stages one after the other can deliver them, too. -/
theorem scoring_delivered (hn : 2 ≤ N) {f : Nat → List Trans × NodeQuestions} {s : (scoring clu coord p len points).S}
    (h : (scoring clu coord p len points).Run f s) {i : Nat} {r : Nat → Option (List ℚ × Bool)}
    (hr : (scoring clu coord p len points).out s i = some r) : i < N ∧ ∃ it nodes qn es edges tr deg wt m cnt ov job par sub,
      Scored clu coord p len points (fun i => (f i).1) (fun i => (f i).2) it nodes qn es edges tr deg wt m cnt ov job par sub ∧
      r = SubScores.subscores sub i := by
  obtain ⟨y, h1, hi, rfl⟩ := comp_ring_delivered hn (scored_laws hn) h hr
  obtain ⟨it, nodes, qn, es, edges, tr, deg, wt, m, cnt, ov, job, par, sub, h2, h3⟩ := (scoring_ends hn).1 h1
  exact ⟨hi, it, nodes, qn, es, edges, tr, deg, wt, m, cnt, ov, job, par, sub, h2, h3 i hi⟩

end
end Joint
end S2G
