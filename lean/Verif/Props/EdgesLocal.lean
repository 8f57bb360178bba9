import Verif.Props.Edges
import Verif.Props.SegmentationLocal
import Mathlib.Tactic.Ring

/-!
# The nodes of one step at one of several cluster nodes

A step crosses at most half of the circle, therefore the crossed segments owned by one cluster node are consecutive in
the direction of travel, and with at least two cluster nodes they never contain the start of the circle in between.
-/

namespace S2G
namespace Edges

theorem owner_iff {p : Parameters} (hp : p.WellFormed) {j : Nat} (hj : j < p.nClusterNodes) (s : Nat) :
    owner p s = j ↔ j * (p.rate / p.nClusterNodes) ≤ s ∧
      (j + 1 < p.nClusterNodes → s < (j + 1) * (p.rate / p.nClusterNodes)) := by
  rw [← Parameters.C01_owner_block hp hj, assign_owner hp]
  simp

/-- An interval of consecutive numbers consists of a part below, a part inside and a part above a given interval. -/
theorem range'_split (P : Nat → Prop) [DecidablePred P] (hconv : ∀ s t u, s ≤ t → t ≤ u → P s → P u → P t) (a n : Nat) :
    ∃ u m w, u + m + w = n ∧ (List.range' a n).filter (fun s => decide (P s)) = List.range' (a + u) m ∧
      (m = 0 → w = 0) ∧
      (∀ s ∈ List.range' a u, ¬ P s) ∧ ∀ s ∈ List.range' (a + u + m) w, ¬ P s := by
  induction n with
  | zero => exact ⟨0, 0, 0, rfl, rfl, fun _ => rfl, by simp, by simp⟩
  | succ n ih =>
    obtain ⟨u, m, w, h1, h2, h3, h4, h5⟩ := ih
    rw [List.range'_concat, List.filter_append, h2, Nat.one_mul]
    by_cases hP : P (a + n)
    · rcases Nat.eq_zero_or_pos m with hm | hm
      · have hw := h3 hm
        subst hm
        subst hw
        refine ⟨u, 1, 0, by omega, ?_, by omega, h4, by simp⟩
        simp [hP]
        omega
      · have hw : w = 0 := by
          by_contra hw
          refine h5 (a + u + m) (by rw [List.mem_range'_1]; omega) ?_
          have hin : a + u ∈ List.range' (a + u) m := by rw [List.mem_range'_1]; omega
          rw [← h2, List.mem_filter] at hin
          exact hconv _ _ _ (by omega) (by omega) (of_decide_eq_true hin.2) hP
        subst hw
        refine ⟨u, m + 1, 0, by omega, ?_, by omega, h4, by simp⟩
        rw [List.range'_concat]
        simp [hP]
        omega
    · rcases Nat.eq_zero_or_pos m with hm | hm
      · have hw := h3 hm
        subst hm
        subst hw
        refine ⟨u + 1, 0, 0, by omega, by simp [hP], fun _ => rfl, ?_, by simp⟩
        intro s hs
        rw [List.range'_concat, List.mem_append] at hs
        rcases hs with hs | hs
        · exact h4 s hs
        · simp only [List.mem_singleton, Nat.one_mul] at hs
          subst hs
          rwa [show a + u = a + n by omega]
      · refine ⟨u, m, w + 1, by omega, by simp [hP], by omega, h4, ?_⟩
        intro s hs
        rw [List.range'_concat, List.mem_append] at hs
        rcases hs with hs | hs
        · exact h5 s hs
        · simp only [List.mem_singleton, Nat.one_mul] at hs
          subst hs
          rwa [show a + u + m + w = a + n by omega]

theorem range'_three (a u m w : Nat) :
    List.range' a (u + m + w) = List.range' a u ++ List.range' (a + u) m ++ List.range' (a + u + m) w := by
  rw [List.range'_append_1, Nat.add_assoc a u m, List.range'_append_1]

theorem owner_convex {p : Parameters} {j : Nat} (s t u : Nat) (h1 : s ≤ t) (h2 : t ≤ u) (hs : owner p s = j)
    (hu : owner p u = j) : owner p t = j := by
  unfold owner at *
  have a1 : s / (p.rate / p.nClusterNodes) ≤ t / (p.rate / p.nClusterNodes) := Nat.div_le_div_right h1
  have a2 : t / (p.rate / p.nClusterNodes) ≤ u / (p.rate / p.nClusterNodes) := Nat.div_le_div_right h2
  omega

/-- No cluster node of several owns segments on both sides of the wrap-around of a step. -/
theorem not_both_sides {p : Parameters} (hp : p.WellFormed) (hn : 2 ≤ p.nClusterNodes) {f t : Nat} (hf : f < p.rate)
    (hh : 2 * (p.rate - f + t) ≤ p.rate) {j s s' : Nat} (hj : j < p.nClusterNodes) (h1 : owner p s = j) (hs : s ≤ t)
    (h2 : owner p s' = j) (hs' : f ≤ s') : False := by
  obtain ⟨a1, -⟩ := (owner_iff hp hj s).1 h1
  obtain ⟨-, b2⟩ := (owner_iff hp hj s').1 h2
  have hdiv := Nat.div_add_mod p.rate p.nClusterNodes
  have hmod := Nat.mod_lt p.rate (show 0 < p.nClusterNodes by omega)
  have hspn := Parameters.spn_pos hp
  generalize p.rate / p.nClusterNodes = spn at *
  generalize p.rate % p.nClusterNodes = r at *
  by_cases hl : j + 1 < p.nClusterNodes
  · have b2 := b2 hl
    rw [Nat.add_mul, Nat.one_mul] at b2
    have : 2 * spn ≤ p.nClusterNodes * spn := Nat.mul_le_mul_right _ hn
    generalize p.nClusterNodes * spn = A at *
    generalize j * spn = B at *
    omega
  · obtain ⟨m, hm⟩ : ∃ m, p.nClusterNodes = m + 2 := ⟨p.nClusterNodes - 2, by omega⟩
    obtain ⟨q, hq⟩ : ∃ q, spn = q + 1 := ⟨spn - 1, by omega⟩
    have hj' : j = m + 1 := by omega
    rw [hj', hq] at a1
    rw [hm, hq] at hdiv
    rw [hm] at hmod
    have e1 : (m + 1) * (q + 1) = m * q + m + q + 1 := by ring
    have e2 : (m + 2) * (q + 1) = m * q + m + 2 * q + 2 := by ring
    rw [e1] at a1
    rw [e2] at hdiv
    have := Nat.zero_le (m * q)
    generalize m * q = X at *
    omega

/-- The segments of a step owned by node `j` of several nodes are consecutive numbers and consecutive in the direction
of travel. -/
theorem own_segs {p : Parameters} (hp : p.WellFormed) (hn : 2 ≤ p.nClusterNodes) (t : Trans) (hf : t.src.seg < p.rate)
    (ht : t.dst.seg < p.rate) (hv : t.isValid p.rate = true) {j : Nat} (hj : j < p.nClusterNodes) :
    ∃ x m pre post, (t.intersectionSegments p.rate).filter (fun s => owner p s = j) = List.range' x m ∧
      t.intersectionSegments p.rate = pre ++ List.range' x m ++ post := by
  rcases segs_range t hf ht hv with ⟨-, h2⟩ | ⟨h1, h2, h3⟩
  · rw [h2]
    obtain ⟨u, m, w, e1, e2, -, -, -⟩ := range'_split (fun s => owner p s = j) (fun s t u => owner_convex s t u)
      (t.src.seg + 1) (t.dst.seg - t.src.seg)
    refine ⟨_, m, List.range' (t.src.seg + 1) u, List.range' (t.src.seg + 1 + u + m) w, e2, ?_⟩
    rw [← e1, range'_three]
  · rw [h2, List.filter_append]
    obtain ⟨u, m, w, e1, e2, -, -, -⟩ := range'_split (fun s => owner p s = j) (fun s t u => owner_convex s t u)
      (t.src.seg + 1) (p.rate - 1 - t.src.seg)
    obtain ⟨u', m', w', e1', e2', -, -, -⟩ := range'_split (fun s => owner p s = j) (fun s t u => owner_convex s t u)
      0 (t.dst.seg + 1)
    rw [e2, e2']
    rcases Nat.eq_zero_or_pos m with hm | hm
    · refine ⟨0 + u', m', List.range' (t.src.seg + 1) (p.rate - 1 - t.src.seg) ++ List.range' 0 u',
        List.range' (0 + u' + m') w', by simp [hm], ?_⟩
      rw [← e1', range'_three, List.append_assoc, List.append_assoc, List.append_assoc]
    · have hm' : m' = 0 := by
        by_contra hm'
        have i1 : t.src.seg + 1 + u ∈ List.range' (t.src.seg + 1 + u) m := by rw [List.mem_range'_1]; omega
        have i2 : 0 + u' ∈ List.range' (0 + u') m' := by rw [List.mem_range'_1]; omega
        rw [← e2, List.mem_filter] at i1
        rw [← e2', List.mem_filter, List.mem_range'_1] at i2
        exact not_both_sides hp hn hf h3 hj (of_decide_eq_true i2.2) (by omega) (of_decide_eq_true i1.2) (by omega)
      refine ⟨t.src.seg + 1 + u, m, List.range' (t.src.seg + 1) u,
        List.range' (t.src.seg + 1 + u + m) w ++ List.range' 0 (t.dst.seg + 1), by simp [hm'], ?_⟩
      rw [← e1, range'_three, ← List.append_assoc]

/-- The nodes of one step at node `j` of several nodes: the edges are the path through them in direction of travel. -/
theorem stepEdges_own {p : Parameters} (hp : p.WellFormed) (hn : 2 ≤ p.nClusterNodes) (t : Trans)
    (hf : t.src.seg < p.rate) (ht : t.dst.seg < p.rate) (hv : t.isValid p.rate = true) {j : Nat}
    (hj : j < p.nClusterNodes) (lab : Nat → Nat → Nat) (prev : Option Node) {nodes : List Node} (hne : nodes ≠ [])
    (hperm : nodes.Perm ((stepWalk p.rate lab t).filter (fun v => owner p v.seg = j)))
    (hs : nodes.Pairwise (fun v w => v.seg ≤ w.seg)) :
    stepEdges prev nodes = some (((stepWalk p.rate lab t).filter (fun v => owner p v.seg = j)).getLast?,
      pairs (prev.toList ++ (stepWalk p.rate lab t).filter (fun v => owner p v.seg = j))) := by
  obtain ⟨x, m, pre, post, h1, -⟩ := own_segs hp hn t hf ht hv hj
  have hw : (stepWalk p.rate lab t).filter (fun v => owner p v.seg = j) =
      (List.range' x m).map (node lab t.src.id) := by
    unfold stepWalk
    rw [List.filter_map, ← h1]
    rfl
  rw [hw] at hperm ⊢
  have := eq_of_sorted hperm hs (sorted_range' _ _ _ _)
  rw [this] at hne ⊢
  exact stepEdges_contig' prev hne (contig_range' _ _ _ _)

/-- The crash of C40: the first step leaves the last but one segment over the start of the circle, on one node. -/
def CrashStep (p : Parameters) (t : Trans) : Prop :=
  p.nClusterNodes = 1 ∧ t.src.seg + 2 = p.rate ∧ t.dst.seg < t.src.seg

/-- The part of a walk owned by node `j`. -/
def own (p : Parameters) (j : Nat) (l : List Node) : List Node := l.filter (fun v => owner p v.seg = j)

theorem own_eq_self {p : Parameters} (hp : p.WellFormed) (hn : p.nClusterNodes = 1) {j : Nat}
    (hj : j < p.nClusterNodes) (l : List Node) : own p j l = l := by
  unfold own
  rw [List.filter_eq_self]
  intro v _
  have := owner_lt hp v.seg
  simp
  omega

theorem own_infix {p : Parameters} (hp : p.WellFormed) (t : Trans) (hf : t.src.seg < p.rate) (ht : t.dst.seg < p.rate)
    (hv : t.isValid p.rate = true) {j : Nat} (hj : j < p.nClusterNodes) (lab : Nat → Nat → Nat) :
    ∃ pre post, stepWalk p.rate lab t = pre ++ own p j (stepWalk p.rate lab t) ++ post := by
  by_cases hn : p.nClusterNodes = 1
  · rw [own_eq_self hp hn hj]
    exact ⟨[], [], by simp⟩
  · have := hp.1
    obtain ⟨x, m, pre, post, h1, h2⟩ := own_segs hp (by omega) t hf ht hv hj
    refine ⟨pre.map (node lab t.src.id), post.map (node lab t.src.id), ?_⟩
    have : own p j (stepWalk p.rate lab t) = (List.range' x m).map (node lab t.src.id) := by
      unfold own stepWalk
      rw [List.filter_map, ← h1]
      rfl
    rw [this, ← List.map_append, ← List.map_append, ← h2]
    rfl

theorem stepEdges_node {p : Parameters} (hp : p.WellFormed) (t : Trans) (hf : t.src.seg < p.rate)
    (ht : t.dst.seg < p.rate) (hv : t.isValid p.rate = true) {j : Nat} (hj : j < p.nClusterNodes)
    (lab : Nat → Nat → Nat) (prev : Option Node) {nodes : List Node} (hne : nodes ≠ [])
    (hperm : nodes.Perm (own p j (stepWalk p.rate lab t))) (hs : nodes.Pairwise (fun v w => v.seg ≤ w.seg)) :
    (prev = none ∧ CrashStep p t → stepEdges prev nodes = none) ∧
    (¬ (prev = none ∧ CrashStep p t) → stepEdges prev nodes = some ((own p j (stepWalk p.rate lab t)).getLast?,
      pairs (prev.toList ++ own p j (stepWalk p.rate lab t)))) := by
  by_cases hn : p.nClusterNodes = 1
  · rw [own_eq_self hp hn hj] at hperm ⊢
    rw [stepEdges_walk t hf ht hv lab prev hperm hs]
    have hl : (stepWalk p.rate lab t).getLast? = some (node lab t.src.id t.dst.seg) := by
      obtain ⟨k, -, -, -, h⟩ := Trans.C30_segments t hf ht hv
      rw [stepWalk, List.getLast?_map, h]
      rfl
    constructor
    · rintro ⟨h1, -, h2, h3⟩
      rw [if_pos ⟨h1, h2, h3⟩]
    · intro h
      rw [if_neg (fun c => h ⟨c.1, hn, c.2⟩), hl]
  · have := hp.1
    refine ⟨fun h => absurd h.2.1 hn, fun _ => ?_⟩
    exact stepEdges_own hp (by omega) t hf ht hv hj lab prev hne hperm hs

/-! ### Visiting the nodes of a walk one by one -/

/-- Visiting one node: an edge from the previous node, and an edge to the foreign successor if there is one. -/
def visit (nxt : Node → Option Node) (s : Option Node × List Edge) (x : Node) : Option Node × List Edge :=
  match nxt x with
  | some y => (none, s.2 ++ (s.1.map (fun v => (⟨v, x⟩ : Edge))).toList ++ [⟨x, y⟩])
  | none => (some x, s.2 ++ (s.1.map (fun v => (⟨v, x⟩ : Edge))).toList)

theorem pairs_prev (prev : Option Node) (x : Node) (l : List Node) :
    pairs (prev.toList ++ x :: l) = (prev.map (fun v => (⟨v, x⟩ : Edge))).toList ++ pairs (x :: l) := by
  cases prev <;> rfl

/-- Visiting a block of nodes of which only the last one can have a foreign successor. -/
theorem foldl_visit_block (nxt : Node → Option Node) (x : Node) (l : List Node) (prev : Option Node) (es : List Edge)
    (h : ∀ a v w b, x :: l = a ++ v :: w :: b → nxt v = none) :
    (x :: l).foldl (visit nxt) (prev, es) =
      visit nxt (none, es ++ pairs (prev.toList ++ x :: l)) ((x :: l).getLast (by simp)) := by
  induction l generalizing x prev es with
  | nil =>
    rw [pairs_prev]
    simp only [List.foldl_cons, List.foldl_nil, List.getLast_singleton, pairs, List.append_nil]
    unfold visit
    cases nxt x <;> simp
  | cons y l ih =>
    rw [List.foldl_cons]
    have h0 : visit nxt (prev, es) x = (some x, es ++ (prev.map (fun v => (⟨v, x⟩ : Edge))).toList) := by
      unfold visit
      rw [h [] x y l rfl]
    rw [h0, ih y _ _ (fun a v w b e => h (x :: a) v w b (by rw [e]; rfl)), List.append_assoc, pairs_prev prev]
    rfl

/-- Visiting the own nodes of a walk with the foreign successors known yields the own consecutive pairs. -/
theorem foldl_visit_walk {p : Parameters} {j : Nat} (nxt : Node → Option Node) (S : List Node) :
    ∀ (prev : Option Node) (es : List Edge),
    (∀ A x B, S = A ++ x :: B → owner p x.seg = j → nxt x = B.head?.filter (fun y => owner p y.seg ≠ j)) →
    (∀ v ∈ prev, owner p v.seg = j ∧ ∀ x ∈ S.head?, owner p x.seg = j) →
    ((own p j S).foldl (visit nxt) (prev, es)).2 =
      es ++ (pairs (prev.toList ++ S)).filter (fun e => owner p e.src.seg = j) := by
  induction S with
  | nil =>
    intro prev es _ _
    cases prev <;> simp [own, pairs]
  | cons x S ih =>
    intro prev es hn hprev
    have hn' : ∀ A y B, S = A ++ y :: B → owner p y.seg = j → nxt y = B.head?.filter (fun y => owner p y.seg ≠ j) :=
      fun A y B e => hn (x :: A) y B (by rw [e]; rfl)
    by_cases hx : owner p x.seg = j
    · have hown : own p j (x :: S) = x :: own p j S := by simp [own, hx]
      rw [hown, List.foldl_cons]
      have hnx := hn [] x S rfl hx
      have hfst : ((prev.map (fun v => (⟨v, x⟩ : Edge))).toList).filter (fun e => owner p e.src.seg = j) =
          (prev.map (fun v => (⟨v, x⟩ : Edge))).toList := by
        rw [List.filter_eq_self]
        intro e he
        cases prev with
        | none => simp at he
        | some v =>
          simp only [Option.map_some, Option.toList_some, List.mem_singleton] at he
          subst he
          simpa using (hprev v rfl).1
      rw [pairs_prev, List.filter_append, hfst]
      cases S with
      | nil =>
        have h0 : visit nxt (prev, es) x = (some x, es ++ (prev.map (fun v => (⟨v, x⟩ : Edge))).toList) := by
          unfold visit
          rw [hnx]; rfl
        rw [h0]
        simp [own, pairs]
      | cons y S =>
        by_cases hy : owner p y.seg = j
        · have h0 : visit nxt (prev, es) x = (some x, es ++ (prev.map (fun v => (⟨v, x⟩ : Edge))).toList) := by
            unfold visit
            rw [hnx, List.head?_cons, Option.filter_some, if_neg (by simpa using hy)]
          rw [h0, ih _ _ hn' (by
            intro v hv
            cases hv
            refine ⟨hx, ?_⟩
            intro z hz
            cases hz
            exact hy)]
          rw [List.append_assoc]
          rfl
        · have h0 : visit nxt (prev, es) x =
              (none, es ++ (prev.map (fun v => (⟨v, x⟩ : Edge))).toList ++ [⟨x, y⟩]) := by
            unfold visit
            rw [hnx, List.head?_cons, Option.filter_some, if_pos (by simpa using hy)]
          rw [h0, ih _ _ hn' (by simp)]
          simp [pairs, hx]
    · have hown : own p j (x :: S) = own p j S := by simp [own, hx]
      have hnone : prev = none := by
        cases prev with
        | none => rfl
        | some v => exact absurd ((hprev v rfl).2 x rfl) hx
      subst hnone
      rw [hown, ih none es hn' (by simp)]
      cases S with
      | nil => simp [pairs]
      | cons y S => simp [pairs, hx]

/-! ### The whole series -/

/-- Specification: the nodes visited by a series of steps, in temporal order and in direction of travel. -/
def walk (rate : Nat) (lab : Nat → Nat → Nat) (ts : List Trans) : List Node := ts.flatMap (stepWalk rate lab)

/-- What node `j` knows before edge estimation: its nodes of every step in ascending order of segments. -/
def LocalNodes (p : Parameters) (lab : Nat → Nat → Nat) (ts : List Trans) (j : Nat) (nodesOf : Nat → List Node) : Prop :=
  (∀ t ∈ ts, (nodesOf t.src.id).Perm (own p j (stepWalk p.rate lab t)) ∧
    (nodesOf t.src.id).Pairwise (fun v w => v.seg ≤ w.seg)) ∧
  ∀ pid, (∀ t ∈ ts, t.src.id ≠ pid) → nodesOf pid = []

/-- The foreign successors node `j` knows are exactly the successors in the walk which are owned by other nodes. -/
def Answered (p : Parameters) (W : List Node) (j : Nat) (nfn : Nat × Nat → Option Node) : Prop :=
  ∀ A x B, W = A ++ x :: B → owner p x.seg = j →
    nfn (x.fromId, x.seg) = B.head?.filter (fun y => owner p y.seg ≠ j)

/-- Valid steps on the circle, in temporal order, before `len`. -/
structure Steps (rate len : Nat) (ts : List Trans) : Prop where
  valid : ∀ t ∈ ts, t.src.seg < rate ∧ t.dst.seg < rate ∧ t.isValid rate = true
  sorted : ts.Pairwise (fun t u => t.src.id < u.src.id)
  bound : ∀ t ∈ ts, t.src.id < len

theorem stepWalk_fromId {rate : Nat} {lab : Nat → Nat → Nat} {t : Trans} {v : Node} (h : v ∈ stepWalk rate lab t) :
    v.fromId = t.src.id := by
  obtain ⟨s, _, rfl⟩ := List.mem_map.1 h
  rfl

theorem follow_visit {c : Conn} {nxt : Node → Option Node} {x : Node} {es : List Edge} {pid : Nat}
    (h : c.nfn (pid, x.seg) = nxt x) :
    ((Conn.follow ⟨some x, es, c.nfn⟩ pid).prev, (Conn.follow ⟨some x, es, c.nfn⟩ pid).edges) =
      visit nxt (none, es) x := by
  unfold Conn.follow visit
  simp only [h]
  cases nxt x <;> simp

theorem follow_nfn (c : Conn) (pid : Nat) (k : Nat × Nat) (hk : k.1 ≠ pid) : (Conn.follow c pid).nfn k = c.nfn k := by
  unfold Conn.follow
  split
  · split
    · have : ∀ s, k ≠ (pid, s) := by rintro s rfl; exact hk rfl
      simp [this]
    · rfl
  · rfl

/-- One point with own nodes is the visit of these nodes one by one. -/
theorem point_visit {p : Parameters} (hp : p.WellFormed) {t : Trans} (hf : t.src.seg < p.rate)
    (ht : t.dst.seg < p.rate) (hv : t.isValid p.rate = true) {j : Nat} (hj : j < p.nClusterNodes)
    (lab : Nat → Nat → Nat) {nodes : List Node} (hperm : nodes.Perm (own p j (stepWalk p.rate lab t)))
    (hs : nodes.Pairwise (fun v w => v.seg ≤ w.seg)) (c : Conn) {A S : List Node} {nxt : Node → Option Node}
    (hn : ∀ A' x B, A ++ stepWalk p.rate lab t ++ S = A' ++ x :: B → owner p x.seg = j →
      ∀ y ∈ nxt x, B.head? = some y ∧ owner p y.seg ≠ j)
    (hnfn : ∀ x ∈ stepWalk p.rate lab t, c.nfn (t.src.id, x.seg) = nxt x)
    (hc : ¬ (c.prev = none ∧ CrashStep p t)) :
    ∃ c', c.point t.src.id nodes = some c' ∧ (∀ k : Nat × Nat, k.1 ≠ t.src.id → c'.nfn k = c.nfn k) ∧
      (c'.prev, c'.edges) = (own p j (stepWalk p.rate lab t)).foldl (visit nxt) (c.prev, c.edges) := by
  by_cases hne : nodes = []
  · subst hne
    have := List.nil_perm.1 hperm
    refine ⟨c, rfl, fun _ _ => rfl, ?_⟩
    rw [this]
    rfl
  · have hse := (stepEdges_node hp t hf ht hv hj lab c.prev hne hperm hs).2 hc
    obtain ⟨pre, post, hin⟩ := own_infix hp t hf ht hv hj lab
    have hmem : ∀ v ∈ own p j (stepWalk p.rate lab t), v ∈ stepWalk p.rate lab t ∧ owner p v.seg = j := by
      intro v hv
      have := List.mem_filter.1 hv
      exact ⟨this.1, of_decide_eq_true this.2⟩
    have hblock : ∀ a v w b, own p j (stepWalk p.rate lab t) = a ++ v :: w :: b → nxt v = none := by
      intro a v w b e
      have hv := hmem v (by rw [e]; simp)
      have hw := hmem w (by rw [e]; simp)
      cases hnv : nxt v with
      | none => rfl
      | some y =>
        obtain ⟨h1, h2⟩ := hn (A ++ pre ++ a) v (w :: b ++ post ++ S) (by rw [hin, e]; simp) hv.2 y hnv
        cases h1
        exact absurd hw.2 h2
    rcases ho : own p j (stepWalk p.rate lab t) with _ | ⟨x, l⟩
    · rw [ho] at hperm
      exact absurd (List.perm_nil.1 hperm) hne
    · rw [ho] at hse hblock hmem
      have hlast := hmem _ (List.getLast_mem (show x :: l ≠ [] by simp))
      refine ⟨Conn.follow ⟨some ((x :: l).getLast (by simp)), c.edges ++ pairs (c.prev.toList ++ x :: l), c.nfn⟩ t.src.id,
        ?_, ?_, ?_⟩
      · unfold Conn.point
        rw [if_neg (by simpa using hne), hse, List.getLast?_eq_some_getLast (by simp)]
        rfl
      · intro k hk
        exact follow_nfn _ _ _ hk
      · rw [foldl_visit_block nxt x l c.prev c.edges hblock]
        exact follow_visit (hnfn _ hlast.1)

theorem foldlM_visit {p : Parameters} (hp : p.WellFormed) {j : Nat} (hj : j < p.nClusterNodes) (lab : Nat → Nat → Nat)
    {nxt : Node → Option Node} {nodesOf : Nat → List Node} (m : Nat) :
    ∀ (a : Nat) (ts : List Trans) (c : Conn) (A : List Node), Steps p.rate (a + m) ts → (∀ t ∈ ts, a ≤ t.src.id) →
    (∀ t ∈ ts, (nodesOf t.src.id).Perm (own p j (stepWalk p.rate lab t)) ∧
      (nodesOf t.src.id).Pairwise (fun v w => v.seg ≤ w.seg)) →
    (∀ pid, a ≤ pid → (∀ t ∈ ts, t.src.id ≠ pid) → nodesOf pid = []) →
    (∀ A' x B, A ++ walk p.rate lab ts = A' ++ x :: B → owner p x.seg = j →
      ∀ y ∈ nxt x, B.head? = some y ∧ owner p y.seg ≠ j) →
    (∀ x ∈ walk p.rate lab ts, c.nfn (x.fromId, x.seg) = nxt x) →
    (c.prev = none → ∀ t ∈ ts.head?, ¬ CrashStep p t) →
    ∃ c', (List.range' a m).foldlM (fun c pid => c.point pid (nodesOf pid)) c = some c' ∧
      (c'.prev, c'.edges) = (own p j (walk p.rate lab ts)).foldl (visit nxt) (c.prev, c.edges) := by
  induction m with
  | zero =>
    intro a ts c A hst hge _ _ _ _ _
    have : ts = [] := by
      rw [List.eq_nil_iff_forall_not_mem]
      intro t ht
      have := hst.bound t ht
      have := hge t ht
      omega
    subst this
    exact ⟨c, rfl, rfl⟩
  | succ m ih =>
    intro a ts c A hst hge hnodes hempty hn hnfn hcrash
    rw [List.range'_succ, List.foldlM_cons]
    by_cases hhead : ∃ t ts', ts = t :: ts' ∧ t.src.id = a
    · obtain ⟨t, ts', rfl, hid⟩ := hhead
      have hsorted := List.pairwise_cons.1 hst.sorted
      obtain ⟨hf, ht, hv⟩ := hst.valid t (by simp)
      have hwalk : walk p.rate lab (t :: ts') = stepWalk p.rate lab t ++ walk p.rate lab ts' := by
        simp [walk]
      rw [hwalk] at hnfn hn
      obtain ⟨c1, h1, h2, h3⟩ := point_visit hp hf ht hv hj lab (hnodes t (by simp)).1 (hnodes t (by simp)).2 c
        (A := A) (S := walk p.rate lab ts') (by rw [List.append_assoc]; exact hn) (by
          intro x hx
          rw [← stepWalk_fromId hx]
          exact hnfn x (List.mem_append_left _ hx)) (fun h => hcrash h.1 t rfl h.2)
      have hgt : ∀ u ∈ ts', a + 1 ≤ u.src.id := by
        intro u hu
        have := hsorted.1 u hu
        omega
      obtain ⟨c2, h4, h5⟩ := ih (a + 1) ts' c1 (A ++ stepWalk p.rate lab t)
        ⟨fun u hu => hst.valid u (by simp [hu]), hsorted.2, fun u hu => by have := hst.bound u (by simp [hu]); omega⟩
        hgt (fun u hu => hnodes u (by simp [hu]))
        (by
          intro pid hpid hno
          refine hempty pid (by omega) ?_
          intro u hu
          rcases List.mem_cons.1 hu with rfl | hu
          · omega
          · exact hno u hu)
        (by rw [List.append_assoc]; exact hn)
        (by
          intro x hx
          rw [h2]
          · exact hnfn x (List.mem_append_right _ hx)
          · obtain ⟨u, hu, hxu⟩ := List.mem_flatMap.1 hx
            have := stepWalk_fromId hxu
            have := hgt u hu
            simp only
            omega)
        (by
          intro hnone u hu hcr
          -- on one node there is no foreign successor, the previous node stays known
          have hn1 := hcr.1
          rw [own_eq_self hp hn1 hj] at h3
          obtain ⟨s, hs⟩ : ∃ s, (t.intersectionSegments p.rate).getLast? = some s := by
            obtain ⟨_, _, _, _, h⟩ := Trans.C30_segments t hf ht hv
            exact ⟨_, h⟩
          obtain ⟨ys, hys⟩ := List.getLast?_eq_some_iff.1 hs
          have hsw : stepWalk p.rate lab t = ys.map (node lab t.src.id) ++ [node lab t.src.id s] := by
            rw [stepWalk, hys]; simp
          have hx : nxt (node lab t.src.id s) = none := by
            cases hnx : nxt (node lab t.src.id s) with
            | none => rfl
            | some y =>
              have := (hn (A ++ ys.map (node lab t.src.id)) (node lab t.src.id s) (walk p.rate lab ts')
                (by rw [hsw]; simp) (by have := owner_lt hp (node lab t.src.id s).seg; omega) y hnx).2
              have := owner_lt hp y.seg
              omega
          rw [hsw, List.foldl_append, List.foldl_cons, List.foldl_nil] at h3
          have h3 := congrArg Prod.fst h3
          simp only [visit, hx] at h3
          rw [hnone] at h3
          cases h3)
      subst hid
      refine ⟨c2, ?_, ?_⟩
      · rw [h1]
        exact h4
      · rw [h5, h3, hwalk, ← List.foldl_append]
        unfold own
        rw [List.filter_append]
    · have hne : ∀ t ∈ ts, t.src.id ≠ a := by
        intro t ht e
        obtain ⟨l, r, rfl⟩ := List.append_of_mem ht
        cases l with
        | nil => exact hhead ⟨t, r, rfl, e⟩
        | cons u l =>
          have h1 := (List.pairwise_cons.1 hst.sorted).1 t (by simp)
          have := hge u (by simp)
          omega
      rw [hempty a (le_refl _) hne]
      obtain ⟨c2, h4, h5⟩ := ih (a + 1) ts c A
        ⟨hst.valid, hst.sorted, fun u hu => by have := hst.bound u hu; omega⟩
        (fun u hu => by have := hge u hu; have := hne u hu; omega) hnodes
        (fun pid hpid => hempty pid (by omega)) hn hnfn hcrash
      exact ⟨c2, h4, h5⟩

/-- The foreign successors node `j` knows are successors in the walk which are owned by other nodes. -/
def Sound (p : Parameters) (W : List Node) (j : Nat) (nfn : Nat × Nat → Option Node) : Prop :=
  ∀ A x B, W = A ++ x :: B → owner p x.seg = j → ∀ y ∈ nfn (x.fromId, x.seg), B.head? = some y ∧ owner p y.seg ≠ j

theorem Answered.sound {p : Parameters} {W : List Node} {j : Nat} {nfn : Nat × Nat → Option Node}
    (h : Answered p W j nfn) : Sound p W j nfn := by
  intro A x B e ho y hy
  rw [h A x B e ho] at hy
  have := Option.filter_eq_some_iff.1 hy
  exact ⟨this.1, by simpa using this.2⟩

/-- With sound foreign successors edge estimation visits the own nodes of the walk one by one. -/
theorem connect_visit {p : Parameters} (hp : p.WellFormed) {j : Nat} (hj : j < p.nClusterNodes)
    {lab : Nat → Nat → Nat} {len : Nat} {ts : List Trans} (hst : Steps p.rate len ts) {nodesOf : Nat → List Node}
    (hloc : LocalNodes p lab ts j nodesOf) {nfn : Nat × Nat → Option Node}
    (hans : Sound p (walk p.rate lab ts) j nfn) (hcrash : ∀ t ∈ ts.head?, ¬ CrashStep p t) :
    connectNodes len nodesOf nfn = some ((own p j (walk p.rate lab ts)).foldl
      (visit (fun x => nfn (x.fromId, x.seg))) (none, [])).2 := by
  obtain ⟨c, h1, h2⟩ := foldlM_visit hp hj lab (nxt := fun x => nfn (x.fromId, x.seg)) len 0 ts ⟨none, [], nfn⟩ []
    (by rw [Nat.zero_add]; exact hst) (by simp) hloc.1 (fun pid _ => hloc.2 pid) hans (fun _ _ => rfl) (fun _ => hcrash)
  unfold connectNodes
  rw [List.range_eq_range', h1]
  have := congrArg Prod.snd h2
  simp only at this
  simp [this]

/-- Edges created by visiting own nodes start at an own node and end at an own node or at a known foreign successor. -/
theorem foldl_visit_mem {p : Parameters} {j : Nat} (nxt : Node → Option Node) (l : List Node)
    (hl : ∀ x ∈ l, owner p x.seg = j) :
    ∀ (s : Option Node × List Edge), (∀ v ∈ s.1, owner p v.seg = j) →
    ∀ e ∈ (l.foldl (visit nxt) s).2, e ∈ s.2 ∨
      (owner p e.src.seg = j ∧ (owner p e.dst.seg = j ∨ nxt e.src = some e.dst)) := by
  induction l with
  | nil => intro s _ e he; exact Or.inl he
  | cons x l ih =>
    intro s hs e he
    have hx := hl x (by simp)
    have hfirst : ∀ e ∈ (s.1.map (fun v => (⟨v, x⟩ : Edge))).toList, owner p e.src.seg = j ∧ owner p e.dst.seg = j := by
      intro e he
      cases h : s.1 with
      | none => rw [h] at he; cases he
      | some v =>
        rw [h] at he
        simp only [Option.map_some, Option.toList_some, List.mem_singleton] at he
        subst he
        exact ⟨hs v h, hx⟩
    rw [List.foldl_cons] at he
    have key : (∀ v ∈ (visit nxt s x).1, owner p v.seg = j) ∧ ∀ e ∈ (visit nxt s x).2, e ∈ s.2 ∨
        (owner p e.src.seg = j ∧ (owner p e.dst.seg = j ∨ nxt e.src = some e.dst)) := by
      unfold visit
      cases hn : nxt x with
      | none =>
        refine ⟨by intro v hv; cases hv; exact hx, ?_⟩
        intro e he
        rcases List.mem_append.1 he with he | he
        · exact Or.inl he
        · exact Or.inr ⟨(hfirst e he).1, Or.inl (hfirst e he).2⟩
      | some y =>
        refine ⟨fun v hv => (nomatch hv), ?_⟩
        intro e he
        rcases List.mem_append.1 he with he | he
        · rcases List.mem_append.1 he with he | he
          · exact Or.inl he
          · exact Or.inr ⟨(hfirst e he).1, Or.inl (hfirst e he).2⟩
        · simp only [List.mem_singleton] at he
          subst he
          exact Or.inr ⟨hx, Or.inr hn⟩
    rcases ih (fun y hy => hl y (by simp [hy])) _ key.1 e he with h | h
    · exact key.2 e h
    · exact Or.inr h

/-- The edges of node `j`, given its nodes and the foreign successors: the consecutive pairs of the walk which start at
a node owned by `j`, in the order of the walk. -/
theorem connect_walk {p : Parameters} (hp : p.WellFormed) {j : Nat} (hj : j < p.nClusterNodes)
    {lab : Nat → Nat → Nat} {len : Nat} {ts : List Trans} (hst : Steps p.rate len ts) {nodesOf : Nat → List Node}
    (hloc : LocalNodes p lab ts j nodesOf) {nfn : Nat × Nat → Option Node}
    (hans : Answered p (walk p.rate lab ts) j nfn) (hcrash : ∀ t ∈ ts.head?, ¬ CrashStep p t) :
    connectNodes len nodesOf nfn =
      some ((pairs (walk p.rate lab ts)).filter (fun e => owner p e.src.seg = j)) := by
  rw [connect_visit hp hj hst hloc hans.sound hcrash]
  have h3 := foldl_visit_walk (p := p) (j := j) (fun x => nfn (x.fromId, x.seg)) (walk p.rate lab ts) none [] hans (by simp)
  rw [h3]
  rfl

/-- A pair of the walk whose end is owned by another node and unknown to the owner of its start is in nobody's edges. -/
theorem connect_lost {p : Parameters} (hp : p.WellFormed) {j : Nat} (hj : j < p.nClusterNodes)
    {lab : Nat → Nat → Nat} {len : Nat} {ts : List Trans} (hst : Steps p.rate len ts) {nodesOf : Nat → List Node}
    (hloc : LocalNodes p lab ts j nodesOf) {nfn : Nat × Nat → Option Node}
    (hans : Sound p (walk p.rate lab ts) j nfn) (hcrash : ∀ t ∈ ts.head?, ¬ CrashStep p t) {e : Edge}
    (hcross : owner p e.src.seg ≠ owner p e.dst.seg)
    (hno : owner p e.src.seg = j → nfn (e.src.fromId, e.src.seg) = none) :
    ∃ es, connectNodes len nodesOf nfn = some es ∧ e ∉ es := by
  refine ⟨_, connect_visit hp hj hst hloc hans hcrash, ?_⟩
  intro he
  rcases foldl_visit_mem (p := p) (j := j) (fun x => nfn (x.fromId, x.seg)) (own p j (walk p.rate lab ts))
    (by intro x hx; simpa using (List.mem_filter.1 hx).2) _ (by simp) e he with h | ⟨h1, h2 | h2⟩
  · cases h
  · exact hcross (h1.trans h2.symm)
  · rw [hno h1] at h2
    cases h2

end Edges
end S2G
