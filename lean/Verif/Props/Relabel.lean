import Verif.Props.SubScores

/-!
# Scores do not depend on the names of clusters

`vector` is the specification of the scores of a list of edges. It only depends on which nodes are equal, not on the numbers
of the clusters (used for C62, C64).
-/

namespace S2G
namespace Pipeline
open Scoring Weights Edges

/-- Specification of the weight of an edge. -/
def weightOf (E : List Edge) (k : EdgeKey) : Nat := E.countP (fun e => e.edgeKey = k)

/-- Specification of the degree of a node. -/
def degreeOf (E : List Edge) (v : NodeKey) : Nat := degreeSpec (distinct E) v

/-- Specification of the raw score at position `i`. -/
def rawOf (E : List Edge) (q i : Nat) : Option ℚ := rawSpec (weightOf E) (degreeOf E) (windowSpec E 0 q i)

/-- Specification of the score vector of `len` positions before normalisation. -/
def vector (E : List Edge) (q len : Nat) : List ℚ := carrySpec 0 ((List.range len).map (rawOf E q))

/-- Renaming of the nodes of an edge. -/
def Edge.rename (f : Node → Node) (e : Edge) : Edge := ⟨f e.src, f e.dst⟩

/-- All ends of edges. -/
def ends (E : List Edge) : List Node := E.flatMap (fun e => [e.src, e.dst])

theorem mem_ends {E : List Edge} {e : Edge} (he : e ∈ E) : e.src ∈ ends E ∧ e.dst ∈ ends E :=
  ⟨List.mem_flatMap.2 ⟨e, he, by simp⟩, List.mem_flatMap.2 ⟨e, he, by simp⟩⟩

/-- `f` keeps points and equality of nodes. -/
structure Renaming (E : List Edge) (f : Node → Node) : Prop where
  point : ∀ v ∈ ends E, (f v).fromId = v.fromId
  same : ∀ v ∈ ends E, ∀ w ∈ ends E, ((f v).nodeKey = (f w).nodeKey ↔ v.nodeKey = w.nodeKey)

section
variable {E : List Edge} {f : Node → Node}

theorem Renaming.edge (h : Renaming E f) {a b : Edge} (ha : a ∈ E) (hb : b ∈ E) :
    (Edge.rename f a).edgeKey = (Edge.rename f b).edgeKey ↔ a.edgeKey = b.edgeKey := by
  simp only [Edge.rename, Edge.edgeKey, Prod.mk.injEq]
  rw [h.same _ (mem_ends ha).1 _ (mem_ends hb).1, h.same _ (mem_ends ha).2 _ (mem_ends hb).2]

theorem weightOf_rename (h : Renaming E f) {a : Edge} (ha : a ∈ E) :
    weightOf (E.map (Edge.rename f)) (Edge.rename f a).edgeKey = weightOf E a.edgeKey := by
  unfold weightOf
  rw [List.countP_map]
  apply List.countP_congr
  intro e he
  simp only [Function.comp_apply, decide_eq_true_eq]
  exact h.edge he ha

open Classical in
/-- The renaming on keys. -/
noncomputable def keyMap (E : List Edge) (f : Node → Node) (k : NodeKey) : NodeKey :=
  if h : ∃ v ∈ ends E, v.nodeKey = k then (f h.choose).nodeKey else k

theorem keyMap_eq (h : Renaming E f) {v : Node} (hv : v ∈ ends E) : keyMap E f v.nodeKey = (f v).nodeKey := by
  have hex : ∃ w ∈ ends E, w.nodeKey = v.nodeKey := ⟨v, hv, rfl⟩
  unfold keyMap
  rw [dif_pos hex]
  exact (h.same _ hex.choose_spec.1 _ hv).2 hex.choose_spec.2

theorem distinct_rename (h : Renaming E f) :
    (distinct (E.map (Edge.rename f))).Perm ((distinct E).map (fun k => (keyMap E f k.1, keyMap E f k.2))) := by
  have hkey : ∀ e ∈ E, (keyMap E f e.edgeKey.1, keyMap E f e.edgeKey.2) = (Edge.rename f e).edgeKey := by
    intro e he
    have h1 := keyMap_eq h (mem_ends he).1
    have h2 := keyMap_eq h (mem_ends he).2
    simp only [Edge.edgeKey, Edge.rename, h1, h2]
  refine (List.perm_ext_iff_of_nodup (List.nodup_dedup _) ?_).2 ?_
  · refine List.Nodup.map_on ?_ (List.nodup_dedup _)
    intro x hx y hy hxy
    obtain ⟨a, ha, rfl⟩ := List.mem_map.1 (List.mem_dedup.1 hx)
    obtain ⟨b, hb, rfl⟩ := List.mem_map.1 (List.mem_dedup.1 hy)
    rw [hkey a ha, hkey b hb] at hxy
    exact (h.edge ha hb).1 hxy
  · intro x
    unfold distinct
    simp only [List.mem_dedup, List.mem_map, exists_exists_and_eq_and]
    constructor
    · rintro ⟨e, he, rfl⟩
      exact ⟨e, he, hkey e he⟩
    · rintro ⟨e, he, rfl⟩
      exact ⟨e, he, (hkey e he).symm⟩

theorem degreeOf_rename (h : Renaming E f) {v : Node} (hv : v ∈ ends E) :
    degreeOf (E.map (Edge.rename f)) (f v).nodeKey = degreeOf E v.nodeKey := by
  unfold degreeOf degreeSpec
  rw [(distinct_rename h).countP_eq, (distinct_rename h).countP_eq, List.countP_map, List.countP_map]
  congr 1
  · apply List.countP_congr
    intro k hk
    obtain ⟨e, he, rfl⟩ := List.mem_map.1 (List.mem_dedup.1 hk)
    simp only [Function.comp_apply, decide_eq_true_eq]
    rw [show e.edgeKey.1 = e.src.nodeKey from rfl, keyMap_eq h (mem_ends he).1]
    exact h.same _ (mem_ends he).1 _ hv
  · apply List.countP_congr
    intro k hk
    obtain ⟨e, he, rfl⟩ := List.mem_map.1 (List.mem_dedup.1 hk)
    simp only [Function.comp_apply, decide_eq_true_eq]
    rw [show e.edgeKey.2 = e.dst.nodeKey from rfl, keyMap_eq h (mem_ends he).2]
    exact h.same _ (mem_ends he).2 _ hv

theorem windowSpec_subset {E : List Edge} {s q i : Nat} {e : Edge} (he : e ∈ windowSpec E s q i) : e ∈ E := by
  rw [windowSpec_toId] at he
  rcases List.mem_append.1 he with h | h
  · exact (List.mem_filter.1 h).1
  · exact (List.mem_filter.1 (List.mem_of_mem_take h)).1

theorem windowSpec_rename (h : Renaming E f) (s q i : Nat) :
    windowSpec (E.map (Edge.rename f)) s q i = (windowSpec E s q i).map (Edge.rename f) := by
  have hid : ∀ e ∈ E, (Edge.rename f e).toId = e.toId := fun e he => h.point _ (mem_ends he).2
  simp only [windowSpec_toId]
  rw [List.map_append, List.map_take, List.filter_map, List.filter_map]
  have hc : ∀ P : Nat → Bool, E.filter ((fun e => P e.toId) ∘ Edge.rename f) = E.filter (fun e => P e.toId) := by
    intro P
    apply List.filter_congr
    intro e he
    simp only [Function.comp_apply, hid e he]
  rw [hc (fun x => decide (s + i < x ∧ x ≤ s + i + (q - 1))), hc (fun x => decide (s + i + (q - 1) < x))]

/-- The raw scores do not depend on the names of the clusters. -/
theorem rawOf_rename (h : Renaming E f) (q i : Nat) : rawOf (E.map (Edge.rename f)) q i = rawOf E q i := by
  unfold rawOf rawSpec
  rw [windowSpec_rename h]
  simp only [List.map_eq_nil_iff]
  split
  · rfl
  · congr 2
    unfold normality
    rw [List.map_map, List.length_map]
    congr 2
    apply List.map_congr_left
    intro e he
    have hE := windowSpec_subset he
    simp only [Function.comp_apply]
    rw [weightOf_rename h hE]
    congr 3
    exact degreeOf_rename h (mem_ends hE).1

/-- The scores do not depend on the names of the clusters. -/
theorem vector_rename (h : Renaming E f) (q len : Nat) : vector (E.map (Edge.rename f)) q len = vector E q len := by
  unfold vector
  congr 1
  apply List.map_congr_left
  intro i _
  exact rawOf_rename h q i

end

/-! ### Walks -/

theorem pairs_map (f : Node → Node) : ∀ l : List Node, pairs (l.map f) = (pairs l).map (Edge.rename f)
  | [] => rfl
  | [_] => rfl
  | a :: b :: l => by
    have := pairs_map f (b :: l)
    simp only [List.map_cons, pairs] at this ⊢
    rw [this]
    rfl

theorem ends_pairs : ∀ {l : List Node} {v : Node}, v ∈ ends (pairs l) → v ∈ l
  | [], _, h => by cases h
  | [_], _, h => by cases h
  | a :: b :: l, v, h => by
    simp only [pairs, ends, List.flatMap_cons, List.mem_append] at h
    rcases h with h | h
    · simp only [List.mem_cons, List.not_mem_nil, or_false] at h
      rcases h with rfl | rfl <;> simp
    · exact List.mem_cons_of_mem _ (ends_pairs (l := b :: l) h)

/-- Two labellings group the crossings of each segment in the same way. -/
def SameGroups (rate : Nat) (ts : List Trans) (lab lab' : Nat → Nat → Nat) : Prop :=
  ∀ s a b, (a, s) ∈ keysOf rate ts → (b, s) ∈ keysOf rate ts → (lab a s = lab b s ↔ lab' a s = lab' b s)

theorem walk_rename (rate : Nat) (lab lab' : Nat → Nat → Nat) (ts : List Trans) :
    walk rate lab' ts = (walk rate lab ts).map (fun v => ⟨v.seg, lab' v.fromId v.seg, v.fromId⟩) := by
  unfold walk
  rw [List.map_flatMap]
  apply List.flatMap_congr
  intro t _
  rw [stepWalk, stepWalk, List.map_map]
  rfl

/-- Walks with equally grouped crossings have the same scores. -/
theorem vector_sameGroups {rate : Nat} {ts : List Trans} {lab lab' : Nat → Nat → Nat} (h : SameGroups rate ts lab lab')
    (q len : Nat) : vector (pairs (walk rate lab' ts)) q len = vector (pairs (walk rate lab ts)) q len := by
  rw [walk_rename rate lab lab', pairs_map]
  refine vector_rename (f := fun v => ⟨v.seg, lab' v.fromId v.seg, v.fromId⟩) ⟨fun v _ => rfl, fun v hv w hw => ?_⟩ q len
  have h1 := (mem_walk.1 (ends_pairs hv))
  have h2 := (mem_walk.1 (ends_pairs hw))
  simp only [Node.nodeKey, Prod.mk.injEq]
  refine and_congr_right (fun hs => ?_)
  rw [h1.2, h2.2]
  rw [hs] at h1 ⊢
  exact (h w.seg v.fromId w.fromId h1.1 h2.1).symm

end Pipeline
end S2G
