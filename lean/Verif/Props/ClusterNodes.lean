import Verif.Model.ClusterNodes
import Mathlib.Data.List.Perm.Subperm
import Mathlib.Data.List.Perm.Basic
import Mathlib.Algebra.BigOperators.Group.List.Lemmas

/-!
# C03: cluster member indices are consistent
-/

namespace S2G
namespace ClusterNodes
variable {A : Type}

/-- Specification: member `own` of a cluster of `n` members knows exactly the other members. -/
structure IsMember (c : ClusterNodes A) (n own : Nat) : Prop where
  nodup : c.keys.Nodup
  own_lt : own < n
  mem_iff : ∀ k, k ∈ c.keys ↔ k < n ∧ k ≠ own

theorem IsMember.perm {c : ClusterNodes A} {n own : Nat} (h : c.IsMember n own) :
    (own :: c.keys).Perm (List.range n) := by
  refine (List.perm_ext_iff_of_nodup ?_ List.nodup_range).2 ?_
  · refine List.nodup_cons.2 ⟨?_, h.nodup⟩
    rw [h.mem_iff]; simp
  · intro a
    simp only [List.mem_cons, h.mem_iff, List.mem_range]
    have := h.own_lt
    constructor
    · rintro (rfl | h') <;> omega
    · intro ha; by_cases hh : a = own <;> omega

theorem IsMember.lenInclOwn {c : ClusterNodes A} {n own : Nat} (h : c.IsMember n own) :
    c.lenInclOwn = n := by
  have := h.perm.length_eq
  simpa [keys, ClusterNodes.lenInclOwn, len] using this

/-- C03a: the own index is recovered as the unique missing index. -/
theorem C03_own_idx {c : ClusterNodes A} {n own : Nat} (h : c.IsMember n own) :
    c.getOwnIdx = some own := by
  have h1 := h.perm.sum_eq
  rw [List.sum_cons] at h1
  unfold getOwnIdx checkedSub
  rw [h.lenInclOwn, ← h1, if_pos (by omega)]
  congr 1; omega

/-- C03b: with at least two members the next index is `own + 1` modulo the cluster size. -/
theorem C03_next {c : ClusterNodes A} {n own : Nat} (h : c.IsMember n own) (hn : 2 ≤ n) :
    c.getNextIdx = some (some ((own + 1) % n)) := by
  have hl := h.lenInclOwn
  have : c.len > 0 := by unfold ClusterNodes.lenInclOwn at hl; omega
  simp only [getNextIdx, getShiftedIdx, C03_own_idx h, this, hl]
  simp only [Option.bind_eq_bind, Option.bind_some, if_true, Option.some.injEq]
  rw [show ((own : Int) + 1) = ((own + 1 : Nat) : Int) by omega, ← Int.natCast_emod, Int.toNat_natCast]

/-- C03c: the previous index is `own - 1` modulo the cluster size. -/
theorem C03_previous {c : ClusterNodes A} {n own : Nat} (h : c.IsMember n own) (hn : 2 ≤ n) :
    c.getPreviousIdx = some (some ((own + n - 1) % n)) := by
  have hl := h.lenInclOwn
  have : c.len > 0 := by unfold ClusterNodes.lenInclOwn at hl; omega
  simp only [getPreviousIdx, getShiftedIdx, C03_own_idx h, this, hl]
  simp only [Option.bind_eq_bind, Option.bind_some, if_true, Option.some.injEq]
  have e : ((own : Int) + -1) % (n : Int) = (((own + n - 1 : Nat) : Int)) % (n : Int) := by
    have : (((own + n - 1 : Nat) : Int)) = ((own : Int) + -1) + n := by omega
    rw [this, Int.add_emod_right]
  rw [e, ← Int.natCast_emod, Int.toNat_natCast]

/-- C03d: next and previous neighbour are mutually inverse: the node that `own` sends to with
`next` is the one whose `previous` is `own`, and vice versa. -/
theorem C03_next_previous_inverse {c d : ClusterNodes A} {n i j : Nat}
    (hc : c.IsMember n i) (hd : d.IsMember n j) (hn : 2 ≤ n) :
    c.getNextIdx = some (some j) ↔ d.getPreviousIdx = some (some i) := by
  have hi := hc.own_lt
  have hj := hd.own_lt
  rw [C03_next hc hn, C03_previous hd hn]
  simp only [Option.some.injEq]
  have e1 : (i + 1) % n = if i + 1 = n then 0 else i + 1 := by
    split
    · next h => rw [h, Nat.mod_self]
    · exact Nat.mod_eq_of_lt (by omega)
  have e2 : (j + n - 1) % n = if j = 0 then n - 1 else j - 1 := by
    split
    · next h => subst h; rw [Nat.zero_add]; exact Nat.mod_eq_of_lt (by omega)
    · rw [show j + n - 1 = (j - 1) + n by omega, Nat.add_mod_right]
      exact Nat.mod_eq_of_lt (by omega)
  rw [e1, e2]
  split <;> split <;> omega

/-- C03e: a lone member has no neighbour. -/
theorem C03_alone {c : ClusterNodes A} (h : c.IsMember 1 0) :
    c.getNextIdx = some none ∧ c.getPreviousIdx = some none := by
  have hl := h.lenInclOwn
  have : ¬ c.len > 0 := by unfold ClusterNodes.lenInclOwn at hl; omega
  simp [getNextIdx, getPreviousIdx, getShiftedIdx, C03_own_idx h, this]

theorem get_isSome {c : ClusterNodes A} (k : Nat) : (c.get k).isSome ↔ k ∈ c.keys := by
  unfold get keys
  induction c.nodes with
  | nil => simp
  | cons x xs ih =>
    obtain ⟨a, b⟩ := x
    by_cases h : k = a
    · subst h; simp [List.lookup]
    · have : (k == a) = false := by simpa using h
      simp only [List.lookup, this, ih, List.map_cons, List.mem_cons, h, false_or]

/-- Specification of the iteration over all members: index and address of every member. -/
def specAll (c : ClusterNodes A) (n own : Nat) (l : List (Nat × AnyAddr A)) : Prop :=
  l.map Prod.fst = List.range n ∧
  ∀ x ∈ l, if x.1 = own then x.2 = .localAddr else ∃ a, c.get x.1 = some a ∧ x.2 = .remote a

theorem drain_eq (c : ClusterNodes A) : ∀ (fuel pos : Nat), c.anyLen - pos < fuel →
    Iter.drain fuel ⟨c, pos⟩ = (List.range' pos (c.anyLen - pos)).map
      (fun k => (k, match c.get k with | some a => AnyAddr.remote a | none => AnyAddr.localAddr)) := by
  intro fuel
  induction fuel with
  | zero => intro pos h; omega
  | succ fuel ih =>
    intro pos h
    simp only [Iter.drain, Iter.next]
    by_cases hp : pos ≥ c.anyLen
    · simp [hp]
    · simp only [hp, if_false]
      rw [ih (pos + 1) (by omega)]
      rw [show c.anyLen - pos = (c.anyLen - (pos + 1)) + 1 by omega, List.range'_succ]
      rfl

/-- C03f: iterating over "all nodes" visits every member exactly once in index order, and exactly
the own index is the local actor. -/
theorem C03_broadcast {c : ClusterNodes A} {n own : Nat} (h : c.IsMember n own) {fuel : Nat}
    (hf : n < fuel) : c.specAll n own (Iter.drain fuel c.iterAny) := by
  have hl : c.anyLen = n := h.lenInclOwn
  have e := drain_eq c fuel 0 (by omega)
  unfold iterAny
  rw [e, hl]
  simp only [Nat.sub_zero]
  constructor
  · rw [List.map_map, ← List.range_eq_range']
    exact List.map_id _
  · intro x hx
    simp only [List.mem_map, List.mem_range'_1] at hx
    obtain ⟨k, ⟨_, hk⟩, rfl⟩ := hx
    have hmem := h.mem_iff k
    have hs := get_isSome (c := c) k
    by_cases hko : k = own
    · subst hko
      have : c.get k = none := by
        rw [← Option.not_isSome_iff_eq_none, hs, hmem]; simp
      simp [this]
    · have : (c.get k).isSome := by rw [hs, hmem]; omega
      obtain ⟨a, ha⟩ := Option.isSome_iff_exists.1 this
      simp [ha, hko]

/-- C03g: the iterator is exhausted (`last_position`) exactly after all members were visited; it is
*not* true at the last member. -/
theorem C03_last_position {c : ClusterNodes A} {n own : Nat} (h : c.IsMember n own) (pos : Nat) :
    (Iter.lastPosition ⟨c, pos⟩ = true) ↔ n ≤ pos := by
  have hl : c.anyLen = n := h.lenInclOwn
  simp [Iter.lastPosition, hl]

/-! Concrete instance: member 1 of 4. -/
def exNodes : ClusterNodes String := ⟨[(3, "d"), (0, "a"), (2, "c")]⟩
example : exNodes.IsMember 4 1 := by
  refine ⟨by decide, by decide, ?_⟩
  intro k; simp [exNodes, keys]; omega
example : exNodes.getOwnIdx = some 1 ∧ exNodes.getNextIdx = some (some 2) ∧
    exNodes.getPreviousIdx = some (some 0) := by decide
example : Iter.drain 9 exNodes.iterAny =
    [(0, .remote "a"), (1, .localAddr), (2, .remote "c"), (3, .remote "d")] := by decide

end ClusterNodes
end S2G
