import Verif.Model.SubScores
import Verif.Props.Overlap

/-!
# C53: the scores of all nodes
-/

namespace S2G
namespace SubScores
open Scoring

/-! ### Specification -/

/-- The scores of node `j` after filling up. -/
def filled (pay : Nat → List ℚ × Bool) : Nat → List ℚ
  | 0 => (pay 0).1
  | j + 1 => if (pay (j + 1)).2 then fillUp (((filled pay j).getLast?).getD 0) (pay (j + 1)).1 else (pay (j + 1)).1

/-- A node cannot be filled up. -/
def Bad (n : Nat) (pay : Nat → List ℚ × Bool) : Prop :=
  (0 < n ∧ (pay 0).2 = true) ∨ ∃ j, j + 1 < n ∧ (pay (j + 1)).2 = true ∧ (pay j).1 = []

/-! ### Collecting -/

theorem filled_length (pay : Nat → List ℚ × Bool) (j : Nat) : (filled pay j).length = (pay j).1.length := by
  cases j with
  | zero => rfl
  | succ j =>
    rw [filled]
    split
    · exact fillUp_length _ _
    · rfl

theorem collect_succ (n : Nat) (subs : Nat → Option (List ℚ × Bool)) :
    collect (n + 1) subs = (collect n subs).bind (fun acc => (subs n).bind (addSub acc)) := by
  unfold collect
  rw [List.range_succ, List.foldlM_append]
  simp only [Option.bind_eq_bind, List.foldlM_cons, List.foldlM_nil, Option.pure_def]
  congr 1
  funext acc
  cases subs n with
  | none => rfl
  | some x => cases h : addSub acc x <;> simp [h]

theorem collect_eq {n : Nat} {subs : Nat → Option (List ℚ × Bool)} {pay : Nat → List ℚ × Bool}
    (h : ∀ j < n, subs j = some (pay j)) :
    (¬ Bad n pay → collect n subs = some ((List.range n).map (filled pay))) ∧ (Bad n pay → collect n subs = none) := by
  induction n with
  | zero =>
    refine ⟨fun _ => rfl, ?_⟩
    rintro (⟨h, _⟩ | ⟨j, hj, _⟩)
    · omega
    · omega
  | succ n ih =>
    obtain ⟨h1, h2⟩ := ih (fun j hj => h j (by omega))
    rw [collect_succ, h n (by omega)]
    have hsub : Bad n pay → Bad (n + 1) pay := by
      rintro (⟨_, h⟩ | ⟨j, hj, h⟩)
      · exact Or.inl ⟨by omega, h⟩
      · exact Or.inr ⟨j, by omega, h⟩
    by_cases hb : Bad n pay
    · rw [h2 hb]
      exact ⟨fun h => absurd (hsub hb) h, fun _ => rfl⟩
    · rw [h1 hb]
      simp only [Option.bind_some]
      unfold addSub
      by_cases hf : (pay n).2 = true
      · rw [if_pos hf]
        cases n with
        | zero =>
          exact ⟨fun h => absurd (Or.inl ⟨by omega, hf⟩) h, fun _ => rfl⟩
        | succ n =>
          have hl : ((List.range (n + 1)).map (filled pay)).getLast? = some (filled pay n) := by
            rw [List.range_succ, List.map_append]
            simp
          rw [hl]
          simp only [Option.bind_eq_bind, Option.bind_some]
          by_cases he : (pay n).1 = []
          · have : filled pay n = [] := by
              rw [← List.length_eq_zero_iff, filled_length, he]; rfl
            rw [this]
            exact ⟨fun h => absurd (Or.inr ⟨n, by omega, hf, he⟩) h, fun _ => rfl⟩
          · have hne : filled pay n ≠ [] := by
              rw [← List.length_pos_iff, filled_length]
              exact List.length_pos_iff.2 he
            rw [List.getLast?_eq_some_getLast hne]
            simp only [Option.bind_some]
            refine ⟨fun _ => ?_, ?_⟩
            · rw [List.range_succ (n := n + 1), List.map_append (l₁ := List.range (n + 1)), List.map_singleton]
              congr 3
              rw [filled, if_pos hf, List.getLast?_eq_some_getLast hne]
              rfl
            · rintro (⟨_, h⟩ | ⟨j, hj, h, h'⟩)
              · exact absurd (Or.inl ⟨by omega, h⟩) hb
              · by_cases hj' : j = n
                · subst hj'
                  exact absurd h' he
                · exact absurd (Or.inr ⟨j, by omega, h, h'⟩) hb
      · rw [if_neg hf]
        refine ⟨fun _ => ?_, ?_⟩
        · rw [List.range_succ, List.map_append, List.map_singleton]
          congr 3
          cases n with
          | zero => rfl
          | succ n => rw [filled, if_neg hf]
        · rintro (⟨_, hx⟩ | ⟨j, hj, hx, h'⟩)
          · cases n with
            | zero => exact absurd hx hf
            | succ n => exact absurd (Or.inl ⟨by omega, hx⟩) hb
          · by_cases hj' : j + 1 = n
            · subst hj'
              exact absurd hx hf
            · exact absurd (Or.inr ⟨j, by omega, hx, h'⟩) hb

theorem collect_missing {n : Nat} {subs : Nat → Option (List ℚ × Bool)} (h : ∃ j < n, subs j = none) :
    collect n subs = none := by
  induction n with
  | zero => obtain ⟨j, hj, _⟩ := h; omega
  | succ n ih =>
    rw [collect_succ]
    obtain ⟨j, hj, hs⟩ := h
    by_cases hjn : j < n
    · rw [ih ⟨j, hjn, hs⟩]
      rfl
    · obtain rfl : j = n := by omega
      rw [hs]
      cases collect j subs <;> rfl

/-- C53: the exact crash condition of putting the vector together. -/
theorem C53_crash_iff (n : Nat) (subs : Nat → Option (List ℚ × Bool)) :
    finalize n subs = none ↔ (∃ j < n, subs j = none) ∨
      ∃ pay : Nat → List ℚ × Bool, (∀ j < n, subs j = some (pay j)) ∧ (Bad n pay ∨ ∀ j < n, (pay j).1 = []) := by
  by_cases hm : ∃ j < n, subs j = none
  · unfold finalize
    rw [collect_missing hm]
    exact ⟨fun _ => Or.inl hm, fun _ => rfl⟩
  · have hpay : ∀ j < n, subs j = some ((subs j).getD ([], false)) := by
      intro j hj
      cases h : subs j with
      | none => exact absurd ⟨j, hj, h⟩ hm
      | some x => rfl
    have hempty : ∀ pay : Nat → List ℚ × Bool,
        ((List.range n).map (filled pay)).flatten = [] ↔ ∀ j < n, (pay j).1 = [] := by
      intro pay
      rw [List.flatten_eq_nil_iff]
      constructor
      · intro h j hj
        have := h (filled pay j) (List.mem_map_of_mem (List.mem_range.2 hj))
        rw [← List.length_eq_zero_iff, ← filled_length, this]
        rfl
      · intro h l hl
        obtain ⟨j, hj, rfl⟩ := List.mem_map.1 hl
        rw [← List.length_eq_zero_iff, filled_length, h j (List.mem_range.1 hj)]
        rfl
    constructor
    · intro hf
      refine Or.inr ⟨_, hpay, ?_⟩
      by_cases hb : Bad n (fun j => (subs j).getD ([], false))
      · exact Or.inl hb
      · right
        unfold finalize at hf
        rw [(collect_eq hpay).1 hb] at hf
        simp only [Option.bind_eq_bind, Option.bind_some] at hf
        rw [(C52_degenerate _).1] at hf
        exact (hempty _).1 hf
    · rintro (h | ⟨pay, hp, h⟩)
      · exact absurd h hm
      · unfold finalize
        by_cases hb : Bad n pay
        · rw [(collect_eq hp).2 hb]
          rfl
        · rw [(collect_eq hp).1 hb]
          simp only [Option.bind_eq_bind, Option.bind_some]
          rw [(C52_degenerate _).1, hempty]
          exact h.resolve_left hb

/-! ### Gaps -/

theorem carry_head {raw : List (Option ℚ)} (h : raw.head? ≠ some none) (a b : ℚ) : carry a raw = carry b raw := by
  cases raw with
  | nil => rfl
  | cons x l =>
    cases x with
    | none => exact absurd rfl h
    | some x => rfl

/-- The parts which are put together are the scores of all nodes in the order of their indices, in which the positions without edges
repeat the last score before them, also across nodes. -/
theorem collect_concatenation {n : Nat} (hn : 0 < n) {subs : Nat → Option (List ℚ × Bool)} {raw : Nat → List (Option ℚ)}
    (h : ∀ j < n, subs j = some (carrySpec 0 (raw j), decide ((raw j).head? = some none)))
    (hne : ∀ j < n, raw j ≠ []) (h0 : (raw 0).head? ≠ some none)
    (hz : ∀ j < n, (raw j).head? = some none → some 0 ∉ raw j) :
    ∃ l, collect n subs = some l ∧ l.flatten = carrySpec 0 ((List.range n).flatMap raw) := by
  set pay : Nat → List ℚ × Bool := fun j => (carrySpec 0 (raw j), decide ((raw j).head? = some none)) with hpay
  have hbad : ¬ Bad n pay := by
    rintro (⟨_, hb⟩ | ⟨j, hj, _, hb⟩)
    · exact h0 (by simpa [hpay] using hb)
    · have : (raw j).length = 0 := by
        have := congrArg List.length hb
        simpa [hpay, carrySpec] using this
      exact hne j (by omega) (List.length_eq_zero_iff.1 this)
  refine ⟨_, (collect_eq h).1 hbad, ?_⟩
  have hfill : ∀ j < n, filled pay j =
      carry (if j = 0 then 0 else ((filled pay (j - 1)).getLast?).getD 0) (raw j) := by
    intro j hj
    cases j with
    | zero => rw [filled, if_pos rfl, carry_eq_spec]
    | succ j =>
      rw [if_neg (show ¬ j + 1 = 0 by omega), Nat.add_sub_cancel, filled]
      by_cases hh : (raw (j + 1)).head? = some none
      · rw [if_pos (by simpa [hpay] using hh)]
        rw [carry_eq_spec]
        exact C55_missing_only (hz _ hj hh) _
      · rw [if_neg (by simpa [hpay] using hh)]
        simp only [hpay]
        rw [← carry_eq_spec]
        exact carry_head hh _ _
  have key : ∀ j, j < n → ((List.range (j + 1)).map (filled pay)).flatten = carry 0 ((List.range (j + 1)).flatMap raw) ∧
      (carry 0 ((List.range (j + 1)).flatMap raw)).getLast? = (filled pay j).getLast? := by
    intro j
    induction j with
    | zero =>
      intro hj
      simp only [Nat.zero_add, List.range_one, List.map_cons, List.map_nil, List.flatten_cons, List.flatten_nil,
        List.append_nil, List.flatMap_cons, List.flatMap_nil]
      rw [hfill 0 hj, if_pos rfl]
      exact ⟨rfl, rfl⟩
    | succ j ih =>
      intro hj
      obtain ⟨i1, i2⟩ := ih (by omega)
      have hlast : filled pay (j + 1) ≠ [] := by
        rw [← List.length_pos_iff, filled_length]
        simp only [hpay, carrySpec, List.length_map, List.length_range]
        exact List.length_pos_iff.2 (hne _ hj)
      have e1 : carry 0 ((List.range (j + 1 + 1)).flatMap raw) =
          carry 0 ((List.range (j + 1)).flatMap raw) ++ filled pay (j + 1) := by
        rw [List.range_succ, List.flatMap_append, carry_append, i2, hfill (j + 1) hj, if_neg (by omega),
          Nat.add_sub_cancel]
        simp
      constructor
      · rw [e1, ← i1, List.range_succ, List.map_append, List.flatten_append]
        simp
      · rw [e1, List.getLast?_append_of_ne_nil _ hlast]
  obtain ⟨j, rfl⟩ : ∃ j, n = j + 1 := ⟨n - 1, by omega⟩
  rw [(key j (by omega)).1, carry_eq_spec]

/-- C53: the vector is the concatenation of the scores of all nodes in the order of their indices, in which the positions
without edges repeat the last score before them, also across nodes: this holds if every node has a position, the first
position has edges, and a node which begins without edges has no score which is zero. -/
theorem C53_concatenation {n : Nat} (hn : 0 < n) {subs : Nat → Option (List ℚ × Bool)} {raw : Nat → List (Option ℚ)}
    (h : ∀ j < n, subs j = some (carrySpec 0 (raw j), decide ((raw j).head? = some none)))
    (hne : ∀ j < n, raw j ≠ []) (h0 : (raw 0).head? ≠ some none)
    (hz : ∀ j < n, (raw j).head? = some none → some 0 ∉ raw j) :
    finalize n subs = normalize (carrySpec 0 ((List.range n).flatMap raw)) := by
  obtain ⟨l, h1, h2⟩ := collect_concatenation hn h hne h0 hz
  unfold finalize
  rw [h1]
  simp only [Option.bind_eq_bind, Option.bind_some]
  rw [h2]

/-! ### Rotation -/

theorem foldl_update {β : Type} (l : List (RMsg β)) (f : Nat → Option β) (j : Nat) :
    (j ∉ l.map RMsg.origin →
      l.foldl (fun (m : Nat → Option β) x => Function.update m x.origin (some x.body)) f j = f j) ∧
    (j ∈ l.map RMsg.origin → ∃ x ∈ l, x.origin = j ∧
      l.foldl (fun (m : Nat → Option β) x => Function.update m x.origin (some x.body)) f j = some x.body) := by
  induction l generalizing f with
  | nil => exact ⟨fun _ => rfl, fun h => by cases h⟩
  | cons a l ih =>
    obtain ⟨h1, h2⟩ := ih (Function.update f a.origin (some a.body))
    rw [List.map_cons, List.mem_cons, List.foldl_cons]
    constructor
    · intro h
      rw [h1 (fun h' => h (Or.inr h')), Function.update_of_ne (fun h' => h (Or.inl h'))]
    · intro h
      by_cases hl : j ∈ l.map RMsg.origin
      · obtain ⟨x, hx, ho, he⟩ := h2 hl
        exact ⟨x, by simp [hx], ho, he⟩
      · have ha := h.resolve_right hl
        refine ⟨a, by simp, ha.symm, ?_⟩
        rw [h1 hl, ha, Function.update_self]

/-- C53: a sub score is missing exactly if no message of this node was processed. -/
theorem C53_missing_iff (s : RingNet (List ℚ × Bool)) (i j : Nat) :
    subscores s i j = none ↔ j ≠ i ∧ j ∉ (s.processed i).map RMsg.origin := by
  obtain ⟨h1, h2⟩ := foldl_update (s.processed i) (Function.update (fun _ => none) i (some (s.pay i))) j
  unfold subscores
  by_cases hj : j ∈ (s.processed i).map RMsg.origin
  · obtain ⟨x, _, _, hx⟩ := h2 hj
    rw [hx]
    simp [hj]
  · rw [h1 hj]
    by_cases hji : j = i
    · subst hji; simp
    · simp [hj, hji]

/-- C53 (in the schedules of C18; always for two nodes, `RingNet.C18_two_nodes`): a node which has finished has the scores of
every node. -/
theorem C53_all_present {n : Nat} (hn : 2 ≤ n) {s : RingNet (List ℚ × Bool)} (h : RingNet.Reachable true n s)
    {i : Nat} (hi : i < n) (hd : s.done i = 1) {j : Nat} (hj : j < n) : subscores s i j = some (s.pay j) := by
  have hp := (RingNet.C18_rotation_complete hn h hi).2 hd
  obtain ⟨h1, h2⟩ := foldl_update (s.processed i) (Function.update (fun _ => none) i (some (s.pay i))) j
  have hmem : ∀ x ∈ s.processed i, x.origin < n ∧ x.origin ≠ i ∧ x.body = s.pay x.origin := by
    intro x hx
    have := hp.mem_iff.1 hx
    obtain ⟨a, ha, rfl⟩ := List.mem_map.1 this
    rw [DirectNet.mem_peers] at ha
    simpa using ha
  unfold subscores
  by_cases hji : j = i
  · subst hji
    rw [h1 (fun hm => by
      obtain ⟨x, hx, ho⟩ := List.mem_map.1 hm
      exact (hmem x hx).2.1 ho), Function.update_self]
  · have hin : j ∈ (s.processed i).map RMsg.origin := by
      refine List.mem_map.2 ⟨⟨j, s.pay j⟩, hp.mem_iff.2 (List.mem_map.2 ⟨j, ?_, rfl⟩), rfl⟩
      rw [DirectNet.mem_peers]
      simpa using ⟨hj, hji⟩
    obtain ⟨x, hx, ho, he⟩ := h2 hin
    rw [he, (hmem x hx).2.2, ho]

/-- C53 (what fails): with three nodes there is a schedule in which every node finishes, but node 2 crashes because the sub score of node 0 is missing. -/
theorem C53_race_counterexample : ∃ s : RingNet (List ℚ × Bool), RingNet.Reachable false 3 s ∧
    (∀ i < 3, s.done i = 1) ∧ subscores s 2 0 = none ∧ finalize 3 (subscores s 2) = none := by
  obtain ⟨s, h1, h2, h3⟩ := RingNet.C18_counterexample
  have h4 : subscores (s.map (fun _ => ([1], false))) 2 0 = none := by
    rw [C53_missing_iff]
    refine ⟨by decide, ?_⟩
    have : ((s.map (fun _ => (([1], false) : List ℚ × Bool))).processed 2).map RMsg.origin =
        (s.processed 2).map RMsg.origin := by
      simp [RingNet.map, RMsg.map, Function.comp_def]
    rw [this, h3]
    decide
  refine ⟨s.map (fun _ => ([1], false)), h1.map _, fun i hi => (h2 i hi).1, h4, ?_⟩
  rw [C53_crash_iff]
  exact Or.inl ⟨0, by decide, h4⟩

/-! ### Distributed and local scores -/

section
open OvNet ParScore
variable {n q : Nat} {st m : Nat → Nat} {own : Nat → List Edge} {cnt : Nat → List Nat}

/-- The score of position `k` with the edges `edges`. -/
def rawAt (W : EdgeKey → Nat) (D : NodeKey → Nat) (edges : List Edge) (start q k : Nat) : Option ℚ :=
  rawSpec W D (windowSpec edges start q k)

theorem rawAt_none {W : EdgeKey → Nat} {D : NodeKey → Nat} {edges : List Edge} {start q k : Nat} :
    rawAt W D edges start q k = none ↔ ∀ e ∈ edges, e.toId ≤ start + k := by
  rw [← windowSpec_eq_nil (q := q)]
  unfold rawAt rawSpec
  split <;> simp_all

/-- The parts of all nodes make up the scores of all positions, for every score `F` of a window. -/
theorem collect_equals_local (h : Layout n q st m own cnt) (h0 : st 0 = 0) {F : List Edge → Option ℚ} (hF : ∀ win, F win = none ↔ win = [])
    (hb : ∀ i, i + 1 < n → ∃ e ∈ (List.range n).flatMap own, e.toId = st (i + 1) + (q - 1))
    (hfirst : ∃ e ∈ extEdges n q st own 0, 0 < e.toId)
    {s : RingNet (List ℚ × Bool)} (hs : RingNet.Reachable true n s)
    (hpay : ∀ i < n, s.pay i = answer (fun k => F (windowSpec (extEdges n q st own i) (st i) q k)) 0
      (if i + 1 < n then m i else m i - (q - 1)))
    {i : Nat} (hi : i < n) (hd : s.done i = 1) :
    ∃ l, collect n (subscores s i) = some l ∧ l.flatten =
      (answer (fun k => F (windowSpec ((List.range n).flatMap own) 0 q k)) 0 (st (n - 1) + (m (n - 1) + 1) - q)).1 := by
  have hnone : ∀ {edges : List Edge} {start k : Nat}, F (windowSpec edges start q k) = none ↔ ∀ e ∈ edges, e.toId ≤ start + k := by
    intro edges start k
    rw [hF, windowSpec_eq_nil]
  have hn := h.hn
  have hq := h.hq
  have hl := h.last
  set len : Nat → Nat := fun i => if i + 1 < n then m i else m i - (q - 1) with hlen
  have hpos : ∀ j < n, 1 ≤ len j := by
    intro j hj
    simp only [hlen]
    split
    · next hj1 => exact (h.next j hj1).2
    · next hj1 =>
      obtain rfl : j = n - 1 := by omega
      omega
  set raw : Nat → List (Option ℚ) := fun j => (List.range (len j)).map (fun k => F (windowSpec (extEdges n q st own j) (st j) q k)) with hraw
  have hhead : ∀ j < n, (raw j).head? = some (F (windowSpec (extEdges n q st own j) (st j) q 0)) := by
    intro j hj
    obtain ⟨l, hl⟩ : ∃ l, len j = l + 1 := ⟨len j - 1, by have := hpos j hj; omega⟩
    simp only [hraw, hl, List.range_succ_eq_map, List.map_cons, List.head?_cons]
  have hcol : ∃ l, collect n (subscores s i) = some l ∧ l.flatten = carrySpec 0 ((List.range n).flatMap raw) := by
    refine collect_concatenation (by omega) ?_ ?_ ?_ ?_
    · intro j hj
      rw [C53_all_present hn hs hi hd hj, hpay j hj]
      unfold answer
      simp only [hhead j hj, Option.some.injEq]
      refine Prod.ext ?_ ?_
      · simp only [hraw, hlen]
        rw [List.range_eq_range']
      · simp only
        apply decide_eq_decide.2
        exact ⟨fun h => h.2, fun h => ⟨hpos j hj, h⟩⟩
    · intro j hj hnil
      have := hhead j hj
      rw [hnil] at this
      cases this
    · rw [hhead 0 (by omega)]
      intro hc
      obtain ⟨e, he, hpos⟩ := hfirst
      have := hnone.1 (Option.some.inj hc) e he
      omega
    · intro j hj hc hmem
      rw [hhead j hj] at hc
      have hc := hnone.1 (Option.some.inj hc)
      obtain ⟨k, hk, hk0⟩ := List.mem_map.1 hmem
      have : F (windowSpec (extEdges n q st own j) (st j) q k) = none :=
        hnone.2 (fun e he => by have := hc e he; omega)
      rw [this] at hk0
      cases hk0
  obtain ⟨l, hl1, hl2⟩ := hcol
  refine ⟨l, hl1, hl2.trans ?_⟩
  unfold answer
  simp only
  congr 1
  have hglob : ∀ j < n, raw j = (List.range' (st j) (len j)).map (fun k => F (windowSpec ((List.range n).flatMap own) 0 q k)) := by
    intro j hj
    simp only [hraw]
    rw [List.range'_eq_map_range, List.map_map]
    apply List.map_congr_left
    intro k hk
    rw [List.mem_range] at hk
    simp only [Function.comp_apply]
    rw [C51_complete h hb hj (fun hj1 => by simpa [hlen, hj1] using hk)]
  have hsum : ∀ j, j ≤ n → (List.range j).flatMap raw =
      (List.range' 0 (if j = n then st (n - 1) + len (n - 1) else st j)).map
        (fun k => F (windowSpec ((List.range n).flatMap own) 0 q k)) := by
    intro j
    induction j with
    | zero =>
      intro _
      rw [if_neg (by omega), h0]
      rfl
    | succ j ih =>
      intro hj
      rw [List.range_succ, List.flatMap_append, ih (by omega), if_neg (by omega), List.flatMap_singleton, hglob j (by omega),
        ← List.map_append]
      congr 1
      have hr := List.range'_append_1 (s := 0) (m := st j) (n := len j)
      rw [Nat.zero_add] at hr
      rw [hr]
      congr 1
      by_cases hjn : j + 1 = n
      · rw [if_pos hjn]
        subst hjn
        rfl
      · rw [if_neg hjn, (h.next j (by omega)).1]
        simp only [hlen]
        rw [if_pos (by omega)]
  rw [hsum n le_rfl, if_pos rfl]
  congr 2
  simp only [hlen]
  rw [if_neg (by omega)]
  omega

/-- C53, C51, C49, C48 together: suppose every node computes its scores as in C49 (`answer`) with the edges of C51 and the same
weights and degrees, an edge ends at the last point of every overlap, and node 0 has an edge which ends after its first point.
Then a node which has finished in a schedule of C18 delivers the same vector as the run on one node with all edges. -/
theorem C53_equals_local_of_overlaps (h : Layout n q st m own cnt) (h0 : st 0 = 0) (W : EdgeKey → Nat) (D : NodeKey → Nat)
    (hb : ∀ i, i + 1 < n → ∃ e ∈ (List.range n).flatMap own, e.toId = st (i + 1) + (q - 1))
    (hfirst : ∃ e ∈ extEdges n q st own 0, 0 < e.toId)
    {s : RingNet (List ℚ × Bool)} (hs : RingNet.Reachable true n s)
    (hpay : ∀ i < n, s.pay i = answer (rawAt W D (extEdges n q st own i) (st i) q) 0
      (if i + 1 < n then m i else m i - (q - 1)))
    {i : Nat} (hi : i < n) (hd : s.done i = 1) :
    finalize n (subscores s i) = normalize
      (answer (rawAt W D ((List.range n).flatMap own) 0 q) 0 (st (n - 1) + (m (n - 1) + 1) - q)).1 := by
  obtain ⟨l, h1, h2⟩ := collect_equals_local (F := rawSpec W D) h h0 (fun win => by unfold rawSpec; split <;> simp_all) hb hfirst hs hpay hi hd
  unfold finalize
  rw [h1]
  simp only [Option.bind_eq_bind, Option.bind_some]
  rw [h2]
  rfl

/-! ### Concrete instances -/

-- the second node begins without edges
example : finalize 2 (fun j => if j = 0 then some ([-2, -1], false) else some ([0, -4], true)) =
    normalize [-2, -1, -1, -4] := by decide +kernel
example : carrySpec 0 [some (-2), some (-1), none, some (-4)] = [-2, -1, -1, -4] := by decide +kernel
-- the first node begins without edges
example : finalize 2 (fun j => if j = 0 then some ([0, -1], true) else some ([-3], false)) = none := by decide +kernel

theorem ring_two {P : Type} (w : Nat → P) : ∃ s : RingNet P, RingNet.Reachable true 2 s ∧ (∀ j < 2, s.pay j = w j) ∧
    ∀ j < 2, s.done j = 1 := by
  let sched : List (RingNet.Act Nat) := [.start 0 0, .start 1 1, .arrive 1, .handle 1, .arrive 0, .handle 0]
  have h : ∃ s, RingNet.exec 2 (RingNet.init id) sched = some s := by rw [← Option.isSome_iff_exists]; rfl
  obtain ⟨s, hs⟩ := h
  have key : (RingNet.exec 2 (RingNet.init id) sched).map (fun s => (s.done 0, s.done 1, s.pay 0, s.pay 1)) =
    some (1, 1, 0, 1) := rfl
  rw [hs] at key
  simp only [Option.map_some, Option.some.injEq, Prod.mk.injEq] at key
  refine ⟨s.map w, RingNet.C18_two_nodes ((RingNet.exec_reachable _ (.init _) hs).map w), ?_, ?_⟩
  · intro j hj
    match j, hj with
    | 0, _ => exact congrArg w key.2.2.1
    | 1, _ => exact congrArg w key.2.2.2
  · intro j hj
    match j, hj with
    | 0, _ => exact key.1
    | 1, _ => exact key.2.1

-- two nodes, edges which end at points 1, 3 and 4, six points, query length 2: four scores
example : ∃ s : RingNet (List ℚ × Bool), RingNet.Reachable true 2 s ∧ s.done 1 = 1 ∧
    finalize 2 (subscores s 1) = normalize
      (answer (rawAt (fun _ => 2) (fun _ => 3) ((List.range 2).flatMap (exOwn [3, 4])) 0 2) 0 4).1 := by
  obtain ⟨s, h1, h2, h3⟩ := ring_two (fun i =>
    answer (rawAt (fun _ => 2) (fun _ => 3) (extEdges 2 2 exSt (exOwn [3, 4]) i) (exSt i) 2) 0
      (if i + 1 < 2 then exM i else exM i - (2 - 1)))
  refine ⟨s, h1, h3 1 (by decide), ?_⟩
  exact C53_equals_local_of_overlaps (exLayout [3, 4] (by simp) (by simp)) rfl (fun _ => 2) (fun _ => 3) (fun i hi => by
    obtain rfl : i = 0 := by omega
    exact ⟨ed 3, by decide, by decide⟩) ⟨ed 1, by decide, by decide⟩ h1 h2 (by decide) (h3 1 (by decide))

end

end SubScores
end S2G
