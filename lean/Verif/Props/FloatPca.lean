import Verif.Model.FloatRun
import Verif.Props.PcaNet

/-!
# C81, part 1: factors and means of the PCA with arbitrary arithmetic

The factor with which helper 0 finalises is in every schedule the same expression of the factors of the helpers. The means are in the
order of their arrival.
-/

namespace S2G
namespace HNet
variable {M : Type} {k : Nat} {init : Nat → M} {comb : M → M → M}

/-- The factor of helper `i` after `c` rounds. -/
def tree (k : Nat) (init : Nat → M) (comb : M → M → M) : Nat → Nat → M
  | 0, i => init i
  | c + 1, i => if i + nextPow k / 2 ^ (c + 1) < k then comb (tree k init comb c i) (tree k init comb c (i + nextPow k / 2 ^ (c + 1)))
      else tree k init comb c i

/-- A message to helper `d` is the right one. -/
def Right (k : Nat) (init : Nat → M) (comb : M → M → M) (d : Nat) : HMsg M → Prop
  | .dec count r => ∃ c, count = c + 1 ∧ d + nextPow k / 2 ^ count < k ∧ r = tree k init comb c (d + nextPow k / 2 ^ count)
  | _ => True

/-- All factors are those of `tree`. -/
structure Determined (k : Nat) (init : Nat → M) (comb : M → M → M) (s : HNet M) : Prop where
  loc : ∀ i r, s.loc i = some r → r = tree k init comb (s.c i) i
  fresh : ∀ i, s.loc i = none → s.c i = 0
  queue : ∀ i, ∀ x ∈ s.queue i, Right k init comb i x
  buf : ∀ i, ∀ x ∈ s.buf i, Right k init comb i x
  head : ∀ i, s.loc i ≠ none → ∃ l, s.means i = i :: l
  fin : ∀ x ∈ s.fin, (∃ c, nextPow k / 2 ^ (c + 1) = 0 ∧ c ≤ s.c 0 ∧ x.1 = tree k init comb c 0) ∧ ∃ l, x.2 = 0 :: l

theorem determined_init : Determined k init comb ({ queue := fun _ => [.setup] } : HNet M) := by
  constructor <;> simp [Right]

theorem Determined.post {s : HNet M} (h : Determined k init comb s) {d : Nat} {xs : List (HMsg M)} (hx : ∀ x ∈ xs, Right k init comb d x) :
    Determined k init comb (s.postAll d xs) where
  loc := h.loc
  fresh := h.fresh
  queue := by
    intro i x hm
    by_cases hi : i = d
    · subst hi
      simp only [postAll, Function.update_self, List.mem_append] at hm
      exact hm.elim (h.queue i x) (hx x)
    · simp only [postAll, Function.update_of_ne hi] at hm
      exact h.queue i x hm
  buf := h.buf
  head := h.head
  fin := h.fin

theorem Determined.flush {s : HNet M} (h : Determined k init comb s) (i : Nat) : Determined k init comb (s.flush i) := by
  have h' := h.post (d := i) (xs := (s.buf i).reverse) fun x hx => h.buf i x (List.mem_reverse.1 hx)
  refine ⟨h'.loc, h'.fresh, h'.queue, ?_, h'.head, h'.fin⟩
  intro j x hm
  by_cases hj : j = i
  · subst hj
    simp [HNet.flush] at hm
  · simp only [HNet.flush, Function.update_of_ne hj] at hm
    exact h.buf j x hm

theorem Determined.perform {s t : HNet M} (h : Determined k init comb s) {i : Nat} (hi : i < k) {b : Branch} (hb : branch k i (s.c i) = some b)
    (ht : perform s i b = some t) : Determined k init comb t := by
  unfold branch at hb
  simp only at hb
  by_cases h1 : nextPow k / 2 ^ (s.c i + 1) ≤ i ∧ 0 < i
  · rw [if_pos h1] at hb
    split at hb
    · cases hb
      obtain ⟨r, hr, rfl⟩ := Option.map_eq_some_iff.1 ht
      refine h.post (xs := [_]) ?_
      simp only [List.mem_singleton, forall_eq]
      have e : i - nextPow k / 2 ^ (s.c i + 1) + nextPow k / 2 ^ (s.c i + 1) = i := by omega
      exact ⟨s.c i, rfl, by rw [e]; exact hi, by rw [e]; exact h.loc i r hr⟩
    · cases hb
  · rw [if_neg h1] at hb
    split at hb
    · cases hb
      cases ht
    · split at hb
      · next h0 =>
        cases hb
        obtain ⟨r, hr, rfl⟩ := Option.map_eq_some_iff.1 ht
        obtain ⟨rfl, h0⟩ := h0
        refine ⟨h.loc, h.fresh, h.queue, h.buf, h.head, ?_⟩
        intro x hx
        rcases List.mem_append.1 hx with hx | hx
        · exact h.fin x hx
        · cases List.mem_singleton.1 hx
          exact ⟨⟨s.c 0, h0, le_rfl, h.loc 0 r hr⟩, h.head 0 (by rw [hr]; simp)⟩
      · cases hb
        cases ht
        exact h

theorem Determined.sendOrFinalize {s t : HNet M} (h : Determined k init comb s) {i : Nat} (hi : i < k) (hl : s.loc i ≠ none)
    (ht : sendOrFinalize k s i = some t) : Determined k init comb t := by
  unfold HNet.sendOrFinalize at ht
  obtain ⟨b, hb, ht⟩ := Option.bind_eq_some_iff.1 ht
  split at ht
  · simp only at ht
    obtain ⟨b', hb', ht⟩ := Option.bind_eq_some_iff.1 ht
    refine Determined.perform (s := { s with c := Function.update s.c i (s.c i + 1) }) ?_ hi hb' ht
    have hskip : s.c i = 0 ∧ k ≤ i + nextPow k / 2 ^ (s.c i + 1) := by
      unfold branch at hb
      simp only at hb
      by_contra hn
      rw [if_neg hn] at hb
      split at hb
      · split at hb <;> cases hb
      · split at hb <;> cases hb
    refine ⟨?_, ?_, h.queue, h.buf, h.head, ?_⟩
    · intro j r hr
      by_cases hj : j = i
      · subst hj
        simp only [Function.update_self]
        rw [tree, if_neg (by omega)]
        exact h.loc j r hr
      · simp only [Function.update_of_ne hj]
        exact h.loc j r hr
    · intro j hj
      by_cases hji : j = i
      · subst hji
        exact absurd hj hl
      · simp only [Function.update_of_ne hji]
        exact h.fresh j hj
    · intro x hx
      obtain ⟨⟨c, h1, h2, h3⟩, h4⟩ := h.fin x hx
      refine ⟨⟨c, h1, ?_, h3⟩, h4⟩
      by_cases hi0 : 0 = i
      · subst hi0
        simp only [Function.update_self]
        omega
      · simpa only [Function.update_of_ne hi0] using h2
  · exact h.perform hi hb ht

theorem Determined.handle {s t : HNet M} (h : Determined k init comb s) {i : Nat} (hi : i < k) {x : HMsg M} (hx : Right k init comb i x)
    (hset : x = .setup → s.loc i = none) (ht : handle k init comb s i x = some t) : Determined k init comb t := by
  cases x with
  | setup =>
    unfold HNet.handle setup at ht
    simp only at ht
    obtain ⟨u, hu, ht⟩ := Option.bind_eq_some_iff.1 ht
    cases ht
    refine Determined.flush (Determined.sendOrFinalize ?_ hi ?_ hu) i
    · have h0 : Determined k init comb { s with loc := Function.update s.loc i (some (init i)), means := Function.update s.means i [i] } := by
        refine ⟨?_, ?_, h.queue, h.buf, ?_, h.fin⟩
        · intro j r hr
          by_cases hj : j = i
          · subst hj
            simp only [Function.update_self, Option.some.injEq] at hr
            show r = tree k init comb (s.c j) j
            rw [h.fresh j (hset rfl), tree, hr]
          · simp only [Function.update_of_ne hj] at hr
            exact h.loc j r hr
        · intro j hj
          by_cases hji : j = i
          · subst hji
            simp at hj
          · simp only [Function.update_of_ne hji] at hj
            exact h.fresh j hj
        · intro j hj
          by_cases hji : j = i
          · subst hji
            exact ⟨[], by simp⟩
          · simp only [Function.update_of_ne hji] at hj ⊢
            exact h.head j hj
      split
      · exact h0
      · exact h0.post (xs := [_]) (by simp [Right])
    · split <;> simp [HNet.post]
  | dec count r =>
    unfold HNet.handle at ht
    simp only at ht
    have hbuf : Determined k init comb { s with buf := Function.update s.buf i (s.buf i ++ [.dec count r]) } := by
      refine ⟨h.loc, h.fresh, h.queue, ?_, h.head, h.fin⟩
      intro j x hm
      by_cases hj : j = i
      · subst hj
        simp only [Function.update_self, List.mem_append, List.mem_singleton] at hm
        rcases hm with hm | rfl
        · exact h.buf j x hm
        · exact hx
      · simp only [Function.update_of_ne hj] at hm
        exact h.buf j x hm
    split at ht
    · cases ht
      exact hbuf
    · next l hl =>
      split at ht
      · next hc =>
        obtain ⟨u, hu, ht⟩ := Option.bind_eq_some_iff.1 ht
        cases ht
        refine Determined.flush (Determined.sendOrFinalize ?_ hi (by simp) hu) i
        obtain ⟨c, h1, h2, h3⟩ := hx
        obtain rfl : c = s.c i := by omega
        subst h1
        refine ⟨?_, ?_, h.queue, h.buf, ?_, ?_⟩
        · intro j r' hr
          by_cases hj : j = i
          · subst hj
            simp only [Function.update_self, Option.some.injEq] at hr ⊢
            rw [tree, if_pos h2, ← hr, h3, h.loc j l hl]
          · simp only [Function.update_of_ne hj] at hr ⊢
            exact h.loc j r' hr
        · intro j hj
          by_cases hji : j = i
          · subst hji
            simp at hj
          · simp only [Function.update_of_ne hji] at hj ⊢
            exact h.fresh j hj
        · intro j hj
          by_cases hji : j = i
          · subst hji
            exact h.head j (by rw [hl]; simp)
          · simp only [Function.update_of_ne hji] at hj
            exact h.head j hj
        · intro x hx
          obtain ⟨⟨c, e1, e2, e3⟩, e4⟩ := h.fin x hx
          refine ⟨⟨c, e1, ?_, e3⟩, e4⟩
          by_cases hi0 : 0 = i
          · subst hi0
            simp only [Function.update_self]
            omega
          · simpa only [Function.update_of_ne hi0] using e2
      · cases ht
        exact hbuf
  | means j =>
    unfold HNet.handle at ht
    simp only at ht
    split at ht
    · cases ht
      refine ⟨h.loc, h.fresh, h.queue, ?_, h.head, h.fin⟩
      intro l x hm
      by_cases hl : l = i
      · subst hl
        simp only [Function.update_self, List.mem_append, List.mem_singleton] at hm
        rcases hm with hm | rfl
        · exact h.buf l x hm
        · trivial
      · simp only [Function.update_of_ne hl] at hm
        exact h.buf l x hm
    · next l hl =>
      cases ht
      refine ⟨h.loc, h.fresh, h.queue, h.buf, ?_, h.fin⟩
      intro a ha
      by_cases hai : a = i
      · subst hai
        obtain ⟨l', hl'⟩ := h.head a ha
        exact ⟨l' ++ [j], by simp [hl']⟩
      · simp only [Function.update_of_ne hai]
        exact h.head a ha

theorem determined_reachable (hk : 0 < k) {s : HNet M} (hr : Reachable k init comb s) : Determined k init comb s := by
  induction hr with
  | init => exact determined_init
  | @step s t i x rest hr hi hq ht ih =>
    have hq' : Determined k init comb { s with queue := Function.update s.queue i rest } := by
      refine ⟨ih.loc, ih.fresh, ?_, ih.buf, ih.head, ih.fin⟩
      intro j y hy
      by_cases hj : j = i
      · subst hj
        simp only [Function.update_self] at hy
        exact ih.queue j y (by rw [hq]; simp [hy])
      · simp only [Function.update_of_ne hj] at hy
        exact ih.queue j y hy
    refine hq'.handle hi (ih.queue i x (by rw [hq]; simp)) ?_ ht
    rintro rfl
    by_contra hl
    have h := hinv_reachable (g := fun _ => (0 : Nat)) hk (by simp) hr
    exact (h.running i hi (Option.isSome_iff_ne_none.2 hl)).1 (by rw [hq]; simp)

/-- C81: the factor of the PCA is in every schedule the same, for every arithmetic. -/
theorem C81_factor (hk : 0 < k) {s : HNet M} (hr : Reachable k init comb s) : ∀ x ∈ s.fin, x.1 = tree k init comb (Nat.clog 2 k) 0 := by
  intro x hx
  obtain ⟨⟨c, h1, h2, h3⟩, -⟩ := (determined_reachable hk hr).fin x hx
  have h := hinv_reachable (g := fun _ => (0 : Nat)) hk (by simp) hr
  have h0 : s.c 0 = Nat.clog 2 k := by
    by_contra hc
    have := h.tree.fin.2.2 (fun h' => hc h'.2.1)
    rw [show (abs k s).fin = s.fin.map Prod.fst from rfl] at this
    rw [List.map_eq_nil_iff.1 this] at hx
    cases hx
  have h5 : Nat.clog 2 k ≤ c := by
    by_contra hlt
    have : nextPow k / 2 ^ (c + 1) ≠ 0 := by
      unfold nextPow
      rw [Nat.pow_div (by omega) (by omega)]
      positivity
    exact this h1
  rw [h3, show c = Nat.clog 2 k by omega]

/-- C81: with at most two helpers the means are in every schedule in the same order. -/
theorem C81_means_two (hk : 0 < k) (h2 : k ≤ 2) {s : HNet M} (hr : Reachable k init comb s) : ∀ x ∈ s.fin, x.2 = List.range k := by
  intro x hx
  obtain ⟨-, l, hl⟩ := (determined_reachable hk hr).fin x hx
  have hp := ((C23_threads (g := fun _ => (0 : Nat)) hk (by simp) hr).2 x hx).2
  obtain rfl | rfl : k = 1 ∨ k = 2 := by omega
  · rw [hl] at hp ⊢
    have := hp.length_eq
    simp at this
    rw [this]
    rfl
  · rw [hl] at hp ⊢
    have h1 : (List.range 2) = 0 :: [1] := rfl
    rw [h1] at hp
    rw [h1, List.perm_singleton.1 (List.Perm.cons_inv hp)]

/-! ### Three or more helpers: the order of the means depends on the schedule -/

/-- The means which helper 0 has or will get, in this order. -/
def coming (s : HNet M) : List Nat := s.means 0 ++ (s.queue 0).filterMap meansOf

/-- Between the two states no means were sent or taken in. -/
structure Quiet (s t : HNet M) : Prop where
  coming : t.coming = s.coming
  means : t.means = s.means
  loc : t.loc = s.loc
  fin : ∀ x ∈ t.fin, x ∈ s.fin ∨ x.2 = t.means 0

theorem Quiet.trans {s t u : HNet M} (h : Quiet s t) (h' : Quiet t u) : Quiet s u where
  coming := h'.coming.trans h.coming
  means := h'.means.trans h.means
  loc := h'.loc.trans h.loc
  fin x hx := by
    rcases h'.fin x hx with h1 | h1
    · rcases h.fin x h1 with h2 | h2
      · exact .inl h2
      · exact .inr (by rw [h2, h'.means])
    · exact .inr h1

theorem quiet_post (s : HNet M) (d : Nat) {xs : List (HMsg M)} (hx : ∀ x ∈ xs, ∃ r m, x = .dec r m) : Quiet s (s.postAll d xs) := by
  refine ⟨?_, rfl, rfl, fun x h => .inl h⟩
  have h0 : xs.filterMap meansOf = [] := by
    rw [List.filterMap_eq_nil_iff]
    intro x h
    obtain ⟨r, m, rfl⟩ := hx x h
    rfl
  unfold HNet.coming postAll
  by_cases hd : 0 = d
  · subst hd
    simp [h0]
  · simp [Function.update_of_ne hd]

theorem quiet_flush (s : HNet M) (i : Nat) (hx : ∀ x ∈ s.buf i, ∃ r m, x = .dec r m) : Quiet s (s.flush i) := by
  have h := quiet_post s i (xs := (s.buf i).reverse) (fun x h => hx x (List.mem_reverse.1 h))
  exact ⟨h.coming, h.means, h.loc, h.fin⟩

theorem quiet_perform {s t : HNet M} {i : Nat} {b : Branch} (hb : branch k i (s.c i) = some b) (ht : perform s i b = some t) :
    Quiet s t ∧ t.buf = s.buf := by
  cases b with
  | send d =>
    obtain ⟨r, hr, rfl⟩ := Option.map_eq_some_iff.1 ht
    exact ⟨quiet_post s d (xs := [.dec (s.c i + 1) r]) (by simp), rfl⟩
  | skip => cases ht
  | wait =>
    cases ht
    exact ⟨⟨rfl, rfl, rfl, fun x h => .inl h⟩, rfl⟩
  | finalize =>
    obtain ⟨r, hr, rfl⟩ := Option.map_eq_some_iff.1 ht
    have hi : i = 0 := by
      unfold branch at hb
      simp only at hb
      split at hb
      · split at hb <;> cases hb
      · split at hb
        · cases hb
        · split at hb
          · next h => exact h.1
          · cases hb
    subst hi
    refine ⟨⟨rfl, rfl, rfl, fun x hx => ?_⟩, rfl⟩
    rcases List.mem_append.1 hx with hx | hx
    · exact .inl hx
    · cases List.mem_singleton.1 hx
      exact .inr rfl

theorem quiet_sendOrFinalize {s t : HNet M} {i : Nat} (ht : sendOrFinalize k s i = some t) : Quiet s t ∧ t.buf = s.buf := by
  unfold HNet.sendOrFinalize at ht
  obtain ⟨b, hb, ht⟩ := Option.bind_eq_some_iff.1 ht
  split at ht
  · simp only at ht
    obtain ⟨b', hb', ht⟩ := Option.bind_eq_some_iff.1 ht
    obtain ⟨h1, h2⟩ := quiet_perform (s := { s with c := Function.update s.c i (s.c i + 1) }) hb' ht
    exact ⟨⟨h1.coming, h1.means, h1.loc, h1.fin⟩, h2⟩
  · exact quiet_perform hb ht

/-- The set-up of a helper other than 0 sends its means. -/
theorem setup_coming {s t : HNet M} {i : Nat} (hi : i ≠ 0) (hb : s.buf i = []) (ht : setup k init s i = some t) :
    t.coming = s.coming ++ [i] ∧ t.means 0 = s.means 0 ∧ (∀ x ∈ t.fin, x ∈ s.fin ∨ x.2 = t.means 0) ∧
    t.loc = Function.update s.loc i (some (init i)) := by
  unfold setup at ht
  simp only [if_neg hi] at ht
  obtain ⟨u, hu, ht⟩ := Option.bind_eq_some_iff.1 ht
  cases ht
  obtain ⟨h1, h2⟩ := quiet_sendOrFinalize hu
  have h3 := h1.trans (quiet_flush u i (by rw [h2]; show ∀ x ∈ s.buf i, _; rw [hb]; simp))
  have e0 : Function.update s.means i [i] 0 = s.means 0 := Function.update_of_ne (Ne.symm hi) _ _
  refine ⟨?_, ?_, h3.fin, h3.loc⟩
  · rw [h3.coming]
    simp [HNet.coming, HNet.post, e0, meansOf]
  · rw [h3.means]
    exact e0

theorem handle_loc {s t : HNet M} {i : Nat} {x : HMsg M} (ht : handle k init comb s i x = some t) {j : Nat} (hj : j ≠ i) : t.loc j = s.loc j := by
  cases x with
  | setup =>
    unfold HNet.handle setup at ht
    simp only at ht
    obtain ⟨u, hu, ht⟩ := Option.bind_eq_some_iff.1 ht
    cases ht
    have := (quiet_sendOrFinalize hu).1.loc
    show u.loc j = _
    rw [this]
    split <;> simp [HNet.post, Function.update_of_ne hj]
  | dec count r =>
    unfold HNet.handle at ht
    simp only at ht
    split at ht
    · cases ht; rfl
    · split at ht
      · obtain ⟨u, hu, ht⟩ := Option.bind_eq_some_iff.1 ht
        cases ht
        show u.loc j = _
        rw [(quiet_sendOrFinalize hu).1.loc]
        simp [Function.update_of_ne hj]
      · cases ht; rfl
  | means a =>
    unfold HNet.handle at ht
    simp only at ht
    split at ht <;> · cases ht; rfl

theorem handle_some {s t : HNet M} {i : Nat} {x : HMsg M} (ht : handle k init comb s i x = some t) {j : Nat} (hj : s.loc j ≠ none) :
    t.loc j ≠ none := by
  by_cases hji : j = i
  · subst hji
    cases x with
    | setup =>
      unfold HNet.handle setup at ht
      simp only at ht
      obtain ⟨u, hu, ht⟩ := Option.bind_eq_some_iff.1 ht
      cases ht
      show u.loc j ≠ none
      rw [(quiet_sendOrFinalize hu).1.loc]
      split <;> simp [HNet.post]
    | dec count r =>
      unfold HNet.handle at ht
      simp only at ht
      split at ht
      · cases ht; exact hj
      · split at ht
        · obtain ⟨u, hu, ht⟩ := Option.bind_eq_some_iff.1 ht
          cases ht
          show u.loc j ≠ none
          rw [(quiet_sendOrFinalize hu).1.loc]
          simp
        · cases ht; exact hj
    | means a =>
      unfold HNet.handle at ht
      simp only at ht
      split at ht <;> · cases ht; exact hj
  · rw [handle_loc ht hji]
    exact hj

/-- If helper 0 has all means, the order is that in which they came. -/
theorem means_before {a b : Nat} (ha : a < k) (hb : b < k) (hab : a ≠ b) {t : HNet M} (hp : (t.means 0).Perm (List.range k))
    (h1 : t.coming.filter (fun j => j = a ∨ j = b) = [a, b]) : (t.means 0).filter (fun j => j = a ∨ j = b) = [a, b] := by
  unfold HNet.coming at h1
  rw [List.filter_append] at h1
  have hl := (hp.filter (fun j => decide (j = a ∨ j = b))).length_eq
  have h2le : 2 ≤ ((List.range k).filter (fun j => decide (j = a ∨ j = b))).length := by
    have hsub : [a, b].Subperm ((List.range k).filter (fun j => decide (j = a ∨ j = b))) := by
      refine List.subperm_of_subset (by simp [hab]) ?_
      intro j hj
      simp only [List.mem_cons, List.not_mem_nil, or_false] at hj
      simp only [List.mem_filter, List.mem_range, decide_eq_true_eq]
      exact ⟨by rcases hj with rfl | rfl <;> assumption, hj⟩
    exact hsub.length_le
  have hlen := congrArg List.length h1
  rw [List.length_append] at hlen
  simp only [List.length_cons, List.length_nil] at hlen
  have h0 : ((t.queue 0).filterMap meansOf).filter (fun j => decide (j = a ∨ j = b)) = [] := by
    rw [← List.length_eq_zero_iff]
    omega
  rw [h0, List.append_nil] at h1
  exact h1

theorem handle_fin {s t : HNet M} {i : Nat} {x : HMsg M} (ht : handle k init comb s i x = some t) :
    ∀ y ∈ t.fin, y ∈ s.fin ∨ y.2 = t.means 0 := by
  cases x with
  | setup =>
    unfold HNet.handle setup at ht
    simp only at ht
    obtain ⟨u, hu, ht⟩ := Option.bind_eq_some_iff.1 ht
    cases ht
    have := (quiet_sendOrFinalize hu).1.fin
    intro y hy
    rcases this y hy with h | h
    · refine .inl ?_
      split at h <;> exact h
    · exact .inr h
  | dec count r =>
    unfold HNet.handle at ht
    simp only at ht
    split at ht
    · cases ht; exact fun y hy => .inl hy
    · split at ht
      · obtain ⟨u, hu, ht⟩ := Option.bind_eq_some_iff.1 ht
        cases ht
        exact (quiet_sendOrFinalize hu).1.fin
      · cases ht; exact fun y hy => .inl hy
  | means a =>
    unfold HNet.handle at ht
    simp only at ht
    split at ht <;> · cases ht; exact fun y hy => .inl hy

/-- When helper 0 has finished, all helpers have been set up. -/
theorem fin_started (hk : 0 < k) {s : HNet M} (hr : Reachable k init comb s) : s.fin ≠ [] → ∀ j < k, s.loc j ≠ none := by
  induction hr with
  | init => exact fun h => absurd rfl h
  | @step s t i x rest hr hi hq ht ih =>
    intro hne j hj
    obtain ⟨y, hy⟩ := List.exists_mem_of_ne_nil _ hne
    have hIt := hinv_reachable (g := fun _ => (0 : Nat)) hk (by simp) (Reachable.step hr hi hq ht)
    rcases handle_fin ht y hy with h | h
    · exact handle_some ht (ih (List.ne_nil_of_mem h) j hj)
    · have h1 : j ∈ t.means 0 := h ▸ (hIt.fin y hy).mem_iff.2 (List.mem_range.2 hj)
      have h2 := hIt.conserved.mem_iff.1 (List.mem_append_left _ h1)
      rw [List.mem_filter] at h2
      exact Option.isSome_iff_ne_none.1 h2.2

/-- The means of `a` are before those of `b`. -/
structure Before (a b : Nat) (s : HNet M) : Prop where
  zero : s.loc 0 ≠ none
  left : s.loc a ≠ none
  right : s.loc b ≠ none
  coming : s.coming.filter (fun j => j = a ∨ j = b) = [a, b]
  fin : ∀ x ∈ s.fin, x.2.filter (fun j => j = a ∨ j = b) = [a, b]

theorem before_step (hk : 0 < k) {a b : Nat} (ha : a < k) (hb : b < k) (hab : a ≠ b) {s t : HNet M} (hr : Reachable k init comb s)
    (h : Before a b s) {i : Nat} (hi : i < k) {x : HMsg M} {rest : List (HMsg M)} (hq : s.queue i = x :: rest)
    (ht : handle k init comb { s with queue := Function.update s.queue i rest } i x = some t) : Before a b t := by
  have hI := hinv_reachable (g := fun _ => (0 : Nat)) hk (by simp) hr
  have hIt := hinv_reachable (g := fun _ => (0 : Nat)) hk (by simp) (Reachable.step hr hi hq ht)
  -- it is enough that the sequence is kept and that what is finalised is what helper 0 has
  have key : t.coming.filter (fun j => j = a ∨ j = b) = [a, b] → (∀ x ∈ t.fin, x ∈ s.fin ∨ x.2 = t.means 0) → Before a b t := by
    intro h1 h2
    refine ⟨handle_some ht h.zero, handle_some ht h.left, handle_some ht h.right, h1, fun x hx => ?_⟩
    rcases h2 x hx with h3 | h3
    · exact h.fin x h3
    · have hp := hIt.fin x hx
      rw [h3] at hp ⊢
      exact means_before ha hb hab hp h1
  cases x with
  | setup =>
    have hl : s.loc i = none := by
      by_contra hl
      exact (hI.running i hi (Option.isSome_iff_ne_none.2 hl)).1 (by rw [hq]; simp)
    have hi0 : i ≠ 0 := by rintro rfl; exact h.zero hl
    have hia : i ≠ a := by rintro rfl; exact h.left hl
    have hib : i ≠ b := by rintro rfl; exact h.right hl
    obtain ⟨h1, h2, h3, -⟩ := setup_coming (s := { s with queue := Function.update s.queue i rest }) (k := k) (init := init) hi0 (hI.fresh i hi hl).2.1 ht
    refine key ?_ h3
    rw [h1, List.filter_append]
    have : HNet.coming { s with queue := Function.update s.queue i rest } = s.coming := by
      unfold HNet.coming
      simp [Function.update_of_ne (Ne.symm hi0)]
    rw [this, h.coming]
    simp [hia, hib]
  | dec count r =>
    have hc : HNet.coming { s with queue := Function.update s.queue i rest } = s.coming := by
      unfold HNet.coming
      by_cases hi0 : 0 = i
      · subst hi0
        rw [hq, List.filterMap_cons_none (by rfl)]
        simp
      · simp [Function.update_of_ne hi0]
    unfold HNet.handle at ht
    simp only at ht
    split at ht
    · cases ht
      exact key ((congrArg (List.filter _) hc).trans h.coming)
        fun x hx => .inl hx
    · next l hl =>
      split at ht
      · obtain ⟨u, hu, ht'⟩ := Option.bind_eq_some_iff.1 ht
        cases ht'
        obtain ⟨h1, h2⟩ := quiet_sendOrFinalize hu
        have h3 := h1.trans (quiet_flush u i (by
          rw [h2]
          exact (hI.running i hi (by rw [show s.loc i = some l from hl]; rfl)).2))
        exact key (by rw [h3.coming]; exact (congrArg (List.filter _) hc).trans h.coming) h3.fin
      · cases ht
        exact key ((congrArg (List.filter _) hc).trans h.coming)
          fun x hx => .inl hx
  | means j =>
    have hi0 : i = 0 := by
      by_contra hi0
      exact hI.onlyzero i hi hi0 j (by rw [hq]; simp)
    subst hi0
    unfold HNet.handle at ht
    simp only at ht
    split at ht
    · next hl => exact absurd hl h.zero
    · cases ht
      refine key ?_ fun x hx => .inl hx
      have := h.coming
      unfold HNet.coming at this ⊢
      rw [hq] at this
      simpa [meansOf] using this

/-- Every schedule can be continued until all mailboxes are empty. -/
theorem complete (hk : 0 < k) {P : HNet M → Prop}
    (hP : ∀ s t i x rest, Reachable k init comb s → P s → i < k → s.queue i = x :: rest →
      handle k init comb { s with queue := Function.update s.queue i rest } i x = some t → P t)
    {s : HNet M} (hr : Reachable k init comb s) (hs : P s) : ∃ t, Reachable k init comb t ∧ P t ∧ ∀ i < k, t.queue i = [] := by
  induction hm : measure k s using Nat.strong_induction_on generalizing s with
  | _ m ih =>
    by_cases hq : ∀ i < k, s.queue i = []
    · exact ⟨s, hr, hs, hq⟩
    · push Not at hq
      obtain ⟨i, hi, hne⟩ := hq
      obtain ⟨x, rest, hx⟩ := List.exists_cons_of_ne_nil hne
      obtain ⟨t, h1, h2, h3⟩ := C23_threads_terminates hk hr hi hx
      exact ih _ (hm ▸ h3) h2 (hP s t i x rest hr hs hi hx h1) rfl

/-- A helper which has not been set up can be set up now. -/
theorem can_setup (hk : 0 < k) {s : HNet M} (hr : Reachable k init comb s) {i : Nat} (hi : i < k) (hl : s.loc i = none) :
    ∃ rest t, s.queue i = .setup :: rest ∧ handle k init comb { s with queue := Function.update s.queue i rest } i .setup = some t ∧
      Reachable k init comb t := by
  have hI := hinv_reachable (g := fun _ => (0 : Nat)) hk (by simp) hr
  obtain ⟨⟨rest, hq, -⟩, -⟩ := hI.fresh i hi hl
  obtain ⟨t, h1, h2, -⟩ := C23_threads_terminates hk hr hi hq
  exact ⟨rest, t, hq, h1, h2⟩

theorem setup_loc {s t : HNet M} {i : Nat} (ht : handle k init comb s i .setup = some t) : t.loc = Function.update s.loc i (some (init i)) := by
  unfold HNet.handle setup at ht
  simp only at ht
  obtain ⟨u, hu, ht⟩ := Option.bind_eq_some_iff.1 ht
  cases ht
  show u.loc = _
  rw [(quiet_sendOrFinalize hu).1.loc]
  split <;> rfl

/-- Helper 0 is set up, then `a`, then `b`. -/
theorem exists_before (hk : 0 < k) {a b : Nat} (ha : a < k) (hb : b < k) (ha0 : a ≠ 0) (hb0 : b ≠ 0) (hab : a ≠ b) (init : Nat → M) (comb : M → M → M) :
    ∃ s, Reachable k init comb s ∧ Before a b s := by
  have hr0 : Reachable k init comb { queue := fun _ => [.setup] } := .init
  obtain ⟨r0, s1, q0, t0, h1⟩ := can_setup hk hr0 hk rfl
  have l1 := setup_loc t0
  obtain ⟨r1, s2, q1, t1, h2⟩ := can_setup hk h1 ha (by rw [l1, Function.update_of_ne ha0])
  have l2 := setup_loc t1
  have hlb : s2.loc b = none := by rw [l2, Function.update_of_ne (Ne.symm hab)]; show s1.loc b = none; rw [l1, Function.update_of_ne hb0]
  obtain ⟨r2, s3, q2, t2, h3⟩ := can_setup hk h2 hb hlb
  have l3 := setup_loc t2
  have hI1 := hinv_reachable (g := fun _ => (0 : Nat)) hk (by simp) h1
  have hI2 := hinv_reachable (g := fun _ => (0 : Nat)) hk (by simp) h2
  have hI3 := hinv_reachable (g := fun _ => (0 : Nat)) hk (by simp) h3
  have hc2 := (setup_coming (s := { s1 with queue := Function.update s1.queue a r1 }) (k := k) (init := init) ha0 (hI1.fresh a ha (by rw [l1, Function.update_of_ne ha0])).2.1 t1).1
  have hc3 := (setup_coming (s := { s2 with queue := Function.update s2.queue b r2 }) (k := k) (init := init) hb0 (hI2.fresh b hb hlb).2.1 t2).1
  have e2 : HNet.coming { s1 with queue := Function.update s1.queue a r1 } = s1.coming := by
    unfold HNet.coming
    simp [Function.update_of_ne (Ne.symm ha0)]
  have e3 : HNet.coming { s2 with queue := Function.update s2.queue b r2 } = s2.coming := by
    unfold HNet.coming
    simp [Function.update_of_ne (Ne.symm hb0)]
  rw [e2] at hc2
  rw [e3, hc2] at hc3
  have hc1 : s1.coming.filter (fun j => decide (j = a ∨ j = b)) = [] := by
    rw [List.filter_eq_nil_iff]
    intro j hj
    have := (hI1.conserved.mem_iff.1 hj)
    simp only [List.mem_filter] at this
    have hj0 : j = 0 := by
      by_contra hj0
      rw [l1, Function.update_of_ne hj0] at this
      simp at this
    subst hj0
    simp [Ne.symm ha0, Ne.symm hb0]
  have hf3 : s3.coming.filter (fun j => decide (j = a ∨ j = b)) = [a, b] := by
    rw [hc3, List.filter_append, List.filter_append, hc1]
    simp
  refine ⟨s3, h3, ?_, ?_, ?_, ?_, ?_⟩
  · rw [l3, Function.update_of_ne (Ne.symm hb0)]
    show s2.loc 0 ≠ none
    rw [l2, Function.update_of_ne (Ne.symm ha0)]
    show s1.loc 0 ≠ none
    rw [l1]
    simp
  · rw [l3, Function.update_of_ne hab]
    show s2.loc a ≠ none
    rw [l2]
    simp
  · rw [l3]
    simp
  · exact hf3
  · intro x hx
    rcases handle_fin t2 x hx with h | h
    · exact absurd hlb (fin_started hk h2 (List.ne_nil_of_mem h) b hb)
    · rw [h]
      exact means_before ha hb hab (h ▸ hI3.fin x hx) hf3

/-- C81 (what fails): with three or more helpers there are two schedules with another order of the means. -/
theorem C81_means_three (hk : 3 ≤ k) (init : Nat → M) (comb : M → M → M) : ∃ s t x y, Reachable k init comb s ∧ Reachable k init comb t ∧
    s.fin = [x] ∧ t.fin = [y] ∧ x.2.filter (fun j => j = 1 ∨ j = 2) = [1, 2] ∧ y.2.filter (fun j => j = 1 ∨ j = 2) = [2, 1] := by
  have key : ∀ a b, a < k → b < k → a ≠ 0 → b ≠ 0 → a ≠ b → ∃ s x, Reachable k init comb s ∧ s.fin = [x] ∧
      x.2.filter (fun j => j = a ∨ j = b) = [a, b] := by
    intro a b ha hb ha0 hb0 hab
    obtain ⟨s, h1, h2⟩ := exists_before (by omega) ha hb ha0 hb0 hab init comb
    obtain ⟨t, h3, h4, h5⟩ := complete (by omega) (fun s t i x rest hr hs hi hq ht => before_step (by omega) ha hb hab hr hs hi hq ht) h1 h2
    obtain ⟨x, hx⟩ := List.length_eq_one_iff.1 (C23_threads_finalised (by omega) h3 h5)
    exact ⟨t, x, h3, hx, h4.fin x (by rw [hx]; simp)⟩
  obtain ⟨s, x, h1, h2, h3⟩ := key 1 2 (by omega) (by omega) (by omega) (by omega) (by omega)
  obtain ⟨t, y, h4, h5, h6⟩ := key 2 1 (by omega) (by omega) (by omega) (by omega) (by omega)
  refine ⟨s, t, x, y, h1, h4, h2, h5, h3, ?_⟩
  rw [← h6]
  congr 1
  funext j
  exact decide_eq_decide.2 or_comm

end HNet
end S2G
