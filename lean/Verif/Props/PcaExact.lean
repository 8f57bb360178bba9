import Verif.Props.PcaNet

/-!
# C23: exactly which cluster sizes are safe

Three classes of schedules of the nodes (with one or several threads per node): all schedules, those in which no message is
delivered to a node which has not entered the stage, and those in which no message is delivered to a node whose own factor is
not yet known (`Calm`).
-/

namespace S2G

open Finset

theorem outcome_finalize {k i c c' : Nat} (h : outcome k i c = some (c', .finalize)) : i = 0 := by
  have key : ∀ c, branch k i c = some .finalize → i = 0 := by
    intro c hb
    unfold branch at hb
    simp only at hb
    split at hb
    · split at hb <;> cases hb
    · split at hb
      · cases hb
      · split at hb
        · next h => exact h.1
        · cases hb
  unfold outcome at h
  obtain ⟨b', h1, h2⟩ := Option.bind_eq_some_iff.1 h
  split at h2
  · obtain ⟨b'', h3, h4⟩ := Option.map_eq_some_iff.1 h2
    simp only [Prod.mk.injEq] at h4
    obtain ⟨rfl, rfl⟩ := h4
    exact key _ h3
  · simp only [Option.some.injEq, Prod.mk.injEq] at h2
    obtain ⟨rfl, rfl⟩ := h2
    exact key _ h1

theorem outcome_le {k i c c' : Nat} {b : Branch} (h : outcome k i c = some (c', b)) : c ≤ c' := by
  unfold outcome at h
  obtain ⟨b', h1, h2⟩ := Option.bind_eq_some_iff.1 h
  split at h2
  · obtain ⟨b'', h3, h4⟩ := Option.map_eq_some_iff.1 h2
    simp only [Prod.mk.injEq] at h4
    omega
  · simp only [Option.some.injEq, Prod.mk.injEq] at h2
    omega

namespace NNet
variable {M G : Type} [AddCommMonoid G] {k : Nat} {threads : Bool} {init : Nat → M} {g : M → G} {comb : M → M → M}

/-- What `send_to_neighbor_or_finalize` changes. -/
theorem sof_cases {s t : NNet M} {i : Nat} (h : sendOrFinalize k s i = some t) : ∃ c', s.c i ≤ c' ∧
    (t = { s with c := Function.update s.c i c' } ∨
    (i = 0 ∧ ∃ r, t = { s with c := Function.update s.c i c', fin := s.fin ++ [(r, s.means i)] }) ∨
    ∃ d r, d < i ∧ d < k ∧ d + 2 ^ (Nat.clog 2 k - (c' + 1)) = i ∧
      t = { s with c := Function.update s.c i c', chan := chg s.chan i d (s.chan i d ++ [.dec (c' + 1) r]) }) := by
  rw [sendOrFinalize_eq] at h
  obtain ⟨⟨c', b⟩, h1, h2⟩ := Option.bind_eq_some_iff.1 h
  refine ⟨c', outcome_le h1, ?_⟩
  cases b with
  | skip => cases h2
  | wait => cases h2; exact Or.inl rfl
  | finalize =>
    obtain ⟨r, h3, rfl⟩ := Option.map_eq_some_iff.1 h2
    exact Or.inr (Or.inl ⟨outcome_finalize h1, r, rfl⟩)
  | send d =>
    obtain ⟨r, h3, rfl⟩ := Option.map_eq_some_iff.1 h2
    obtain ⟨d1, d2, d3, d4⟩ := outcome_send h1
    refine Or.inr (Or.inr ⟨d, r, d1, d2, d4, ?_⟩)
    simp only [post, chg, Function.update_self]

/-! ### Termination of the schedules in which nobody is early -/

/-- Number of messages under way. -/
def total (k : Nat) (ch : Nat → Nat → List (NMsg M)) : Nat := ∑ j ∈ range k, ∑ i ∈ range k, (ch j i).length

theorem total_append {ch : Nat → Nat → List (NMsg M)} {a b : Nat} (ha : a < k) (hb : b < k) (l : List (NMsg M)) :
    total k (chg ch a b (ch a b ++ l)) = total k ch + l.length := by
  have := sum_change (k := k) (f := fun j i => (ch j i).length) (f' := fun j i => (chg ch a b (ch a b ++ l) j i).length)
    (y := 0) (y' := l.length) ha hb (fun j i h => by rw [chg_ne ch _ h]) (by rw [chg_self, List.length_append, add_zero])
  rw [add_zero] at this
  exact this

theorem total_pop {ch : Nat → Nat → List (NMsg M)} {a b : Nat} (ha : a < k) (hb : b < k) {x : NMsg M} {rest : List (NMsg M)}
    (hx : ch a b = x :: rest) : total k (chg ch a b rest) + 1 = total k ch := by
  have := sum_change (k := k) (f := fun j i => (ch j i).length) (f' := fun j i => (chg ch a b rest j i).length)
    (y := 1) (y' := 0) ha hb (fun j i h => by rw [chg_ne ch _ h]) (by rw [chg_self, hx, List.length_cons, add_zero])
  rw [add_zero] at this
  exact this

theorem sof_facts {s t : NNet M} {i : Nat} (hi : i < k) (h : sendOrFinalize k s i = some t) :
    (∃ c', s.c i ≤ c' ∧ t.c = Function.update s.c i c') ∧ t.loc = s.loc ∧ t.buf = s.buf ∧ t.phase = s.phase ∧
    total k t.chan ≤ total k s.chan + 1 := by
  obtain ⟨c', h1, rfl | ⟨_, r, rfl⟩ | ⟨d, r, h2, h3, _, rfl⟩⟩ := sof_cases h
  · exact ⟨⟨c', h1, rfl⟩, rfl, rfl, rfl, Nat.le_succ _⟩
  · exact ⟨⟨c', h1, rfl⟩, rfl, rfl, rfl, Nat.le_succ _⟩
  · refine ⟨⟨c', h1, rfl⟩, rfl, rfl, rfl, ?_⟩
    simp only
    rw [total_append hi h3]
    simp

/-- The rounds which node `i` has still to do, and its own decomposition. -/
def left (k : Nat) (s : NNet M) (i : Nat) : Nat := (if (s.loc i).isSome then 0 else 1) + (Nat.clog 2 k - s.c i)

/-- The work which is left. -/
def work (k : Nat) (s : NNet M) : Nat :=
  (∑ i ∈ range k, left k s i) * (Nat.clog 2 k + 3) + total k s.chan + ∑ i ∈ range k, (2 - s.phase i)

theorem work_round {s t : NNet M} {i : Nat} (hi : i < k) (hne : ∀ a, a ≠ i → left k t a ≤ left k s a)
    (hlt : left k t i < left k s i) (htot : total k t.chan ≤ total k s.chan + (Nat.clog 2 k + 2))
    (hph : ∀ a, s.phase a ≤ t.phase a) : work k t < work k s := by
  have h1 : ∑ a ∈ range k, left k t a < ∑ a ∈ range k, left k s a := by
    apply sum_lt_sum
    · intro a _
      by_cases ha : a = i
      · subst ha; exact hlt.le
      · exact hne a ha
    · exact ⟨i, mem_range.2 hi, hlt⟩
  have h2 : ∑ a ∈ range k, (2 - t.phase a) ≤ ∑ a ∈ range k, (2 - s.phase a) := by
    apply sum_le_sum
    intro a _
    have := hph a
    omega
  unfold work
  have := Nat.mul_le_mul_right (Nat.clog 2 k + 3) (Nat.succ_le_of_lt h1)
  rw [Nat.succ_mul] at this
  omega

/-- A step of a calm schedule. -/
inductive CalmStep (k : Nat) (threads : Bool) (init : Nat → M) (comb : M → M → M) : NNet M → NNet M → Prop
  | enter {s i} : threads = true → i < k → s.phase i = 0 → CalmStep k threads init comb s (s.enter i)
  | ready {s t i} : threads = true → i < k → s.phase i = 1 → NNet.ready k threads init s i = some t →
      CalmStep k threads init comb s t
  | both {s t i} : threads = false → i < k → s.phase i = 0 → NNet.ready k threads init (s.enter i) i = some t →
      CalmStep k threads init comb s t
  | deliver {s t i j x rest} : s.phase i = 2 → s.chan j i = x :: rest →
      handle k comb { s with chan := chg s.chan j i rest } i x = some t → CalmStep k threads init comb s t

theorem CalmStep.calm {s t : NNet M} (hr : Calm k threads init comb s) (h : CalmStep k threads init comb s t) :
    Calm k threads init comb t := by
  cases h with
  | enter h1 h2 h3 => exact .enter hr h1 h2 h3
  | ready h1 h2 h3 h4 => exact .ready hr h1 h2 h3 h4
  | both h1 h2 h3 h4 => exact .both hr h1 h2 h3 h4
  | deliver h1 h2 h3 => exact .deliver hr h1 h2 h3

theorem calm_none {s : NNet M} (h : NInv k init g none s) {i : Nat} (hp : s.phase i ≠ 2) : s.loc i = none := by
  by_contra hl
  exact hp ((h.phase i).2 (Option.isSome_iff_ne_none.2 hl))

/-- Entering the stage in a calm schedule. -/
theorem enter_eq {s : NNet M} (h : NInv k init g none s) {i : Nat} (hl : s.loc i = none) :
    s.enter i = { s with phase := Function.update s.phase i 1 } := by
  obtain ⟨e1, e2⟩ := h.early i hl
  have hc : s.c i = 0 := h.tree.fresh i hl
  unfold enter
  have h1 : Function.update s.loc i none = s.loc := by rw [← hl, Function.update_eq_self]
  have h2 : Function.update s.c i 0 = s.c := by rw [← hc, Function.update_eq_self]
  have h3 : Function.update s.buf i [] = s.buf := by rw [← e1, Function.update_eq_self]
  have h4 : Function.update s.mbuf i [] = s.mbuf := by rw [← h.mbuf i, Function.update_eq_self]
  have h5 : Function.update s.means i [] = s.means := by rw [← e2, Function.update_eq_self]
  rw [h1, h2, h3, h4, h5]

/-- The state of node `i` before it sends its factor. -/
def begun (init : Nat → M) (s : NNet M) (i : Nat) : NNet M :=
  { s with
    phase := Function.update s.phase i 2
    loc := Function.update s.loc i (some (init i))
    means := Function.update s.means i [i]
    chan := if i = 0 then s.chan else chg s.chan i 0 (s.chan i 0 ++ [.means i]) }

/-- The own factor becomes known while the buffers are empty. -/
theorem ready_eq {s t : NNet M} {i : Nat} (hb : s.buf i = []) (hm : s.mbuf i = [])
    (h : NNet.ready k threads init s i = some t) : sendOrFinalize k (begun init s i) i = some t := by
  unfold NNet.ready at h
  simp only [Option.bind_eq_bind] at h
  obtain ⟨u, h1, h2⟩ := Option.bind_eq_some_iff.1 h
  have e : (if i = 0 then ({ s with
        phase := Function.update s.phase i 2
        loc := Function.update s.loc i (some (init i))
        means := Function.update s.means i [i] } : NNet M)
      else ({ s with
        phase := Function.update s.phase i 2
        loc := Function.update s.loc i (some (init i))
        means := Function.update s.means i [i] } : NNet M).post i 0 [.means i]) = begun init s i := by
    by_cases hi0 : i = 0
    · simp only [hi0, begun, if_true]
    · simp only [hi0, begun, if_false, post, chg]
  rw [e] at h1
  have hu : u.buf i = [] ∧ u.mbuf i = [] := by
    obtain ⟨c', _, rfl | ⟨_, r, rfl⟩ | ⟨d, r, _, _, _, rfl⟩⟩ := sof_cases h1 <;> exact ⟨hb, hm⟩
  have : u = t := by
    simp only [flush_nil hu.1, flushMeans_nil hu.2, ite_self, Option.some.injEq] at h2
    exact h2
  rw [← this]
  exact h1

theorem work_ready {s t : NNet M} {i : Nat} (hi : i < k) (hl : s.loc i = none)
    (h : sendOrFinalize k (begun init s i) i = some t) (hp : s.phase i ≤ 2) : work k t < work k s := by
  have hk : 0 < k := by omega
  have htot : total k (begun init s i).chan ≤ total k s.chan + 1 := by
    unfold begun
    simp only
    split
    · omega
    · rw [total_append hi hk]
      simp
  have hph : ∀ a, s.phase a ≤ (begun init s i).phase a := by
    intro a
    unfold begun
    by_cases ha : a = i
    · subst ha; simpa using hp
    · simp [ha]
  obtain ⟨⟨c', h1, e1⟩, e2, _, e4, e5⟩ := sof_facts hi h
  have h1' : s.c i ≤ c' := h1
  refine work_round hi ?_ ?_ (by omega) (fun a => by rw [e4]; exact hph a)
  · intro a ha
    simp [left, e1, e2, begun, ha]
  · simp only [left, e1, e2, begun, Function.update_self, Option.isSome_some, if_true, hl, Option.isSome_none]
    simp
    omega

/-- Every step of a calm schedule reduces the work which is left: all calm schedules end. -/
theorem work_lt (hk : 0 < k) {s t : NNet M} (hr : Calm k threads init comb s)
    (hst : CalmStep k threads init comb s t) : work k t < work k s := by
  have h := ninv_calm (g := fun _ => (0 : Nat)) hk (by simp) hr
  cases hst with
  | @enter i h1 hi hp =>
    rw [enter_eq h (calm_none h (by omega))]
    have : ∑ a ∈ range k, (2 - Function.update s.phase i 1 a) < ∑ a ∈ range k, (2 - s.phase a) := by
      apply sum_lt_sum
      · intro a _
        by_cases ha : a = i
        · subst ha; simp; omega
        · simp [ha]
      · exact ⟨i, mem_range.2 hi, by simp [hp]⟩
    unfold work
    simp only
    have e : ∀ a, left k { s with phase := Function.update s.phase i 1 } a = left k s a := fun _ => rfl
    simp only [e]
    omega
  | ready h1 hi hp ht =>
    rename_i i
    have hl := calm_none h (i := i) (by omega)
    exact work_ready hi hl (ready_eq (h.early i hl).1 (h.mbuf i) ht) (by omega)
  | both h1 hi hp ht =>
    rename_i i
    have hl := calm_none h (i := i) (by omega)
    have hen := ninv_enter h hl
    rw [enter_eq h hl] at ht hen
    have h2 := work_ready (s := { s with phase := Function.update s.phase i 1 }) hi hl
      (ready_eq (hen.early i hl).1 (hen.mbuf i) ht) (by simp)
    refine lt_of_lt_of_le h2 ?_
    unfold work
    simp only
    have e : ∀ a, left k { s with phase := Function.update s.phase i 1 } a = left k s a := fun _ => rfl
    simp only [e]
    have : ∑ a ∈ range k, (2 - Function.update s.phase i 1 a) ≤ ∑ a ∈ range k, (2 - s.phase a) := by
      apply sum_le_sum
      intro a _
      by_cases ha : a = i
      · subst ha; simp; omega
      · simp [ha]
    omega
  | deliver hp hx ht =>
    rename_i i j x rest
    obtain ⟨hj, hi⟩ := h.dom j i (by rw [hx]; simp)
    obtain ⟨l, hl⟩ := Option.isSome_iff_exists.1 ((h.phase i).1 hp)
    have hpop := total_pop (k := k) hj hi hx
    cases x with
    | means a =>
      simp only [handle, hl] at ht
      cases ht
      unfold work
      simp only
      have e : ∀ b, left k { s with means := Function.update s.means i (s.means i ++ [a]), chan := chg s.chan j i rest } b =
          left k s b := fun _ => rfl
      simp only [e]
      omega
    | dec r m =>
      simp only [handle, hl] at ht
      by_cases hr' : r = s.c i + 1
      · rw [if_pos hr'] at ht
        simp only [Option.bind_eq_bind] at ht
        obtain ⟨u, h1, h2⟩ := Option.bind_eq_some_iff.1 ht
        cases h2
        have hbuf := TreeNet.buf_length h.tree i
        have hbuf' : (s.buf i).length ≤ Nat.clog 2 k := hbuf
        have hrl : r ≤ Nat.clog 2 k := by
          have hmem : (i, r, m) ∈ poolM k s.chan := by
            rw [← poolM_pop hj hi hx, decs_dec]
            simp
          exact (h.tree.pool i r m (Or.inl (Multiset.mem_toList.2 hmem))).2.1
        have hfl : ∀ v : NNet M, v.buf = s.buf → total k (v.flush i).chan = total k v.chan + (s.buf i).length := by
          intro v hv
          have : (v.flush i).chan = chg v.chan i i (v.chan i i ++ (v.buf i).reverse.map (fun x => .dec x.1 x.2)) := rfl
          rw [this, total_append hi hi, List.length_map, List.length_reverse, hv]
        have hloc : ∀ a, (Function.update s.loc i (some (comb l m)) a).isSome ↔ (s.loc a).isSome := by
          intro a
          by_cases ha : a = i
          · subst ha; simp [hl]
          · simp [ha]
        have hleft : ∀ (v : NNet M) c', v.loc = Function.update s.loc i (some (comb l m)) →
            v.c = Function.update (Function.update s.c i r) i c' → r ≤ c' →
            (∀ a, a ≠ i → left k v a ≤ left k s a) ∧ left k v i < left k s i := by
          intro v c' e1 e2 e3
          constructor
          · intro a ha
            simp [left, e1, e2, ha]
          · simp only [left, e1, e2, Function.update_self, Option.isSome_some, if_true, hl]
            omega
        obtain ⟨⟨c', hc', e1⟩, e2, e3, e4, e5⟩ := sof_facts hi h1
        obtain ⟨l1, l2⟩ := hleft (u.flush i) c' e2 e1 (by simpa using hc')
        refine work_round hi l1 l2 ?_ (fun a => ?_)
        · rw [hfl u e3]
          simp only at e5
          omega
        · show s.phase a ≤ u.phase a
          rw [e4]
      · rw [if_neg hr'] at ht
        cases ht
        unfold work
        simp only
        have e : ∀ b, left k { s with buf := Function.update s.buf i (s.buf i ++ [(r, m)]), chan := chg s.chan j i rest } b =
            left k s b := fun _ => rfl
        simp only [e]
        omega

/-- C23, nodes, nobody early: every schedule ends after at most this number of steps. -/
theorem C23_calm_terminates (hk : 0 < k) {run : Nat → NNet M} {n : Nat} (h0 : run 0 = {})
    (hst : ∀ m < n, CalmStep k threads init comb (run m) (run (m + 1))) :
    n ≤ k * (1 + Nat.clog 2 k) * (Nat.clog 2 k + 3) + 2 * k := by
  have key : ∀ m, m ≤ n → Calm k threads init comb (run m) ∧ work k (run m) + m ≤ work k ({} : NNet M) := by
    intro m
    induction m with
    | zero =>
      intro _
      rw [h0]
      exact ⟨Calm.init, le_refl _⟩
    | succ m ih =>
      intro hm
      obtain ⟨h1, h2⟩ := ih (by omega)
      have h3 := hst m (by omega)
      exact ⟨h3.calm h1, by have := work_lt hk h1 h3; omega⟩
  have h1 := (key n (le_refl n)).2
  have h2 : work k ({} : NNet M) = k * (1 + Nat.clog 2 k) * (Nat.clog 2 k + 3) + 2 * k := by
    simp only [work, left, total, Option.isSome_none, Bool.false_eq_true, if_false, Nat.sub_zero, List.length_nil,
      sum_const, card_range, smul_eq_mul, Nat.mul_zero, Nat.add_zero]
    omega
  omega

theorem calm_phase {s : NNet M} (hr : Calm k threads init comb s) (i : Nat) :
    s.phase i ≤ 2 ∧ (threads = false → s.phase i ≠ 1) := by
  have hrd : ∀ {s t : NNet M} {a : Nat}, NNet.ready k threads init s a = some t → t.phase = Function.update s.phase a 2 := by
    intro s t a h
    unfold NNet.ready at h
    simp only [Option.bind_eq_bind] at h
    obtain ⟨u, h1, h2⟩ := Option.bind_eq_some_iff.1 h
    have hu : u.phase = Function.update s.phase a 2 := by
      obtain ⟨c', _, rfl | ⟨_, r, rfl⟩ | ⟨d, r, _, _, _, rfl⟩⟩ := sof_cases h1 <;> (simp only; split <;> rfl)
    cases h2
    split <;> exact hu
  induction hr with
  | init => simp
  | @enter s a _ h1 _ h3 ih =>
    by_cases ha : i = a
    · subst ha; simp [enter, h1]
    · simpa [enter, ha] using ih
  | @ready s t a _ h1 _ h3 h4 ih =>
    rw [hrd h4]
    by_cases ha : i = a
    · subst ha; simp
    · simpa [ha] using ih
  | @both s t a _ h1 _ h3 h4 ih =>
    rw [hrd h4]
    by_cases ha : i = a
    · subst ha; simp
    · simpa [ha, enter] using ih
  | @deliver s t a j x rest _ _ _ ht ih =>
    have : t.phase = s.phase := by
      cases x with
      | means b =>
        cases hl : s.loc a with
        | none => simp only [handle, hl] at ht; cases ht; rfl
        | some l => simp only [handle, hl] at ht; cases ht; rfl
      | dec r m =>
        cases hl : s.loc a with
        | none => simp only [handle, hl] at ht; cases ht; rfl
        | some l =>
          simp only [handle, hl] at ht
          split at ht
          · simp only [Option.bind_eq_bind] at ht
            obtain ⟨u, h1, h2⟩ := Option.bind_eq_some_iff.1 ht
            cases h2
            obtain ⟨c', _, rfl | ⟨_, r, rfl⟩ | ⟨d, r, _, _, _, rfl⟩⟩ := sof_cases h1 <;> rfl
          · cases ht; rfl
    rw [this]
    exact ih

/-- The means which are used are those which are there. -/
theorem calm_fin {s t : NNet M} {x : M × List Nat} (hk : 0 < k) (hr : Calm k threads init comb s)
    (hst : CalmStep k threads init comb s t) (hx : t.fin = s.fin ++ [x]) : x.2 = t.means 0 := by
  have h := ninv_calm (g := fun _ => (0 : Nat)) hk (by simp) hr
  have hsof : ∀ {u v : NNet M} {i : Nat}, sendOrFinalize k u i = some v → u.fin = s.fin → v.fin = s.fin ++ [x] →
      x.2 = v.means 0 := by
    intro u v i huv hu hv
    obtain ⟨c', _, rfl | ⟨rfl, r, rfl⟩ | ⟨d, r, _, _, _, rfl⟩⟩ := sof_cases huv
    · simp only [hu] at hv
      simp at hv
    · simp only [hu, List.append_cancel_left_eq, List.cons.injEq, and_true] at hv
      rw [← hv]
    · simp only [hu] at hv
      simp at hv
  cases hst with
  | enter h1 hi hp =>
    rw [show (s.enter _).fin = s.fin from rfl] at hx
    simp at hx
  | ready h1 hi hp ht =>
    rename_i i
    have hl := calm_none h (i := i) (by omega)
    exact hsof (ready_eq (h.early i hl).1 (h.mbuf i) ht) rfl hx
  | both h1 hi hp ht =>
    rename_i i
    have hl := calm_none h (i := i) (by omega)
    have hen := ninv_enter h hl
    exact hsof (ready_eq (hen.early i (by simp [enter])).1 (hen.mbuf i) ht) rfl hx
  | deliver hp hc ht =>
    rename_i i j y rest
    obtain ⟨l, hl⟩ := Option.isSome_iff_exists.1 ((h.phase i).1 hp)
    cases y with
    | means a =>
      simp only [handle, hl] at ht
      cases ht
      simp at hx
    | dec r m =>
      simp only [handle, hl] at ht
      split at ht
      · simp only [Option.bind_eq_bind] at ht
        obtain ⟨u, h1, h2⟩ := Option.bind_eq_some_iff.1 ht
        cases h2
        have hx' : u.fin = s.fin ++ [x] := hx
        have := hsof h1 (by rfl) hx'
        exact this
      · cases ht
        simp at hx

/-- C23, nodes, nobody early, every schedule: the means are complete exactly if no means are under way to node 0 when it
finalises. -/
theorem C23_calm_complete_iff {s t : NNet M} {x : M × List Nat} (hk : 0 < k) (hr : Calm k threads init comb s)
    (hst : CalmStep k threads init comb s t) (hx : t.fin = s.fin ++ [x]) :
    x.2.Perm (List.range k) ↔ ∀ j a, .means a ∉ t.chan j 0 := by
  have h := ninv_calm (g := fun _ => (0 : Nat)) hk (by simp) (hst.calm hr)
  rw [calm_fin hk hr hst hx]
  have hall : ∀ j < k, (t.loc j).isSome := by
    have hf : ((abs k t).loc 0).isSome ∧ (abs k t).c 0 = Nat.clog 2 k ∧ (none : Option Nat) ≠ some 0 := by
      by_contra hc
      have := h.tree.fin.2.2 hc
      rw [show (abs k t).fin = t.fin.map Prod.fst from rfl, hx] at this
      simp at this
    obtain ⟨l, hl⟩ := Option.isSome_iff_exists.1 hf.1
    have hh := (h.tree.holds 0 l hl).1
    rw [hf.2.1, cls_full] at hh
    exact fun j hj => hh j (mem_range.2 hj)
  have hcons := h.conserved
  rw [List.filter_eq_self.2 (by simpa using hall)] at hcons
  rw [← Multiset.coe_eq_coe]
  constructor
  · intro he j a ha
    rw [he] at hcons
    have h0 : meansM k t.chan = 0 := by simpa using hcons
    have hj : j < k := (h.dom j 0 (List.ne_nil_of_mem ha)).1
    have hs := (sum_eq_zero_iff.1 h0) j (mem_range.2 hj)
    have : a ∈ (t.chan j 0).filterMap meansOf := List.mem_filterMap.2 ⟨_, ha, rfl⟩
    rw [Multiset.coe_eq_zero] at hs
    rw [hs] at this
    cases this
  · intro hn
    have h0 : meansM k t.chan = 0 := by
      unfold meansM
      apply sum_eq_zero
      intro j _
      rw [Multiset.coe_eq_zero, List.filterMap_eq_nil_iff]
      intro y hy
      cases y with
      | dec r m => rfl
      | means a => exact absurd hy (hn j a)
    rw [h0, add_zero] at hcons
    exact hcons

-- two nodes: node 0 finalises when the factor of node 1 arrives
example : ∃ s t x, Calm 2 false (fun i => [i]) (· ++ ·) s ∧ CalmStep 2 false (fun i => [i]) (· ++ ·) s t ∧
    t.fin = s.fin ++ [x] ∧ x = ([0, 1], [0, 1]) :=
  ⟨_, _, _, calmExec_calm (k := 2) (threads := false) (init := fun i => [i]) (comb := (· ++ ·)) (s := {})
    (es := [.both 0, .both 1, .deliver 1 0]) Calm.init rfl, CalmStep.deliver (i := 0) (j := 1) rfl rfl rfl, rfl, rfl⟩

/-! ### The means of node 3 are slow -/

/-- Node 0 does not have the means of node 3. -/
structure Slow (s : NNet M) : Prop where
  direct : ∀ r m, .dec r m ∉ s.chan 3 0
  other : ∀ j, j ≠ 3 → .means 3 ∉ s.chan j 0
  held : 3 ∉ s.means 0
  fin : ∀ x ∈ s.fin, 3 ∉ x.2

theorem slow_sof {s t : NNet M} {i : Nat} (h : Slow s) (ht : sendOrFinalize k s i = some t) : Slow t := by
  obtain ⟨c', _, rfl | ⟨rfl, r, rfl⟩ | ⟨d, r, h2, h3, h4, rfl⟩⟩ := sof_cases ht
  · exact ⟨h.direct, h.other, h.held, h.fin⟩
  · refine ⟨h.direct, h.other, h.held, ?_⟩
    intro x hx
    rcases List.mem_append.1 hx with hx | hx
    · exact h.fin x hx
    · rw [List.mem_singleton] at hx
      subst hx
      exact h.held
  · refine ⟨?_, ?_, h.held, h.fin⟩
    · intro r' m'
      by_cases hid : 3 = i ∧ 0 = d
      · obtain ⟨rfl, rfl⟩ := hid
        exfalso
        rw [Nat.zero_add] at h4
        rcases Nat.eq_zero_or_pos (Nat.clog 2 k - (c' + 1)) with h0 | h0
        · rw [h0] at h4; omega
        · obtain ⟨e, he⟩ : ∃ e, Nat.clog 2 k - (c' + 1) = e + 1 := ⟨_, (Nat.sub_add_cancel h0).symm⟩
          rw [he, Nat.pow_succ] at h4
          omega
      · simp only [chg_ne _ _ hid]
        exact h.direct r' m'
    · intro j hj
      by_cases hid : j = i ∧ 0 = d
      · obtain ⟨rfl, rfl⟩ := hid
        simp only [chg_self, List.mem_append, List.mem_singleton, not_or]
        exact ⟨h.other j hj, by simp⟩
      · simp only [chg_ne _ _ hid]
        exact h.other j hj

theorem slow_begun {s : NNet M} (h : Slow s) (i : Nat) : Slow (begun init s i) := by
  refine ⟨?_, ?_, ?_, h.fin⟩
  · intro r m
    simp only [begun]
    split
    · exact h.direct r m
    · by_cases hi : 3 = i ∧ 0 = 0
      · obtain ⟨rfl, -⟩ := hi
        rw [chg_self, List.mem_append, not_or]
        exact ⟨h.direct r m, by simp⟩
      · rw [chg_ne _ _ hi]
        exact h.direct r m
  · intro j hj
    simp only [begun]
    split
    · exact h.other j hj
    · by_cases hi : j = i ∧ 0 = 0
      · obtain ⟨rfl, -⟩ := hi
        rw [chg_self, List.mem_append, not_or]
        exact ⟨h.other j hj, by simpa using fun h' => hj h'.symm⟩
      · rw [chg_ne _ _ hi]
        exact h.other j hj
  · simp only [begun]
    by_cases hi : 0 = i
    · subst hi; simp
    · rw [Function.update_of_ne hi]; exact h.held

/-- Everything but the messages from node 3 to node 0 can be delivered. -/
theorem slow_step {s t : NNet M} {i j : Nat} (h : Slow s) (hij : ¬(j = 3 ∧ i = 0)) {x : NMsg M} {rest : List (NMsg M)}
    (hx : s.chan j i = x :: rest) (ht : handle k comb { s with chan := chg s.chan j i rest } i x = some t) : Slow t := by
  have hsub : ∀ a b, ∀ y ∈ chg s.chan j i rest a b, y ∈ s.chan a b := by
    intro a b y hy
    by_cases hab : a = j ∧ b = i
    · obtain ⟨rfl, rfl⟩ := hab
      rw [chg_self] at hy
      rw [hx]
      exact List.mem_cons_of_mem _ hy
    · rwa [chg_ne _ _ hab] at hy
  have hbase : Slow { s with chan := chg s.chan j i rest } :=
    ⟨fun r m hm => h.direct r m (hsub _ _ _ hm), fun a ha hm => h.other a ha (hsub _ _ _ hm), h.held, h.fin⟩
  cases x with
  | means a =>
    simp only [handle] at ht
    split at ht
    · cases ht
      refine ⟨hbase.direct, hbase.other, ?_, h.fin⟩
      simp only
      by_cases hi : 0 = i
      · subst hi
        rw [Function.update_self, List.mem_append, not_or]
        refine ⟨h.held, ?_⟩
        rintro h3
        rw [List.mem_singleton] at h3
        subst h3
        exact h.other j (fun h' => hij ⟨h', rfl⟩) (by rw [hx]; simp)
      · rw [Function.update_of_ne hi]; exact h.held
    · cases ht
      exact ⟨hbase.direct, hbase.other, h.held, h.fin⟩
  | dec r m =>
    simp only [handle] at ht
    split at ht
    · split at ht
      · simp only [Option.bind_eq_bind] at ht
        obtain ⟨u, h1, h2⟩ := Option.bind_eq_some_iff.1 ht
        have hu : Slow u := slow_sof (by exact ⟨hbase.direct, hbase.other, h.held, h.fin⟩) h1
        cases h2
        refine ⟨?_, ?_, hu.held, hu.fin⟩
        · intro r' m' hm
          have e : (u.flush i).chan = chg u.chan i i (u.chan i i ++ (u.buf i).reverse.map (fun x => .dec x.1 x.2)) := rfl
          rw [e, chg_ne _ _ (by omega)] at hm
          exact hu.direct r' m' hm
        · intro a ha hm
          have e : (u.flush i).chan = chg u.chan i i (u.chan i i ++ (u.buf i).reverse.map (fun x => .dec x.1 x.2)) := rfl
          rw [e] at hm
          by_cases hai : a = i ∧ 0 = i
          · obtain ⟨rfl, rfl⟩ := hai
            rw [chg_self, List.mem_append] at hm
            rcases hm with hm | hm
            · exact hu.other _ ha hm
            · simp at hm
          · rw [chg_ne _ _ hai] at hm
            exact hu.other _ ha hm
      · cases ht
        exact ⟨hbase.direct, hbase.other, h.held, h.fin⟩
    · cases ht
      exact ⟨hbase.direct, hbase.other, h.held, h.fin⟩

/-- Run everything but the channel from node 3 to node 0. -/
theorem slow_end (hk : 0 < k) : ∀ (n : Nat) {s : NNet M}, work k s ≤ n → Calm k threads init comb s → Slow s →
    ∃ t, Calm k threads init comb t ∧ Slow t ∧ (∀ i < k, t.phase i = 2) ∧ ∀ j i, ¬(j = 3 ∧ i = 0) → t.chan j i = [] := by
  intro n
  induction n with
  | zero =>
    intro s hn hr hs
    by_cases hph : ∀ i < k, s.phase i = 2
    · by_cases hch : ∀ j i, ¬(j = 3 ∧ i = 0) → s.chan j i = []
      · exact ⟨s, hr, hs, hph, hch⟩
      · exfalso
        push Not at hch
        obtain ⟨j, i, _, hne⟩ := hch
        have h := ninv_calm (g := fun _ => (0 : Nat)) hk (by simp) hr
        obtain ⟨hj, hi⟩ := h.dom j i hne
        obtain ⟨x, rest, hx⟩ := List.exists_cons_of_ne_nil hne
        have := total_pop (k := k) hj hi hx
        unfold work at hn
        omega
    · exfalso
      push Not at hph
      obtain ⟨i, hi, hp⟩ := hph
      have h1 := (calm_phase hr i).1
      have h2 : 2 - s.phase i ≤ ∑ a ∈ range k, (2 - s.phase a) :=
        single_le_sum (f := fun a => 2 - s.phase a) (fun _ _ => Nat.zero_le _) (mem_range.2 hi)
      unfold work at hn
      omega
  | succ n ih =>
    intro s hn hr hs
    have h := ninv_calm (g := fun _ => (0 : Nat)) hk (by simp) hr
    by_cases hph : ∀ i < k, s.phase i = 2
    · by_cases hch : ∀ j i, ¬(j = 3 ∧ i = 0) → s.chan j i = []
      · exact ⟨s, hr, hs, hph, hch⟩
      · push Not at hch
        obtain ⟨j, i, hij, hne⟩ := hch
        obtain ⟨hj, hi⟩ := h.dom j i hne
        obtain ⟨x, rest, hx⟩ := List.exists_cons_of_ne_nil hne
        obtain ⟨t, ht, _⟩ := ninv_handle (comb := comb) hk (by simp) h (hph i hi) hx
        have hst : CalmStep k threads init comb s t := .deliver (hph i hi) hx ht
        exact ih (by have := work_lt hk hr hst; omega) (hst.calm hr)
          (slow_step hs (fun h' => absurd (hij h'.1) (by omega)) hx ht)
    · push Not at hph
      obtain ⟨i, hi, hp⟩ := hph
      obtain ⟨h1, h2⟩ := calm_phase hr i
      have hl := calm_none h hp
      have hsl : Slow { s with phase := Function.update s.phase i 1 } := ⟨hs.direct, hs.other, hs.held, hs.fin⟩
      cases threads with
      | true =>
        have hcase : s.phase i = 0 ∨ s.phase i = 1 := by omega
        rcases hcase with h0 | h0
        · have hst : CalmStep k true init comb s (s.enter i) := .enter rfl hi h0
          refine ih (by have := work_lt hk hr hst; omega) (hst.calm hr) ?_
          rw [enter_eq h hl]
          exact hsl
        · obtain ⟨t, ht, _⟩ := ninv_ready (threads := true) hk h hi hl
          have hst : CalmStep k true init comb s t := .ready rfl hi h0 ht
          exact ih (by have := work_lt hk hr hst; omega) (hst.calm hr)
            (slow_sof (slow_begun hs i) (ready_eq (h.early i hl).1 (h.mbuf i) ht))
      | false =>
        have h0 : s.phase i = 0 := by have := h2 rfl; omega
        have hen := ninv_enter h hl
        have hle : (s.enter i).loc i = none := by simp [enter]
        obtain ⟨t, ht, _⟩ := ninv_ready (threads := false) hk hen hi hle
        have hst : CalmStep k false init comb s t := .both rfl hi h0 ht
        refine ih (by have := work_lt hk hr hst; omega) (hst.calm hr)
          (slow_sof (slow_begun (s := s.enter i) ?_ i) (ready_eq (hen.early i hle).1 (hen.mbuf i) ht))
        rw [enter_eq h hl]
        exact hsl

/-- C23 (what fails), four or more nodes, with one or several threads, nobody early: there is a schedule in which node 0
finalises without the means of node 3. -/
theorem C23_calm_missing (hk : 4 ≤ k) (threads : Bool) (init : Nat → M) (comb : M → M → M) :
    ∃ s x, Calm k threads init comb s ∧ (∀ i < k, s.phase i = 2) ∧ s.fin = [x] ∧ 3 ∉ x.2 := by
  obtain ⟨t, hr, hs, hph, hch⟩ := slow_end (k := k) (threads := threads) (init := init) (comb := comb) (by omega) _ (le_refl _)
    Calm.init (by constructor <;> simp)
  have h := ninv_calm (g := fun _ => (0 : Nat)) (by omega : 0 < k) (by simp) hr
  have h1 := TreeNet.inv_quiescent (by omega : 0 < k) h.tree (fun i hi => (h.phase i).1 (hph i hi)) (by
    show (poolM k t.chan).toList = []
    have : poolM k t.chan = 0 := by
      unfold poolM
      apply sum_eq_zero
      intro j _
      apply sum_eq_zero
      intro i _
      by_cases hij : j = 3 ∧ i = 0
      · obtain ⟨rfl, rfl⟩ := hij
        unfold decs
        have : (t.chan 3 0).filterMap decOf = [] := by
          rw [List.filterMap_eq_nil_iff]
          intro x hx
          cases x with
          | dec r m => exact absurd hx (hs.direct r m)
          | means a => rfl
        rw [this]
        rfl
      · rw [hch j i hij]
        rfl
    rw [this, Multiset.toList_zero])
  rw [show (abs k t).fin = t.fin.map Prod.fst from rfl, List.length_map] at h1
  obtain ⟨x, hx⟩ := List.length_eq_one_iff.1 h1
  exact ⟨t, x, hr, hph, hx, hs.fin x (by rw [hx]; simp)⟩

/-- C23, nodes, nobody early: the means with which node 0 finalises are complete in all schedules exactly for clusters of at most
three nodes. -/
theorem C23_calm_exact (hk : 0 < k) (threads : Bool) (init : Nat → M) (comb : M → M → M) :
    (∀ s, Calm k threads init comb s → ∀ x ∈ s.fin, x.2.Perm (List.range k)) ↔ k ≤ 3 := by
  constructor
  · intro h
    by_contra hk4
    obtain ⟨s, x, hr, _, hx, h3⟩ := C23_calm_missing (k := k) (by omega) threads init comb
    exact h3 ((h s hr x (by rw [hx]; simp)).mem_iff.2 (List.mem_range.2 (by omega)))
  · intro h3 s hr x hx
    exact ((C23_calm_three (g := fun _ => (0 : Nat)) hk h3 (by simp) hr).2 x hx).2

/-! ### Messages which arrive before the receiver has entered the stage -/

theorem _root_.S2G.outcome_start {k i : Nat} (hi : i < k) : ∃ c' b, outcome k i 0 = some (c', b) ∧ b ≠ .skip := by
  obtain ⟨t, h1, _⟩ := TreeNet.inv_start (k := k) (ns := k) (init := fun _ => ()) (g := fun _ => (0 : Nat)) (le_refl k)
    TreeNet.inv_init (i := i) hi rfl
  unfold TreeNet.startStep at h1
  simp only [Option.bind_eq_bind] at h1
  obtain ⟨u, h2, _⟩ := Option.bind_eq_some_iff.1 h1
  rw [TreeNet.sendOrFinalize_eq] at h2
  obtain ⟨⟨c', b⟩, h3, h4⟩ := Option.bind_eq_some_iff.1 h2
  refine ⟨c', b, h3, ?_⟩
  rintro rfl
  cases h4

/-- Node 0 waits first, if there is another node. -/
theorem _root_.S2G.outcome_first {k : Nat} (hk : 2 ≤ k) : outcome k 0 0 = some (0, .wait) := by
  have hp : 0 < Nat.clog 2 k := Nat.clog_pos (by omega) hk
  have h1 := clog_gt hp
  have e : nextPow k / 2 ^ (0 + 1) = 2 ^ (Nat.clog 2 k - 1) := Nat.pow_div (by omega) (by omega)
  have h2 : 0 < 2 ^ (Nat.clog 2 k - 1) := by positivity
  have hb : branch k 0 0 = some .wait := by
    unfold branch
    simp only [e]
    rw [if_neg (by omega), if_neg (by omega), if_neg (by omega)]
  unfold outcome
  rw [hb]
  simp

/-- Deliver everything to nodes which are not ready: it only gets into their buffers. -/
theorem drain : ∀ (n : Nat) {s : NNet M}, total k s.chan ≤ n → Reachable k threads init comb s →
    (∀ j i, s.chan j i ≠ [] → j < k ∧ i < k ∧ s.loc i = none) →
    ∃ t, Reachable k threads init comb t ∧ (∀ j i, t.chan j i = []) ∧ t.loc = s.loc ∧ t.phase = s.phase ∧ t.fin = s.fin := by
  intro n
  induction n with
  | zero =>
    intro s hn hr hdom
    refine ⟨s, hr, ?_, rfl, rfl, rfl⟩
    intro j i
    by_contra hne
    obtain ⟨hj, hi, _⟩ := hdom j i hne
    obtain ⟨x, rest, hx⟩ := List.exists_cons_of_ne_nil hne
    have := total_pop (k := k) hj hi hx
    omega
  | succ n ih =>
    intro s hn hr hdom
    by_cases hch : ∀ j i, s.chan j i = []
    · exact ⟨s, hr, hch, rfl, rfl, rfl⟩
    · push Not at hch
      obtain ⟨j, i, hne⟩ := hch
      obtain ⟨hj, hi, hl⟩ := hdom j i hne
      obtain ⟨x, rest, hx⟩ := List.exists_cons_of_ne_nil hne
      have hpop := total_pop (k := k) hj hi hx
      obtain ⟨t, ht, h1, h2, h3, h4⟩ : ∃ t, handle k comb { s with chan := chg s.chan j i rest } i x = some t ∧
          t.chan = chg s.chan j i rest ∧ t.loc = s.loc ∧ t.phase = s.phase ∧ t.fin = s.fin := by
        cases x with
        | means a => simp only [handle, hl]; exact ⟨_, rfl, rfl, rfl, rfl, rfl⟩
        | dec r m => simp only [handle, hl]; exact ⟨_, rfl, rfl, rfl, rfl, rfl⟩
      obtain ⟨u, g1, g2, g3, g4, g5⟩ := ih (s := t) (by rw [h1]; omega) (.step hr (.deliver hx ht)) (by
        intro a b hab
        rw [h1] at hab
        rw [h2]
        by_cases h' : a = j ∧ b = i
        · obtain ⟨rfl, rfl⟩ := h'
          exact ⟨hj, hi, hl⟩
        · rw [chg_ne _ _ h'] at hab
          exact hdom a b hab)
      exact ⟨u, g1, g2, g3.trans h2, g4.trans h3, g5.trans h4⟩

/-- The nodes from `m` on are ready, the others have not entered, and nothing is under way. -/
structure Down (k m : Nat) (s : NNet M) : Prop where
  done : ∀ i, m ≤ i → i < k → s.phase i = 2
  early : ∀ i < m, s.phase i = 0 ∧ s.loc i = none
  empty : ∀ j i, s.chan j i = []
  fin : s.fin = []

/-- The next node enters and gets ready. -/
theorem down_ready {s : NNet M} {i : Nat} (hr : Reachable k threads init comb s) (hi : i < k) (hp : s.phase i = 0) :
    ∃ t, Reachable k threads init comb t ∧ sendOrFinalize k (begun init (s.enter i) i) i = some t := by
  obtain ⟨c', b, h1, h2⟩ := outcome_start hi
  obtain ⟨t, ht⟩ : ∃ t, sendOrFinalize k (begun init (s.enter i) i) i = some t := by
    rw [sendOrFinalize_eq]
    have e : (begun init (s.enter i) i).c i = 0 := by simp [begun, enter]
    have e2 : (begun init (s.enter i) i).loc i = some (init i) := by simp [begun]
    rw [e, h1, Option.bind_some]
    cases b with
    | skip => exact absurd rfl h2
    | wait => exact ⟨_, rfl⟩
    | finalize => simp only [perform, e2]; exact ⟨_, rfl⟩
    | send d => simp only [perform, e2]; exact ⟨_, rfl⟩
  have hready : NNet.ready k threads init (s.enter i) i = some t := by
    have hb : t.buf i = [] ∧ t.mbuf i = [] := by
      obtain ⟨c', _, rfl | ⟨_, r, rfl⟩ | ⟨d, r, _, _, _, rfl⟩⟩ := sof_cases ht <;> simp [begun, enter]
    unfold NNet.ready
    have e : (if i = 0 then ({ s.enter i with
          phase := Function.update (s.enter i).phase i 2
          loc := Function.update (s.enter i).loc i (some (init i))
          means := Function.update (s.enter i).means i [i] } : NNet M)
        else ({ s.enter i with
          phase := Function.update (s.enter i).phase i 2
          loc := Function.update (s.enter i).loc i (some (init i))
          means := Function.update (s.enter i).means i [i] } : NNet M).post i 0 [.means i]) = begun init (s.enter i) i := by
      by_cases hi0 : i = 0
      · simp only [hi0, begun, if_true]
      · simp only [hi0, begun, if_false, post, chg]
    simp only [Option.bind_eq_bind]
    rw [e, ht, Option.bind_some, flush_nil hb.1, flushMeans_nil hb.2, ite_self]
  refine ⟨t, ?_, ht⟩
  cases threads with
  | true =>
    exact .step (.step hr (.enter rfl hi hp)) (.ready rfl hi (by simp [enter]) hready)
  | false => exact .step hr (.both rfl hi hp hready)

theorem down_step {s : NNet M} {i : Nat} (hr : Reachable k threads init comb s) (hi : i < k) (hk : 2 ≤ k)
    (h : Down k (i + 1) s) : ∃ t, Reachable k threads init comb t ∧ Down k i t := by
  obtain ⟨t, h1, h2⟩ := down_ready hr hi (h.early i (by omega)).1
  have hbegun : ∀ j a, (begun init (s.enter i) i).chan j a ≠ [] → j = i ∧ a = 0 ∧ i ≠ 0 := by
    intro j a hne
    simp only [begun, enter] at hne
    split at hne
    · exact absurd (h.empty j a) hne
    · by_cases hja : j = i ∧ a = 0
      · exact ⟨hja.1, hja.2, by assumption⟩
      · rw [chg_ne _ _ hja] at hne
        exact absurd (h.empty j a) hne
  have hdom : ∀ j a, t.chan j a ≠ [] → j = i ∧ a < i := by
    intro j a hne
    obtain ⟨c', _, rfl | ⟨_, r, rfl⟩ | ⟨d, r, h3, h4, _, rfl⟩⟩ := sof_cases h2
    · obtain ⟨e1, e2, e3⟩ := hbegun j a hne
      omega
    · obtain ⟨e1, e2, e3⟩ := hbegun j a hne
      omega
    · simp only at hne
      by_cases hja : j = i ∧ a = d
      · omega
      · rw [chg_ne _ _ hja] at hne
        obtain ⟨e1, e2, e3⟩ := hbegun j a hne
        omega
  have hloc : ∀ a, a ≠ i → t.loc a = s.loc a ∧ t.phase a = s.phase a := by
    intro a ha
    obtain ⟨_, e2, _, e4, _⟩ := sof_facts hi h2
    rw [e2, e4]
    simp [begun, enter, ha]
  have hphi : t.phase i = 2 := by
    obtain ⟨_, _, _, e4, _⟩ := sof_facts hi h2
    rw [e4]
    simp [begun]
  have hfin : t.fin = [] := by
    rcases Nat.eq_zero_or_pos i with rfl | hpos
    · rw [sendOrFinalize_eq, show (begun init (s.enter 0) 0).c 0 = 0 by simp [begun, enter], outcome_first hk] at h2
      cases h2
      exact h.fin
    · obtain ⟨c', _, rfl | ⟨h0, r, rfl⟩ | ⟨d, r, h3, h4, _, rfl⟩⟩ := sof_cases h2
      · exact h.fin
      · omega
      · exact h.fin
  obtain ⟨u, g1, g2, g3, g4, g5⟩ := drain (total k t.chan) (le_refl _) h1 (by
    intro j a hne
    obtain ⟨rfl, e2⟩ := hdom j a hne
    refine ⟨hi, by omega, ?_⟩
    rw [(hloc a (by omega)).1]
    exact (h.early a (by omega)).2)
  refine ⟨u, g1, ?_, ?_, g2, g5.trans hfin⟩
  · intro a ha hak
    rw [g4]
    by_cases hai : a = i
    · subst hai; exact hphi
    · rw [(hloc a hai).2]
      exact h.done a (by omega) hak
  · intro a ha
    rw [g4, g3, (hloc a (by omega)).1, (hloc a (by omega)).2]
    exact h.early a (by omega)

/-- C23 (what fails), two or more nodes, with one or several threads: if the messages of every node arrive before their receivers
enter the stage, they are lost. All nodes are ready, nothing is under way, and node 0 waits for ever. -/
theorem C23_lost (hk : 2 ≤ k) (threads : Bool) (init : Nat → M) (comb : M → M → M) :
    ∃ s, Reachable k threads init comb s ∧ (∀ i < k, s.phase i = 2) ∧ (∀ j i, s.chan j i = []) ∧ s.fin = [] := by
  have key : ∀ n, n ≤ k → ∃ s, Reachable k threads init comb s ∧ Down k (k - n) s := by
    intro n
    induction n with
    | zero => exact fun _ => ⟨{}, .init, fun i h1 h2 => by omega, fun i _ => ⟨rfl, rfl⟩, fun _ _ => rfl, rfl⟩
    | succ n ih =>
      intro hn
      obtain ⟨s, h1, h2⟩ := ih (by omega)
      have e : k - n = k - (n + 1) + 1 := by omega
      rw [e] at h2
      exact down_step h1 (by omega) hk h2
  obtain ⟨s, h1, h2⟩ := key k (le_refl k)
  exact ⟨s, h1, fun i hi => h2.done i (by omega) hi, h2.empty, h2.fin⟩

/-- One node: there are no messages. -/
structure Alone (init : Nat → M) (s : NNet M) : Prop where
  empty : ∀ j i, s.chan j i = []
  phase : s.phase 0 ≤ 2
  before : s.phase 0 ≠ 2 → s.fin = [] ∧ s.buf 0 = [] ∧ s.mbuf 0 = [] ∧ s.c 0 = 0
  after : s.phase 0 = 2 → s.fin = [(init 0, [0])]

theorem alone_ready {s t : NNet M} (h : Alone init s) (hp : s.phase 0 ≠ 2)
    (ht : NNet.ready 1 threads init s 0 = some t) : Alone init t := by
  obtain ⟨h1, h2, h3, h4⟩ := h.before hp
  have h5 := ready_eq h2 h3 ht
  rw [sendOrFinalize_eq, show (begun init s 0).c 0 = 0 from h4, show outcome 1 0 0 = some (0, .finalize) by decide] at h5
  simp only [Option.bind_some, perform, begun, Function.update_self, Option.map_some] at h5
  cases h5
  refine ⟨?_, by simp, by simp, ?_⟩
  · intro j i
    simpa using h.empty j i
  · simp [h1]

theorem alone_reachable {s : NNet M} (hr : Reachable 1 threads init comb s) : Alone init s := by
  have henter : ∀ {s : NNet M}, Alone init s → s.phase 0 = 0 → Alone init (s.enter 0) := by
    intro s h hp
    obtain ⟨h1, _⟩ := h.before (by omega)
    refine ⟨h.empty, by simp [enter], ?_, by simp [enter]⟩
    intro _
    exact ⟨h1, by simp [enter], by simp [enter], by simp [enter]⟩
  induction hr with
  | init => exact ⟨fun _ _ => rfl, by simp, fun _ => ⟨rfl, rfl, rfl, rfl⟩, by simp⟩
  | step _ hst ih =>
    cases hst with
    | enter _ hi hp =>
      obtain rfl : _ = 0 := Nat.lt_one_iff.1 hi
      exact henter ih hp
    | ready _ hi hp ht =>
      obtain rfl : _ = 0 := Nat.lt_one_iff.1 hi
      exact alone_ready ih (by omega) ht
    | both _ hi hp ht =>
      obtain rfl : _ = 0 := Nat.lt_one_iff.1 hi
      exact alone_ready (henter ih hp) (by simp [enter]) ht
    | deliver hx _ => rw [ih.empty] at hx; cases hx

/-- C23, nodes, all schedules: node 0 always finalises, with the means of all nodes, exactly if there is one node only. -/
theorem C23_exact (hk : 0 < k) (threads : Bool) (init : Nat → M) (comb : M → M → M) :
    (∀ s, Reachable k threads init comb s → (∀ i < k, s.phase i = 2) → (∀ j i, s.chan j i = []) →
      ∃ x, s.fin = [x] ∧ x.2.Perm (List.range k)) ↔ k = 1 := by
  constructor
  · intro h
    by_contra hk1
    obtain ⟨s, h1, h2, h3, h4⟩ := C23_lost (k := k) (by omega) threads init comb
    obtain ⟨x, hx, _⟩ := h s h1 h2 h3
    rw [h4] at hx
    cases hx
  · rintro rfl s hr hp _
    exact ⟨_, (alone_reachable hr).after (hp 0 (by omega)), List.Perm.refl _⟩

/-! ### Schedules in which all receivers have entered the stage -/

/-- The states of all schedules in which no message is delivered to a node which has not entered the stage. -/
inductive Entered (k : Nat) (threads : Bool) (init : Nat → M) (comb : M → M → M) : NNet M → Prop
  | init : Entered k threads init comb {}
  | enter {s i} : Entered k threads init comb s → threads = true → i < k → s.phase i = 0 → Entered k threads init comb (s.enter i)
  | ready {s t i} : Entered k threads init comb s → threads = true → i < k → s.phase i = 1 →
      NNet.ready k threads init s i = some t → Entered k threads init comb t
  | both {s t i} : Entered k threads init comb s → threads = false → i < k → s.phase i = 0 →
      NNet.ready k threads init (s.enter i) i = some t → Entered k threads init comb t
  | deliver {s t i j x rest} : Entered k threads init comb s → s.phase i ≠ 0 → s.chan j i = x :: rest →
      handle k comb { s with chan := chg s.chan j i rest } i x = some t → Entered k threads init comb t

theorem calm_entered {s : NNet M} (h : Calm k threads init comb s) : Entered k threads init comb s := by
  induction h with
  | init => exact .init
  | enter _ h1 h2 h3 ih => exact .enter ih h1 h2 h3
  | ready _ h1 h2 h3 h4 ih => exact .ready ih h1 h2 h3 h4
  | both _ h1 h2 h3 h4 ih => exact .both ih h1 h2 h3 h4
  | deliver _ h1 h2 h3 ih => exact .deliver ih (by omega) h2 h3

theorem entered_reachable {s : NNet M} (h : Entered k threads init comb s) : Reachable k threads init comb s := by
  induction h with
  | init => exact .init
  | enter _ h1 h2 h3 ih => exact .step ih (.enter h1 h2 h3)
  | ready _ h1 h2 h3 h4 ih => exact .step ih (.ready h1 h2 h3 h4)
  | both _ h1 h2 h3 h4 ih => exact .step ih (.both h1 h2 h3 h4)
  | deliver _ h1 h2 h3 ih => exact .step ih (.deliver h2 h3)

/-- With one thread a node which has entered the stage is ready. -/
theorem entered_calm {s : NNet M} (h : Entered k false init comb s) : Calm k false init comb s := by
  induction h with
  | init => exact .init
  | enter _ h1 h2 h3 ih => cases h1
  | ready _ h1 h2 h3 h4 ih => cases h1
  | both _ h1 h2 h3 h4 ih => exact .both ih h1 h2 h3 h4
  | @deliver s t i j x rest _ h1 h2 h3 ih =>
    obtain ⟨h4, h5⟩ := calm_phase ih i
    have := h5 rfl
    exact .deliver ih (by omega) h2 h3

/-- `exec` for such schedules. -/
def enteredExec (k : Nat) (threads : Bool) (init : Nat → M) (comb : M → M → M) : List Ev → NNet M → Option (NNet M)
  | [], s => some s
  | .enter i :: es, s =>
    if threads = true ∧ i < k ∧ s.phase i = 0 then enteredExec k threads init comb es (s.enter i) else none
  | .ready i :: es, s =>
    if threads = true ∧ i < k ∧ s.phase i = 1 then (NNet.ready k threads init s i).bind (enteredExec k threads init comb es) else none
  | .both i :: es, s =>
    if threads = false ∧ i < k ∧ s.phase i = 0 then
      (NNet.ready k threads init (s.enter i) i).bind (enteredExec k threads init comb es)
    else none
  | .deliver j i :: es, s =>
    match s.chan j i with
    | [] => none
    | x :: rest =>
      if s.phase i ≠ 0 then
        (handle k comb { s with chan := chg s.chan j i rest } i x).bind (enteredExec k threads init comb es)
      else none

theorem enteredExec_entered {es : List Ev} {s t : NNet M} (hr : Entered k threads init comb s)
    (h : enteredExec k threads init comb es s = some t) : Entered k threads init comb t := by
  induction es generalizing s with
  | nil => cases h; exact hr
  | cons e es ih =>
    cases e with
    | enter i =>
      unfold enteredExec at h
      split at h
      · next hi => exact ih (.enter hr hi.1 hi.2.1 hi.2.2) h
      · cases h
    | ready i =>
      unfold enteredExec at h
      split at h
      · next hi =>
        obtain ⟨u, h1, h2⟩ := Option.bind_eq_some_iff.1 h
        exact ih (.ready hr hi.1 hi.2.1 hi.2.2 h1) h2
      · cases h
    | both i =>
      unfold enteredExec at h
      split at h
      · next hi =>
        obtain ⟨u, h1, h2⟩ := Option.bind_eq_some_iff.1 h
        exact ih (.both hr hi.1 hi.2.1 hi.2.2 h1) h2
      · cases h
    | deliver j i =>
      unfold enteredExec at h
      split at h
      · cases h
      · next x rest hx =>
        split at h
        · next hp =>
          obtain ⟨u, h1, h2⟩ := Option.bind_eq_some_iff.1 h
          exact ih (.deliver hr hp hx h1) h2
        · cases h

/-- C23 (what fails), two or three nodes with several threads: the messages arrive while node 0 decomposes its own data. They
are kept, but the factors are used before the means. -/
theorem entered_small (hk : k = 2 ∨ k = 3) : ∃ (s : NNet (List Nat)) (f : List Nat), Entered k true (fun i => [i]) (· ++ ·) s ∧
    s.fin = [(f, [0])] := by
  rcases hk with rfl | rfl
  · exact ⟨_, _, enteredExec_entered (k := 2) (threads := true) (init := fun i => [i]) (comb := (· ++ ·)) (s := {})
      (es := [.enter 1, .ready 1, .enter 0, .deliver 1 0, .deliver 1 0, .ready 0, .deliver 0 0])
      Entered.init rfl, rfl⟩
  · exact ⟨_, _, enteredExec_entered (k := 3) (threads := true) (init := fun i => [i]) (comb := (· ++ ·)) (s := {})
      (es := [.enter 0, .enter 1, .enter 2, .ready 1, .ready 2, .deliver 1 0, .deliver 1 0, .deliver 2 0, .deliver 2 0,
        .ready 0, .deliver 0 0, .deliver 0 0])
      Entered.init rfl, rfl⟩

/-- C23, nodes, if no message arrives before its receiver has entered the stage: with one thread the means are complete in all
schedules exactly for clusters of at most three nodes; with several threads only for one node. -/
theorem C23_entered_exact (hk : 0 < k) (threads : Bool) :
    (∀ s : NNet (List Nat), Entered k threads (fun i => [i]) (· ++ ·) s → ∀ x ∈ s.fin, x.2.Perm (List.range k)) ↔
      if threads then k = 1 else k ≤ 3 := by
  cases threads with
  | false =>
    rw [← C23_calm_exact hk false (fun i => [i]) (· ++ ·)]
    exact ⟨fun h s hs => h s (calm_entered hs), fun h s hs => h s (entered_calm hs)⟩
  | true =>
    simp only [if_true]
    constructor
    · intro h
      by_contra hk1
      by_cases hk4 : 4 ≤ k
      · obtain ⟨s, x, hr, _, hx, h3⟩ := C23_calm_missing hk4 true (fun i => [i]) (· ++ ·)
        exact h3 ((h s (calm_entered hr) x (by rw [hx]; simp)).mem_iff.2 (List.mem_range.2 (by omega)))
      · obtain ⟨s, f, hs, hf⟩ := entered_small (k := k) (by omega)
        have := (h s hs (f, [0]) (by rw [hf]; simp)).length_eq
        simp at this
        omega
    · rintro rfl s hs x hx
      have h := alone_reachable (entered_reachable hs)
      by_cases hp : s.phase 0 = 2
      · rw [h.after hp, List.mem_singleton] at hx
        subst hx
        exact List.Perm.refl _
      · rw [(h.before hp).1] at hx
        cases hx

end NNet
end S2G
