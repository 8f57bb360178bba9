import Verif.Model.ParallelScore
import Verif.Props.Scoring

/-!
# C49: parallel computation of the scores
-/

namespace S2G
namespace ParScore
open Scoring

/-- The answers appended in order. -/
def inOrder (r : Nat → ScoreResp) (j : Nat) : List ℚ × Bool :=
  (List.range j).foldl (fun acc i => (acc.1 ++ (fill acc.1 acc.2 (r i)).1, (fill acc.1 acc.2 (r i)).2)) ([], false)

theorem inOrder_succ (r : Nat → ScoreResp) (j : Nat) :
    inOrder r (j + 1) = ((inOrder r j).1 ++ (fill (inOrder r j).1 (inOrder r j).2 (r j)).1,
      (fill (inOrder r j).1 (inOrder r j).2 (r j)).2) := by
  unfold inOrder
  rw [List.range_succ, List.foldl_append]
  rfl

theorem fill_length (l : List ℚ) (b : Bool) (m : ScoreResp) : (fill l b m).1.length = m.scores.length := by
  unfold fill
  split
  · split
    · exact fillUp_length _ _
    · rfl
  · rfl

/-- The answers of `t ≥ 1` helpers to consecutive instructions of `n ≥ 1` positions, the last one of any length. -/
structure Good (t n : Nat) (r : Nat → ScoreResp) : Prop where
  threads : 1 ≤ t
  size : 1 ≤ n
  start : ∀ i < t, (r i).start = i * n
  length : ∀ i, i + 1 < t → (r i).scores.length = n

theorem inOrder_length {t n : Nat} {r : Nat → ScoreResp} (h : Good t n r) {j : Nat} (hj : j < t) :
    (inOrder r j).1.length = j * n := by
  induction j with
  | zero => simp [inOrder]
  | succ j ih =>
    rw [inOrder_succ, List.length_append, ih (by omega), fill_length, h.length j hj]
    ring

/-- The invariant: `nReceived` answers have been appended in order, the others are on their way or in the buffer. -/
structure Inv (t n : Nat) (r : Nat → ScoreResp) (s : ParScore) : Prop where
  total : s.proto.nTotal = t
  le : s.proto.nReceived ≤ t
  sent : s.proto.nSent = t - s.proto.nReceived
  running : s.proto.nReceived < t → (s.scores, s.firstEmpty) = inOrder r s.proto.nReceived ∧ s.final = [] ∧
    r s.proto.nReceived ∈ s.pool
  over : s.proto.nReceived = t → s.final = [inOrder r t]
  nodup : s.pool.Nodup
  pool : ∀ m ∈ s.pool, ∃ i, s.proto.nReceived ≤ i ∧ i < t ∧ m = r i
  present : ∀ i, s.proto.nReceived ≤ i → i < t → r i ∈ s.pool ∨ s.buffer (i * n) = some (r i)
  buffer : ∀ k m, s.buffer k = some m → ∃ i, s.proto.nReceived < i ∧ i < t ∧ k = i * n ∧ m = r i ∧ r i ∉ s.pool

theorem r_inj {t n : Nat} {r : Nat → ScoreResp} (h : Good t n r) {i j : Nat} (hi : i < t) (hj : j < t) (e : r i = r j) :
    i = j := by
  have h1 := congrArg ScoreResp.start e
  rw [h.start i hi, h.start j hj] at h1
  exact Nat.eq_of_mul_eq_mul_right h.size h1

theorem mul_inj {n i j : Nat} (hn : 1 ≤ n) (h : i * n = j * n) : i = j := Nat.eq_of_mul_eq_mul_right hn h

theorem inv_handle {t n : Nat} {r : Nat → ScoreResp} (hg : Good t n r) {s : ParScore} (h : Inv t n r s)
    {pre post : List ScoreResp} {m : ScoreResp} (hp : s.pool = pre ++ m :: post) :
    ∃ u, handle { s with pool := pre ++ post } m = some u ∧ Inv t n r u ∧
      u.pool.length + (t - u.proto.nReceived) < s.pool.length + (t - s.proto.nReceived) := by
  obtain ⟨i, hji, hit, rfl⟩ := h.pool m (by rw [hp]; simp)
  have hnd := h.nodup
  rw [hp] at hnd
  have hperm : (pre ++ r i :: post).Perm (r i :: (pre ++ post)) := List.perm_middle
  have hnd' := List.nodup_cons.1 (hperm.nodup_iff.1 hnd)
  have hlt : s.proto.nReceived < t := by omega
  obtain ⟨hs, hf, hin⟩ := h.running hlt
  have hs1 : s.scores = (inOrder r s.proto.nReceived).1 := congrArg Prod.fst hs
  have hs2 : s.firstEmpty = (inOrder r s.proto.nReceived).2 := congrArg Prod.snd hs
  have hlen : s.scores.length = s.proto.nReceived * n := by rw [hs1]; exact inOrder_length hg hlt
  have hmem : ∀ x, x ∈ s.pool ↔ x = r i ∨ x ∈ pre ++ post := by
    intro x
    rw [hp, hperm.mem_iff, List.mem_cons]
  have hplen : s.pool.length = (pre ++ post).length + 1 := by rw [hp, hperm.length_eq]; simp
  unfold handle
  simp only [hg.start i hit, hlen]
  by_cases hij : i = s.proto.nReceived
  · subst hij
    set j := s.proto.nReceived with hjdef
    rw [if_neg (by simp)]
    have hrec : s.proto.received = some { s.proto with nSent := s.proto.nSent - 1, nReceived := j + 1 } := by
      unfold HelperProto.received checkedSub
      rw [if_pos (by have := h.sent; omega)]
      rfl
    rw [hrec]
    simp only [Option.bind_eq_bind, Option.bind_some]
    have hall : s.scores ++ (fill s.scores s.firstEmpty (r j)).1 = (inOrder r (j + 1)).1 := by
      rw [inOrder_succ, hs1, hs2]
    have hfe : (fill s.scores s.firstEmpty (r j)).2 = (inOrder r (j + 1)).2 := by
      rw [inOrder_succ, hs1, hs2]
    by_cases hlast : j + 1 = t
    · rw [if_pos (by simp only [HelperProto.isRunning, h.total]; simp; omega)]
      refine ⟨_, rfl, ⟨h.total, by simp; omega, ?_, ?_, ?_, hnd'.2, ?_, ?_, ?_⟩, ?_⟩
      · have := h.sent; simp only; omega
      · intro hc; simp only at hc; omega
      · intro _
        simp only [hf, List.nil_append, hall, hfe, hlast]
      · intro m hm
        obtain ⟨i', h1, h2, h3⟩ := h.pool m ((hmem m).2 (Or.inr hm))
        have : i' ≠ j := by rintro rfl; rw [h3] at hm; exact hnd'.1 hm
        simp only
        exact ⟨i', by omega, h2, h3⟩
      · intro i' h1 h2; simp only at h1; omega
      · intro k m hb
        obtain ⟨i', h1, h2, _⟩ := h.buffer k m hb
        omega
      · simp only; omega
    · have hlt' : j + 1 < t := by omega
      rw [if_neg (by simp only [HelperProto.isRunning, h.total]; simp; omega)]
      have hall' : (s.scores ++ (fill s.scores s.firstEmpty (r j)).1).length = (j + 1) * n := by
        rw [hall]; exact inOrder_length hg hlt'
      rw [hall']
      cases hb : s.buffer ((j + 1) * n) with
      | none =>
        refine ⟨_, rfl, ⟨h.total, by simp only; omega, ?_, ?_, ?_, hnd'.2, ?_, ?_, ?_⟩, ?_⟩
        · have := h.sent; simp only; omega
        · intro _
          refine ⟨?_, hf, ?_⟩
          · simp only [hall, hfe]
          · simp only
            rcases h.present (j + 1) (by omega) hlt' with h1 | h1
            · rcases (hmem _).1 h1 with h2 | h2
              · have := r_inj hg hlt' hit h2; omega
              · exact h2
            · rw [hb] at h1; cases h1
        · intro hc; simp only at hc; omega
        · intro m hm
          obtain ⟨i', h1, h2, h3⟩ := h.pool m ((hmem m).2 (Or.inr hm))
          have : i' ≠ j := by rintro rfl; rw [h3] at hm; exact hnd'.1 hm
          simp only
          exact ⟨i', by omega, h2, h3⟩
        · intro i' h1 h2
          simp only at h1 ⊢
          rcases h.present i' (by omega) h2 with h3 | h3
          · rcases (hmem _).1 h3 with h4 | h4
            · have := r_inj hg h2 hit h4; omega
            · exact Or.inl h4
          · exact Or.inr h3
        · intro k m hbk
          obtain ⟨i', h1, h2, h3, h4, h5⟩ := h.buffer k m hbk
          simp only at hbk ⊢
          have : i' ≠ j + 1 := by rintro rfl; rw [← h3, hbk] at hb; cases hb
          exact ⟨i', by omega, h2, h3, h4, fun hc => h5 ((hmem _).2 (Or.inr hc))⟩
        · simp only; omega
      | some m' =>
        obtain ⟨i', g1, g2, g3, g4, g5⟩ := h.buffer _ _ hb
        have hi' : i' = j + 1 := (mul_inj hg.size g3).symm
        subst hi'
        subst g4
        have hnot : r (j + 1) ∉ pre ++ post := fun hc => g5 ((hmem _).2 (Or.inr hc))
        refine ⟨_, rfl, ⟨h.total, by simp only; omega, ?_, ?_, ?_, ?_, ?_, ?_, ?_⟩, ?_⟩
        · have := h.sent; simp only; omega
        · intro _
          refine ⟨?_, hf, ?_⟩
          · simp only [hall, hfe]
          · simp
        · intro hc; simp only at hc; omega
        · simp only
          exact List.nodup_append.2 ⟨hnd'.2, List.nodup_singleton _, fun a ha b hb => by
            rw [List.mem_singleton] at hb
            subst hb
            exact fun e => hnot (e ▸ ha)⟩
        · intro m hm
          rcases List.mem_append.1 hm with hm | hm
          · obtain ⟨i', h1, h2, h3⟩ := h.pool m ((hmem m).2 (Or.inr hm))
            have : i' ≠ j := by rintro rfl; rw [h3] at hm; exact hnd'.1 hm
            simp only
            exact ⟨i', by omega, h2, h3⟩
          · rw [List.mem_singleton] at hm
            exact ⟨j + 1, Nat.le_refl _, hlt', hm⟩
        · intro i' h1 h2
          simp only at h1 ⊢
          by_cases hc : i' = j + 1
          · subst hc; exact Or.inl (by simp)
          · rcases h.present i' (by omega) h2 with h3 | h3
            · rcases (hmem _).1 h3 with h4 | h4
              · have := r_inj hg h2 hit h4; omega
              · exact Or.inl (List.mem_append_left _ h4)
            · right
              rw [Function.update_of_ne (fun e => hc (mul_inj hg.size e))]
              exact h3
        · intro k m hbk
          simp only at hbk ⊢
          by_cases hk : k = (j + 1) * n
          · rw [hk, Function.update_self] at hbk; cases hbk
          · rw [Function.update_of_ne hk] at hbk
            obtain ⟨i', h1, h2, h3, h4, h5⟩ := h.buffer k m hbk
            have hne : i' ≠ j + 1 := by rintro rfl; exact hk h3
            refine ⟨i', by omega, h2, h3, h4, fun hc => ?_⟩
            rcases List.mem_append.1 hc with hc | hc
            · exact h5 ((hmem _).2 (Or.inr hc))
            · rw [List.mem_singleton] at hc
              exact hne (r_inj hg h2 hlt' hc)
        · simp only [List.length_append, List.length_singleton]
          rw [List.length_append] at hplen
          omega
  · rw [if_pos (fun e => hij (mul_inj hg.size e))]
    refine ⟨_, rfl, ⟨h.total, h.le, h.sent, ?_, ?_, hnd'.2, ?_, ?_, ?_⟩, ?_⟩
    · intro _
      refine ⟨hs, hf, ?_⟩
      simp only
      rcases (hmem _).1 hin with h1 | h1
      · exact absurd (r_inj hg hlt hit h1).symm hij
      · exact h1
    · intro hc; simp only at hc; omega
    · intro m hm
      exact h.pool m ((hmem m).2 (Or.inr hm))
    · intro i' h1 h2
      simp only
      by_cases hc : i' = i
      · subst hc; exact Or.inr (by simp)
      · rcases h.present i' h1 h2 with h3 | h3
        · rcases (hmem _).1 h3 with h4 | h4
          · exact absurd (r_inj hg h2 hit h4) hc
          · exact Or.inl h4
        · right
          rw [Function.update_of_ne (fun e => hc (mul_inj hg.size e))]
          exact h3
    · intro k m hbk
      simp only at hbk ⊢
      by_cases hk : k = i * n
      · rw [hk, Function.update_self] at hbk
        cases hbk
        exact ⟨i, by omega, hit, hk, rfl, hnd'.1⟩
      · rw [Function.update_of_ne hk] at hbk
        obtain ⟨i', h1, h2, h3, h4, h5⟩ := h.buffer k m hbk
        exact ⟨i', h1, h2, h3, h4, fun hc => h5 ((hmem _).2 (Or.inr hc))⟩
    · simp only; omega

theorem inv_init {t n : Nat} {r : Nat → ScoreResp} (hg : Good t n r) :
    Inv t n r { proto := { nTotal := t, nSent := t }, pool := (List.range t).map r } where
  total := rfl
  le := Nat.zero_le _
  sent := rfl
  running := fun h => ⟨rfl, rfl, List.mem_map.2 ⟨0, List.mem_range.2 h, rfl⟩⟩
  over := fun h => by have := hg.threads; simp only at h; omega
  nodup := by
    rw [List.nodup_map_iff_inj_on List.nodup_range]
    intro x hx y hy e
    exact r_inj hg (List.mem_range.1 hx) (List.mem_range.1 hy) e
  pool := fun m hm => by
    obtain ⟨i, hi, rfl⟩ := List.mem_map.1 hm
    exact ⟨i, Nat.zero_le _, List.mem_range.1 hi, rfl⟩
  present := fun i _ hi => Or.inl (List.mem_map.2 ⟨i, List.mem_range.2 hi, rfl⟩)
  buffer := fun _ _ h => nomatch h

theorem inv_reachable {t n : Nat} {r : Nat → ScoreResp} (hg : Good t n r) {s0 s : ParScore} (h0 : Inv t n r s0)
    (h : Reachable s0 s) : Inv t n r s := by
  induction h with
  | init => exact h0
  | step _ hs ih =>
    cases hs with
    | handle pre post m hp ht =>
      obtain ⟨u, hu, hI, _⟩ := inv_handle hg ih hp
      rw [hu] at ht
      cases ht
      exact hI

/-! ### Parts of the raw scores -/

/-- What a helper answers for a part of the raw scores, see `Scoring.C48_scores`. -/
def answer (raw : Nat → Option ℚ) (start length : Nat) : List ℚ × Bool :=
  (carrySpec 0 ((List.range' start length).map raw), decide (0 < length ∧ raw start = none))

/-- The answers of `t` helpers. -/
def answers (raw : Nat → Option ℚ) (sl t i : Nat) : ScoreResp :=
  let a := answer raw (i * (sl / t)) (sl / t + if i = t - 1 then sl % t else 0)
  ⟨i * (sl / t), a.1, a.2⟩

theorem init_eq {run : Nat → Nat → Option (List ℚ × Bool)} {raw : Nat → Option ℚ} {sl t : Nat} (ht : 1 ≤ t)
    (hrun : ∀ start length, start + length ≤ sl → run start length = some (answer raw start length)) :
    init run sl t = some { proto := { nTotal := t, nSent := t }, pool := (List.range t).map (answers raw sl t) } := by
  unfold init chunks checkedDiv checkedMod
  rw [if_neg (by omega), if_neg (by omega)]
  simp only [Option.bind_eq_bind, Option.bind_some]
  have : ((List.range t).map (fun i => (i * (sl / t), sl / t + if i = t - 1 then sl % t else 0))).mapM
      (fun c => (run c.1 c.2).map (fun r => (⟨c.1, r.1, r.2⟩ : ScoreResp))) = some ((List.range t).map (answers raw sl t)) := by
    rw [mapM_eq_some, List.forall₂_map_left_iff, List.forall₂_map_right_iff, List.forall₂_same]
    intro i hi
    rw [List.mem_range] at hi
    rw [hrun]
    · rfl
    · have h1 := Nat.div_add_mod sl t
      have h2 : (i + 1) * (sl / t) ≤ t * (sl / t) := Nat.mul_le_mul_right _ hi
      rw [Nat.add_mul, Nat.one_mul] at h2
      simp only
      split <;> omega
  rw [this]
  rfl

theorem answers_good (raw : Nat → Option ℚ) {sl t : Nat} (ht : 1 ≤ t) (hsl : t ≤ sl) :
    Good t (sl / t) (answers raw sl t) where
  threads := ht
  size := Nat.div_pos hsl ht
  start := fun _ _ => rfl
  length := fun i hi => by
    simp only [answers, answer, carrySpec, List.length_map, List.length_range, List.length_range']
    rw [if_neg (by omega), Nat.add_zero]

/-- A part which begins with an empty window contains no score that is zero. -/
def NoZero (raw : Nat → Option ℚ) (start length : Nat) : Prop :=
  raw start = none → ∀ i, start ≤ i → i < start + length → raw i ≠ some 0

theorem fill_answer {raw : Nat → Option ℚ} {start length : Nat} (hz : NoZero raw start length) (hpos : 1 ≤ start)
    (b : Bool) :
    fill (carry 0 ((List.range start).map raw)) b
      ⟨start, (answer raw start length).1, (answer raw start length).2⟩ =
    (carry (((carry 0 ((List.range start).map raw)).getLast?).getD 0) ((List.range' start length).map raw), b) := by
  unfold fill answer
  have hne : (carry 0 ((List.range start).map raw)) ≠ [] := by
    intro e
    have := congrArg List.length e
    rw [carry_length] at this
    simp at this
    omega
  obtain ⟨a, ha⟩ := Option.ne_none_iff_exists'.1 (fun e => hne (List.getLast?_eq_none_iff.1 e))
  rw [ha]
  simp only [Option.getD_some]
  cases length with
  | zero => rfl
  | succ m =>
    cases hr : raw start with
    | none =>
      simp only [Nat.zero_lt_succ, true_and, decide_true, if_true]
      rw [C55_missing_only, carry_eq_spec]
      intro hc
      obtain ⟨i, hi, e⟩ := List.mem_map.1 hc
      rw [List.mem_range'_1] at hi
      exact hz hr i hi.1 hi.2 e
    | some x =>
      simp only [reduceCtorEq, and_false, decide_false, Bool.false_eq_true, if_false]
      rw [← carry_eq_spec, List.range'_succ, List.map_cons, hr]
      rfl

theorem range_split (a b : Nat) : List.range a ++ List.range' a b = List.range (a + b) := by
  rw [List.range_add, List.range'_eq_map_range]

theorem inOrder_answers (raw : Nat → Option ℚ) {sl t : Nat} (ht : 1 ≤ t) (hsl : t ≤ sl)
    (hz : ∀ i, 0 < i → i < t → NoZero raw (i * (sl / t)) (sl / t + if i = t - 1 then sl % t else 0)) :
    inOrder (answers raw sl t) t = (carrySpec 0 ((List.range sl).map raw), decide (raw 0 = none)) := by
  have hpos : 1 ≤ sl / t := Nat.div_pos hsl ht
  have key : ∀ j, j < t → 0 < j →
      inOrder (answers raw sl t) j = (carry 0 ((List.range (j * (sl / t))).map raw), decide (raw 0 = none)) := by
    intro j
    induction j with
    | zero => intro _ h; omega
    | succ j ih =>
      intro hj _
      rw [inOrder_succ]
      by_cases hj0 : j = 0
      · subst hj0
        have : (if 0 = t - 1 then sl % t else 0) = 0 := if_neg (by omega)
        simp only [inOrder, List.range_zero, List.foldl_nil, List.nil_append, answers, answer, this, Nat.add_zero,
          Nat.zero_mul, Nat.zero_add, Nat.one_mul, fill, List.getLast?_nil, ← List.range_eq_range', ← carry_eq_spec]
        have h0 : 0 < sl / t := hpos
        simp only [h0, true_and]
        by_cases hr : raw 0 = none <;> simp [hr]
      · have hj' : 0 < j := by omega
        rw [ih (by omega) hj']
        have hm : 1 ≤ j * (sl / t) := Nat.mul_pos hj' hpos
        have : answers raw sl t j = ⟨j * (sl / t), (answer raw (j * (sl / t)) (sl / t + 0)).1,
            (answer raw (j * (sl / t)) (sl / t + 0)).2⟩ := by
          unfold answers
          rw [if_neg (by omega)]
        have hz' := hz j hj' (by omega)
        rw [if_neg (by omega)] at hz'
        rw [this]
        simp only [fill_answer hz' hm]
        rw [← carry_append, ← List.map_append]
        congr 4
        rw [Nat.add_mul, Nat.one_mul, Nat.add_zero, range_split]
  have hfin : ∃ j, t = j + 1 := ⟨t - 1, by omega⟩
  obtain ⟨j, rfl⟩ := hfin
  have hdm := Nat.div_add_mod sl (j + 1)
  rw [inOrder_succ]
  by_cases hj0 : j = 0
  · subst hj0
    simp only [inOrder, List.range_zero, List.foldl_nil, List.nil_append, answers, answer, Nat.zero_mul, fill,
      List.getLast?_nil, ← List.range_eq_range', Nat.zero_add, Nat.sub_self, if_true, Nat.div_one, Nat.mod_one, Nat.add_zero]
    have h0 : 0 < sl := by omega
    simp only [h0, true_and]
    by_cases hr : raw 0 = none <;> simp [hr]
  · have hj' : 0 < j := by omega
    rw [key j (by omega) hj']
    have hm : 1 ≤ j * (sl / (j + 1)) := Nat.mul_pos hj' hpos
    have hz' := hz j hj' (by omega)
    simp only [answers, fill_answer hz' hm]
    rw [← carry_append, ← List.map_append, carry_eq_spec]
    congr 3
    rw [if_pos (by omega), range_split]
    congr 1
    rw [Nat.add_mul, Nat.one_mul] at hdm
    omega

/-- C49: with at least as many positions as threads, in every order of the answers: nothing crashes, every step brings the
node closer to the end, the vector is delivered at most once, and when nothing is left to handle it has been delivered and
equals the vector computed by a single thread (whose only answer is `answer raw 0 sl`, see `Scoring.C48_scores`) — provided no
part of another thread that begins with an empty window contains a score which is exactly zero. -/
theorem C49_parallel {run : Nat → Nat → Option (List ℚ × Bool)} {raw : Nat → Option ℚ} {sl t : Nat} (ht : 1 ≤ t)
    (hsl : t ≤ sl) (hrun : ∀ start length, start + length ≤ sl → run start length = some (answer raw start length))
    (hz : ∀ i, 0 < i → i < t → NoZero raw (i * (sl / t)) (sl / t + if i = t - 1 then sl % t else 0)) :
    ∃ s0, init run sl t = some s0 ∧ ∀ s, Reachable s0 s →
      (s.final = [] ∨ s.final = [answer raw 0 sl]) ∧ (s.pool = [] → s.final = [answer raw 0 sl]) ∧
      (∀ pre m post, s.pool = pre ++ m :: post → ∃ u, handle { s with pool := pre ++ post } m = some u ∧
        u.pool.length + (t - u.proto.nReceived) < s.pool.length + (t - s.proto.nReceived)) := by
  have hg := answers_good raw ht hsl
  refine ⟨_, init_eq ht hrun, fun s hs => ?_⟩
  have hI := inv_reachable hg (inv_init hg) hs
  have hfinal : inOrder (answers raw sl t) t = answer raw 0 sl := by
    rw [inOrder_answers raw ht hsl hz]
    unfold answer
    rw [List.range_eq_range']
    have : 0 < sl := by omega
    simp [this]
  refine ⟨?_, ?_, ?_⟩
  · rcases Nat.lt_or_ge s.proto.nReceived t with h | h
    · exact Or.inl (hI.running h).2.1
    · rw [hI.over (Nat.le_antisymm hI.le h), hfinal]
      exact Or.inr rfl
  · intro hp
    rcases Nat.lt_or_ge s.proto.nReceived t with h | h
    · have := (hI.running h).2.2
      rw [hp] at this
      cases this
    · rw [hI.over (Nat.le_antisymm hI.le h), hfinal]
  · intro pre m post hp
    obtain ⟨u, h1, _, h2⟩ := inv_handle hg hI hp
    exact ⟨u, h1, h2⟩

/-! ### The scores of the code -/

/-- A query window is empty exactly if no edge ends after its first point. -/
theorem windowSpec_eq_nil {edges : List Edge} {start q i : Nat} :
    windowSpec edges start q i = [] ↔ ∀ e ∈ edges, e.toId ≤ start + i := by
  simp only [windowSpec_toId]
  rw [List.append_eq_nil_iff, List.filter_eq_nil_iff, List.take_eq_nil_iff, List.filter_eq_nil_iff]
  constructor
  · rintro ⟨h1, h2 | h2⟩ e he
    · cases h2
    · have a := h1 e he
      have b := h2 e he
      simp only [decide_eq_true_eq] at a b
      omega
  · intro h
    refine ⟨fun e he => ?_, Or.inr (fun e he => ?_)⟩
    · have := h e he
      simp only [decide_eq_true_eq]
      omega
    · have := h e he
      simp only [decide_eq_true_eq]
      omega

/-- C49 for the scores of the code: with at least as many positions as threads the vector does not depend on the number of
threads and the order of the answers: it is the vector of the single-threaded run, position `i` has the score of the last
non-empty query window at or before `i`. -/
theorem C49_scores {edges : List Edge} (hs : edges.Pairwise (fun a b => a.toId ≤ b.toId)) {w : Counts EdgeKey}
    {d : Counts NodeKey} (hk : Known w d edges) {start length q sl t : Nat} (hq : 1 ≤ q) (hlen : sl + (q - 1) ≤ length)
    (ht : 1 ≤ t) (hsl : t ≤ sl) :
    ∃ s0, init (helper edges (EdgesInTime.spec start length (edges.map Edge.toId)) w d q) sl t = some s0 ∧
      ∀ s, Reachable s0 s → (s.final = [] ∨ s.final = [answer (fun i => rawSpec w.val d.val (windowSpec edges start q i)) 0 sl]) ∧
      (s.pool = [] → s.final = [answer (fun i => rawSpec w.val d.val (windowSpec edges start q i)) 0 sl]) ∧
      (∀ pre m post, s.pool = pre ++ m :: post → ∃ u, handle { s with pool := pre ++ post } m = some u ∧
        u.pool.length + (t - u.proto.nReceived) < s.pool.length + (t - s.proto.nReceived)) := by
  have hnone : ∀ i, rawSpec w.val d.val (windowSpec edges start q i) = none ↔ ∀ e ∈ edges, e.toId ≤ start + i := by
    intro i
    rw [← windowSpec_eq_nil (q := q)]
    unfold rawSpec
    split <;> simp_all
  apply C49_parallel ht hsl
  · intro a b hab
    rw [C48_scores hs hk hq (by omega)]
    unfold answer
    congr 2
    apply decide_eq_decide.2
    rw [hnone, windowSpec_eq_nil]
  · intro i _ _ hr j hj _ hz
    rw [hnone] at hr
    have : rawSpec w.val d.val (windowSpec edges start q j) = none := (hnone j).2 (fun e he => by have := hr e he; omega)
    exact absurd (this.symm.trans hz) (by simp)

/-! ### Fewer positions than threads -/

theorem answers_small (raw : Nat → Option ℚ) {sl t : Nat} (hsl : sl < t) (i : Nat) :
    (answers raw sl t i).start = 0 ∧ (answers raw sl t i).scores.length = if i = t - 1 then sl else 0 := by
  have h0 : sl / t = 0 := Nat.div_eq_of_lt hsl
  have h1 : sl % t = sl := Nat.mod_eq_of_lt hsl
  simp only [answers, answer, h0, h1, Nat.mul_zero, carrySpec, List.length_map, List.length_range, List.length_range']
  exact ⟨trivial, by simp⟩

/-- C49 (what fails): with fewer positions than threads, but at least one position, there is an order of the answers after
which everything has been handled, but the vector is never delivered. -/
theorem C49_hang {run : Nat → Nat → Option (List ℚ × Bool)} {raw : Nat → Option ℚ} {sl t : Nat} (hsl : sl < t)
    (hpos : 0 < sl) (hrun : ∀ start length, start + length ≤ sl → run start length = some (answer raw start length)) :
    ∃ s0 s, init run sl t = some s0 ∧ Reachable s0 s ∧ s.pool = [] ∧ s.final = [] := by
  obtain ⟨j, rfl⟩ : ∃ j, t = j + 1 := ⟨t - 1, by omega⟩
  have hrest : ∀ (l : List ScoreResp) (s : ParScore), s.pool = l → (∀ m ∈ l, m.start = 0) → s.scores.length = sl →
      s.final = [] → ∃ u, Reachable s u ∧ u.pool = [] ∧ u.final = [] := by
    intro l
    induction l with
    | nil => intro s hp _ _ hf; exact ⟨s, .init, hp, hf⟩
    | cons m l ih =>
      intro s hp hm hsc hf
      have hstep : Step s { s with pool := l, buffer := Function.update s.buffer m.start (some m) } := by
        refine .handle s [] l m hp ?_
        unfold handle
        simp only [List.nil_append]
        rw [if_pos (by rw [hm m (by simp), hsc]; omega)]
      obtain ⟨u, hu, h1, h2⟩ := ih { s with pool := l, buffer := Function.update s.buffer m.start (some m) } rfl
        (fun m' hm' => hm m' (by simp [hm'])) hsc hf
      refine ⟨u, ?_, h1, h2⟩
      clear ih h1 h2
      induction hu with
      | init => exact .step .init hstep
      | step _ hs ih => exact .step ih hs
  have hfirst : ∃ u, Step { proto := { nTotal := j + 1, nSent := j + 1 }
                            pool := (List.range (j + 1)).map (answers raw sl (j + 1)) } u ∧
      u.pool = (List.range j).map (answers raw sl (j + 1)) ∧ u.scores.length = sl ∧ u.final = [] := by
    refine ⟨_, .handle _ ((List.range j).map (answers raw sl (j + 1))) [] (answers raw sl (j + 1) j)
      (by simp [List.range_succ]) (t := ?_) ?_, ?_⟩
    · exact { proto := { nTotal := j + 1, nSent := j, nReceived := 1 }, pool := (List.range j).map (answers raw sl (j + 1)),
              firstEmpty := (fill [] false (answers raw sl (j + 1) j)).2,
              scores := (fill [] false (answers raw sl (j + 1) j)).1 }
    · unfold handle
      simp only [(answers_small raw hsl j).1, List.length_nil, ne_eq, not_true_eq_false, if_false, HelperProto.received,
        checkedSub, Option.bind_eq_bind]
      rw [if_pos (by omega)]
      simp only [Option.bind_some, List.nil_append]
      rw [if_neg (by simp only [HelperProto.isRunning]; simp; omega)]
      simp
    · refine ⟨rfl, ?_, rfl⟩
      simp only [fill_length, (answers_small raw hsl j).2]
      simp
  obtain ⟨u, hu, h1, h2, h3⟩ := hfirst
  obtain ⟨v, hv, h4, h5⟩ := hrest _ u h1 (fun m hm => by
    obtain ⟨i, _, rfl⟩ := List.mem_map.1 hm
    exact (answers_small raw hsl i).1) h2 h3
  refine ⟨_, v, init_eq (by omega) hrun, ?_, h4, h5⟩
  clear h4 h5
  induction hv with
  | init => exact .step .init hu
  | step _ hs ih => exact .step ih hs

/-- C49 (what fails): no threads are a crash. -/
theorem C49_zero_threads (run : Nat → Nat → Option (List ℚ × Bool)) (sl : Nat) : init run sl 0 = none := rfl

/-! ### Concrete instance: 4 positions, 2 threads, the second answer first -/

private def exRaw : Nat → Option ℚ := fun i => if i < 2 then some (-(i : ℚ) - 1) else none
private def exRun : Nat → Nat → Option (List ℚ × Bool) := fun a b => some (answer exRaw a b)
private def exS0 : ParScore :=
  { proto := { nTotal := 2, nSent := 2 }, pool := [answers exRaw 4 2 0, answers exRaw 4 2 1] }

example : init exRun 4 2 = some exS0 ∧ answers exRaw 4 2 1 = ⟨2, [0, 0], true⟩ ∧
    answer exRaw 0 4 = ([-1, -2, -2, -2], false) := by
  refine ⟨init_eq (raw := exRaw) (by decide) (fun _ _ _ => rfl), ?_, ?_⟩
  · decide +kernel
  · decide +kernel

example : ∃ s0, init exRun 4 2 = some s0 ∧ ∀ s, Reachable s0 s → s.pool = [] →
    s.final = [([-1, -2, -2, -2], false)] := by
  obtain ⟨s0, h0, h⟩ := C49_parallel (run := exRun) (raw := exRaw) (sl := 4) (t := 2) (by decide) (by decide)
    (fun _ _ _ => rfl) (by
      intro i h1 h2 _ j hj _
      obtain rfl : i = 1 := by omega
      unfold exRaw
      rw [if_neg (by omega)]
      simp)
  refine ⟨s0, h0, fun s hs hp => ?_⟩
  rw [(h s hs).2.1 hp]
  have : answer exRaw 0 4 = ([-1, -2, -2, -2], false) := by decide +kernel
  rw [this]

end ParScore
end S2G
