import Verif.Props.FloatPca
import Verif.Props.ParallelScore
import Verif.Model.Kde
import Mathlib.Tactic.NormNum
import Mathlib.Tactic.Positivity
import Mathlib.Tactic.FieldSimp
import Mathlib.Tactic.Linarith

/-!
# C81: the same bits in every run

With at most two threads every run on one node delivers the same bits, whatever the arithmetic is. With three or more threads and `f32`
it need not, and the number of threads changes bits as well. What makes the difference is only the associativity of the sums.
-/

namespace S2G
namespace FloatRun
variable {α : Type}

/-! ### The estimates -/

theorem addUp_perm {add : α → α → α} (hc : ∀ x y, add x y = add y x) (ha : ∀ x y z, add (add x y) z = add x (add y z))
    {l l' : List (Nat → α)} (h : l.Perm l') : addUp add l = addUp add l' := by
  have hr : RightCommutative (fun (est e : Nat → α) j => add (est j) (e j)) :=
    ⟨fun x y z => funext fun j => by rw [ha, ha, hc (y j)]⟩
  induction h with
  | nil => rfl
  | cons x h _ => exact congrArg some (h.foldl_eq (rcomm := hr) x)
  | swap x y l =>
    refine congrArg some ?_
    show List.foldl _ (fun j => add (y j) (x j)) l = List.foldl _ (fun j => add (x j) (y j)) l
    rw [show (fun j => add (y j) (x j)) = fun j => add (x j) (y j) from funext fun j => hc _ _]
  | trans _ _ h1 h2 => exact h1.trans h2

theorem estimated_two {add : α → α → α} (hc : ∀ x y, add x y = add y x) {answers : List (Nat → α)} (h2 : answers.length ≤ 2)
    {e e' : Nat → α} (h : Estimated add answers e) (h' : Estimated add answers e') : e = e' := by
  have key : ∀ e, Estimated add answers e → addUp add answers = some e := by
    rintro e ⟨order, hp, ho⟩
    match answers, h2 with
    | [], _ => rw [hp.eq_nil] at ho; exact ho
    | [a], _ => rw [List.perm_singleton.1 hp] at ho; exact ho
    | [a, b], _ =>
      rcases List.perm_pair.1 hp with rfl | rfl
      · exact ho
      · rw [← ho]
        exact congrArg some (funext fun j => hc _ _)
  exact Option.some.inj ((key e h).symm.trans (key e' h'))

theorem estimated_exact {add : α → α → α} (hc : ∀ x y, add x y = add y x) (ha : ∀ x y z, add (add x y) z = add x (add y z))
    {answers : List (Nat → α)} {e e' : Nat → α} (h : Estimated add answers e) (h' : Estimated add answers e') : e = e' := by
  obtain ⟨o, hp, ho⟩ := h
  obtain ⟨o', hp', ho'⟩ := h'
  rw [addUp_perm hc ha (hp.trans hp'.symm), ho'] at ho
  exact (Option.some.inj ho).symm

/-! ### The scores -/

/-- The helpers of the scoring answer with as many scores as they are asked for. -/
def Right (run : Nat → Nat → Option (List ℚ × Bool)) : Prop := ∀ start length r, run start length = some r → r.1.length = length

theorem scored {run : Nat → Nat → Option (List ℚ × Bool)} (hrun : Right run) {sl t : Nat} (hsl : t ≤ sl) {s0 : ParScore}
    (h0 : ParScore.init run sl t = some s0) : ∃ w, ∀ s, ParScore.Reachable s0 s → ∀ v ∈ s.final, v = w := by
  have ht : 1 ≤ t := by
    rcases Nat.eq_zero_or_pos t with rfl | h
    · exact absurd h0 (by rw [ParScore.C49_zero_threads]; simp)
    · exact h
  unfold ParScore.init ParScore.chunks checkedDiv checkedMod at h0
  rw [if_neg (by omega), if_neg (by omega)] at h0
  simp only [Option.bind_eq_bind, Option.bind_some, Option.bind_eq_some_iff, Option.some.injEq] at h0
  obtain ⟨rs, h1, rfl⟩ := h0
  rw [mapM_eq_some] at h1
  have hl : t = rs.length := by simpa using h1.length_eq
  have hget : ∀ i (hi : i < rs.length), (rs[i]).start = i * (sl / t) ∧ (i + 1 < t → (rs[i]).scores.length = sl / t) := by
    intro i hi
    have := h1.get (i := i) (by simpa using by omega) hi
    simp only [List.get_eq_getElem, List.getElem_map, List.getElem_range] at this
    obtain ⟨r, hr, e⟩ := Option.map_eq_some_iff.1 this
    rw [← e]
    refine ⟨rfl, fun h => ?_⟩
    have := hrun _ _ _ hr
    rw [if_neg (by omega)] at this
    exact this
  have hg : ParScore.Good t (sl / t) (fun i => rs.getD i ⟨0, [], false⟩) := by
    refine ⟨ht, Nat.div_pos hsl ht, fun i hi => ?_, fun i hi => ?_⟩
    · simp only [List.getD_eq_getElem?_getD, List.getElem?_eq_getElem (show i < rs.length by omega), Option.getD_some]
      exact (hget i (by omega)).1
    · simp only [List.getD_eq_getElem?_getD, List.getElem?_eq_getElem (show i < rs.length by omega), Option.getD_some]
      exact (hget i (by omega)).2 hi
  have hrs : (List.range t).map (fun i => rs.getD i ⟨0, [], false⟩) = rs := by
    refine List.ext_getElem (by simpa using hl) fun i h1 h2 => ?_
    simp [List.getElem?_eq_getElem h2]
  refine ⟨ParScore.inOrder (fun i => rs.getD i ⟨0, [], false⟩) t, fun s hs v hv => ?_⟩
  have hi := ParScore.inv_init hg
  rw [hrs] at hi
  have hI := ParScore.inv_reachable hg hi hs
  rcases Nat.lt_or_ge s.proto.nReceived t with h | h
  · rw [(hI.running h).2.1] at hv
    cases hv
  · rw [hI.over (Nat.le_antisymm hI.le h)] at hv
    exact List.mem_singleton.1 hv

/-! ### Runs -/

/-- The last stage is what the code has: at least as many positions as threads, answers of the right length. -/
structure Machine.Fits (m : Machine α) (t : Nat) : Prop where
  positions : ∀ p, t ≤ m.positions p
  scores : ∀ p ests, Right (m.scores p ests)

theorem forall₂_unique {β γ : Type} {R : β → γ → Prop} (h : ∀ b c c', R b c → R b c' → c = c') {l : List β} {a b : List γ}
    (ha : List.Forall₂ R l a) (hb : List.Forall₂ R l b) : a = b := by
  induction ha generalizing b with
  | nil => cases hb; rfl
  | cons h1 _ ih =>
    cases hb with
    | cons h2 h3 => rw [h _ _ _ h1 h2, ih h3]

theorem delivers_unique {m : Machine α} {add : α → α → α} {t : Nat} (hm : m.Fits t) {d : m.Data}
    (hp : ∀ i c c', m.PcaOf t d i c → m.PcaOf t d i c' → c = c')
    (he : ∀ col e e', Estimated add ((List.range t).map (m.answer col t)) e → Estimated add ((List.range t).map (m.answer col t)) e' → e = e')
    {v v' : List ℚ × Bool} (h : m.Delivers add t d v) (h' : m.Delivers add t d v') : v = v' := by
  obtain ⟨cs, ests, s0, s, h1, h2, h3, h4, h5⟩ := h
  obtain ⟨cs', ests', s0', s', h1', h2', h3', h4', h5'⟩ := h'
  obtain rfl := forall₂_unique hp h1 h1'
  obtain rfl := forall₂_unique he h2 h2'
  cases h3.symm.trans h3'
  obtain ⟨w, hw⟩ := scored (hm.scores _ _) (hm.positions _) h3
  rw [hw s h4 v h5, hw s' h4' v' h5']

/-- C81: with one or two threads, whatever the arithmetic does (only `x + y` and `y + x` have the same bits), all runs deliver the same. -/
theorem C81_reproducible {m : Machine α} {add : α → α → α} (hc : ∀ x y, add x y = add y x) {t : Nat} (ht : t ≤ 2) (hm : m.Fits t)
    {d : m.Data} {v v' : List ℚ × Bool} (h : m.Delivers add t d v) (h' : m.Delivers add t d v') : v = v' := by
  refine delivers_unique hm ?_ (fun col e e' => estimated_two hc (by simpa using ht)) h h'
  intro i c c' h1 h2
  unfold Machine.PcaOf at h1 h2
  split at h1
  · next h0 => rw [if_pos h0] at h2; exact h1.trans h2.symm
  · next h0 =>
    rw [if_neg h0] at h2
    obtain ⟨s, f, r1, f1, rfl⟩ := h1
    obtain ⟨s', f', r2, f2, rfl⟩ := h2
    rw [HNet.C81_factor (by omega) r1 f f1, HNet.C81_factor (by omega) r2 f' f2, HNet.C81_means_two (by omega) ht r1 f f1,
      HNet.C81_means_two (by omega) ht r2 f' f2]

/-- C81: with any number of threads the schedule acts only through the rounding of sums: if addition were associative and the mean of
the columns did not depend on the order of its summands, all runs would deliver the same. -/
theorem C81_only_rounding {m : Machine α} {add : α → α → α} (hc : ∀ x y, add x y = add y x)
    (ha : ∀ x y z, add (add x y) z = add x (add y z)) (hs : ∀ f l l', l.Perm l' → m.finish f l = m.finish f l') {t : Nat}
    (hm : m.Fits t) {d : m.Data} {v v' : List ℚ × Bool} (h : m.Delivers add t d v) (h' : m.Delivers add t d v') : v = v' := by
  refine delivers_unique hm ?_ (fun col e e' => estimated_exact hc ha) h h'
  intro i c c' h1 h2
  unfold Machine.PcaOf at h1 h2
  split at h1
  · next h0 => rw [if_pos h0] at h2; exact h1.trans h2.symm
  · next h0 =>
    rw [if_neg h0] at h2
    obtain ⟨s, f, r1, f1, rfl⟩ := h1
    obtain ⟨s', f', r2, f2, rfl⟩ := h2
    have p1 := (HNet.hinv_reachable (g := fun _ => (0 : Nat)) (by omega) (by simp) r1).fin f f1
    have p2 := (HNet.hinv_reachable (g := fun _ => (0 : Nat)) (by omega) (by simp) r2).fin f' f2
    rw [HNet.C81_factor (by omega) r1 f f1, HNet.C81_factor (by omega) r2 f' f2]
    exact hs _ _ _ ((p1.trans p2.symm).map _)

/-! ### Single precision -/

theorem nearest_int (z : ℤ) : nearest z = z := by
  unfold nearest
  simp

theorem nearest_error (q : ℚ) : |(nearest q : ℚ) - q| ≤ 1 / 2 := by
  have h1 := Int.floor_le q
  have h2 := Int.lt_floor_add_one q
  unfold nearest
  simp only
  rw [abs_le]
  split_ifs <;> push_cast <;> constructor <;> linarith

theorem round_zero : round 0 = 0 := by
  unfold round
  simp [show nearest 0 = 0 from by simpa using nearest_int 0]

/-- Rounding changes a number by at most half a unit in the last of 24 digits. -/
theorem round_error (x : ℚ) : |round x - x| ≤ |x| / 2 ^ 24 := by
  by_cases hx : x = 0
  · subst hx
    simp [round_zero]
  · have hp : 0 < |x| := abs_pos.2 hx
    have h1 : ((2 : ℕ) : ℚ) ^ Int.log 2 |x| ≤ |x| := Int.zpow_log_le_self (by norm_num) hp
    have hu : (0 : ℚ) < (2 : ℚ) ^ (Int.log 2 |x| - 23) := by positivity
    have h2 : (2 : ℚ) ^ (Int.log 2 |x| - 23) * 2 ^ 23 ≤ |x| := by
      rw [zpow_sub₀ (by norm_num)]
      simpa using h1
    have he := nearest_error (x / (2 : ℚ) ^ (Int.log 2 |x| - 23))
    unfold round
    simp only
    generalize (2 : ℚ) ^ (Int.log 2 |x| - 23) = u at *
    have e : (nearest (x / u) : ℚ) * u - x = (nearest (x / u) - x / u) * u := by field_simp
    rw [e, abs_mul, abs_of_pos hu]
    have h3 := mul_le_mul_of_nonneg_right he hu.le
    rw [le_div_iff₀ (by positivity)]
    linarith

/-- Rounding of a number between two powers of two. -/
theorem round_of {x : ℚ} {k : ℤ} (h1 : (2 : ℚ) ^ k ≤ |x|) (h2 : |x| < 2 ^ (k + 1)) :
    round x = nearest (x / 2 ^ (k - 23)) * 2 ^ (k - 23) := by
  have hp : 0 < |x| := lt_of_lt_of_le (by positivity) h1
  have hl : Int.log 2 |x| = k := by
    have a := (Int.zpow_le_iff_le_log (R := ℚ) (b := 2) (by norm_num) hp (x := k)).1 (by exact_mod_cast h1)
    have b := (Int.lt_zpow_iff_log_lt (R := ℚ) (b := 2) (by norm_num) hp (x := k + 1)).1 (by exact_mod_cast h2)
    omega
  unfold round
  rw [hl]

/-- Numbers with 24 binary digits are not changed. -/
theorem round_digits {x : ℚ} (z k : ℤ) (h1 : (2 : ℚ) ^ k ≤ |x|) (h2 : |x| < 2 ^ (k + 1)) (hx : x = z * 2 ^ (k - 23)) : round x = x := by
  rw [round_of h1 h2]
  have : x / 2 ^ (k - 23) = z := by
    rw [hx]
    field_simp
  rw [this, nearest_int, ← hx]

theorem nearest_le {q : ℚ} {z : ℤ} (h : q ≤ z) : nearest q ≤ z := by
  have h1 := Int.floor_le q
  have h2 : ⌊q⌋ ≤ z := by
    have := Int.floor_le_floor h
    rwa [Int.floor_intCast] at this
  rcases h2.lt_or_eq with h3 | h3
  · unfold nearest
    simp only
    split_ifs <;> omega
  · have h4 : (⌊q⌋ : ℚ) = z := by rw [h3]
    unfold nearest
    simp only
    rw [if_pos (by linarith)]
    omega

theorem le_nearest {q : ℚ} {z : ℤ} (h : (z : ℚ) ≤ q) : z ≤ nearest q := by
  have h2 : z ≤ ⌊q⌋ := Int.le_floor.2 h
  unfold nearest
  simp only
  split_ifs <;> omega

/-- Rounding a rounded number changes nothing. -/
theorem round_idem (x : ℚ) : round (round x) = round x := by
  by_cases hx : x = 0
  · subst hx
    rw [round_zero, round_zero]
  · have hp : 0 < |x| := abs_pos.2 hx
    obtain ⟨k, hk⟩ : ∃ k, Int.log 2 |x| = k := ⟨_, rfl⟩
    have h1 : (2 : ℚ) ^ k ≤ |x| := by
      rw [← hk]
      exact_mod_cast Int.zpow_log_le_self (R := ℚ) (b := 2) (by norm_num) hp
    have h2 : |x| < (2 : ℚ) ^ (k + 1) := by
      rw [← hk]
      exact_mod_cast Int.lt_zpow_succ_log_self (R := ℚ) (b := 2) (by norm_num) |x|
    rw [round_of h1 h2]
    have hu : (0 : ℚ) < 2 ^ (k - 23) := by positivity
    have e1 : (2 : ℚ) ^ k = 2 ^ 23 * 2 ^ (k - 23) := by
      rw [zpow_sub₀ (by norm_num)]
      field_simp
    have e2 : (2 : ℚ) ^ (k + 1) = 2 ^ 24 * 2 ^ (k - 23) := by
      rw [zpow_add₀ (by norm_num), e1]
      ring
    have e3 : (2 : ℚ) ^ (k + 1 + 1) = 2 ^ 25 * 2 ^ (k - 23) := by
      rw [zpow_add₀ (by norm_num), e2]
      ring
    have e4 : (2 : ℚ) ^ (k + 1 - 23) = 2 * 2 ^ (k - 23) := by
      rw [show k + 1 - 23 = (k - 23) + 1 by ring, zpow_add₀ (by norm_num)]
      ring
    -- the digits are between 2 ^ 23 and 2 ^ 24
    have hz : (2 : ℤ) ^ 23 ≤ |nearest (x / 2 ^ (k - 23))| ∧ |nearest (x / 2 ^ (k - 23))| ≤ 2 ^ 24 := by
      rw [e1] at h1
      rw [e2] at h2
      rcases lt_or_gt_of_ne hx with hn | hn
      · rw [abs_of_neg hn] at h1 h2
        have a := nearest_le (q := x / 2 ^ (k - 23)) (z := -2 ^ 23) (by push_cast; rw [div_le_iff₀ hu]; linarith)
        have b := le_nearest (q := x / 2 ^ (k - 23)) (z := -2 ^ 24) (by push_cast; rw [le_div_iff₀ hu]; linarith)
        rw [abs_of_neg (by norm_num at a ⊢; omega)]
        constructor <;> omega
      · rw [abs_of_pos hn] at h1 h2
        have a := le_nearest (q := x / 2 ^ (k - 23)) (z := 2 ^ 23) (by push_cast; rw [le_div_iff₀ hu]; linarith)
        have b := nearest_le (q := x / 2 ^ (k - 23)) (z := 2 ^ 24) (by push_cast; rw [div_le_iff₀ hu]; linarith)
        rw [abs_of_pos (by norm_num at a ⊢; omega)]
        constructor <;> omega
    generalize nearest (x / 2 ^ (k - 23)) = z at hz ⊢
    have habs : |(z : ℚ) * 2 ^ (k - 23)| = |z| * 2 ^ (k - 23) := by rw [abs_mul, abs_of_pos hu]; push_cast; rfl
    rcases hz.2.lt_or_eq with h3 | h3
    · refine round_digits z k ?_ ?_ rfl
      · rw [habs, e1]
        exact mul_le_mul_of_nonneg_right (by exact_mod_cast hz.1) hu.le
      · rw [habs, e2]
        exact mul_lt_mul_of_pos_right (by exact_mod_cast h3) hu
    · have hq : (|z| : ℚ) = 2 ^ 24 := by exact_mod_cast h3
      have hzz : z = 2 ^ 24 ∨ z = -2 ^ 24 := by
        rcases abs_choice z with h | h <;> rw [h] at h3
        · exact .inl h3
        · exact .inr (by omega)
      refine round_digits (z / 2) (k + 1) ?_ ?_ ?_
      · rw [habs, e2]
        push_cast
        rw [hq]
      · rw [habs, e3]
        push_cast
        rw [hq]
        nlinarith
      · rw [e4]
        rcases hzz with rfl | rfl
        · norm_num
          ring
        · norm_num
          ring

theorem add_comm_f32 (x y : ℚ) : add x y = add y x := by
  unfold add
  rw [_root_.add_comm]

/-- Half a unit in the last digit of 1. -/
def u : ℚ := 1 / 2 ^ 24

theorem round_one : round 1 = 1 := round_digits (2 ^ 23) 0 (by norm_num) (by norm_num) (by norm_num)

theorem round_one_u : round (1 + u) = 1 := by
  rw [round_of (k := 0) (by norm_num [u]) (by norm_num [u, abs_of_pos])]
  have : (1 + u) / 2 ^ ((0 : ℤ) - 23) = 8388608 + 1 / 2 := by norm_num [u]
  rw [this]
  have : nearest (8388608 + 1 / 2) = 8388608 := by
    have hf : ⌊(8388608 + 1 / 2 : ℚ)⌋ = 8388608 := by rw [Int.floor_eq_iff]; norm_num
    unfold nearest
    simp only [hf]
    norm_num
  rw [this]
  norm_num

theorem round_two_u : round (u + u) = u + u :=
  round_digits (2 ^ 23) (-23) (by norm_num [u]) (by norm_num [u]) (by norm_num [u])

theorem round_u : round u = u := round_digits (2 ^ 23) (-24) (by norm_num [u]) (by norm_num [u]) (by norm_num [u])

theorem round_one_two_u : round (1 + (u + u)) = 1 + (u + u) :=
  round_digits (2 ^ 23 + 1) 0 (by norm_num [u]) (by norm_num [u]) (by norm_num [u])

theorem round_two : round 2 = 2 := round_digits (2 ^ 23) 1 (by norm_num) (by norm_num) (by norm_num)

theorem add_zero_of {x : ℚ} (h : round x = x) : add x 0 = x := by
  unfold add
  rw [_root_.add_zero, h]

/-! ### Three or more threads -/

/-- A constant vector of scores can be delivered. -/
theorem exists_final (q : ℚ) {sl t : Nat} (ht : 1 ≤ t) (hsl : t ≤ sl) : ∃ s0 s,
    ParScore.init (fun start length => some (ParScore.answer (fun _ => some q) start length)) sl t = some s0 ∧ ParScore.Reachable s0 s ∧
    ParScore.answer (fun _ => some q) 0 sl ∈ s.final := by
  obtain ⟨s0, h0, h⟩ := ParScore.C49_parallel (run := fun start length => some (ParScore.answer (fun _ => some q) start length))
    (raw := fun _ => some q) ht hsl (fun _ _ _ => rfl) (fun i _ _ h => nomatch h)
  have key : ∀ n s, ParScore.Reachable s0 s → s.pool.length + (t - s.proto.nReceived) ≤ n → ∃ u, ParScore.Reachable s0 u ∧ u.pool = [] := by
    intro n
    induction n with
    | zero => exact fun s hs hn => ⟨s, hs, List.length_eq_zero_iff.1 (by omega)⟩
    | succ n ih =>
      intro s hs hn
      match hp : s.pool with
      | [] => exact ⟨s, hs, hp⟩
      | m :: post =>
        obtain ⟨u, h1, h2⟩ := (h s hs).2.2 [] m post hp
        exact ih u (.step hs (.handle s [] post m hp h1)) (by omega)
  obtain ⟨s, hs, hp⟩ := key _ s0 .init le_rfl
  exact ⟨s0, s, h0, hs, by rw [(h s hs).2.1 hp]; simp⟩

theorem answer_inj {p q : ℚ} {sl : Nat} (hsl : 1 ≤ sl)
    (h : ParScore.answer (fun _ => some p) 0 sl = ParScore.answer (fun _ => some q) 0 sl) : p = q := by
  obtain ⟨n, rfl⟩ : ∃ n, sl = n + 1 := ⟨sl - 1, by omega⟩
  have := congrArg (fun x => x.1.head?) h
  simpa [ParScore.answer, Scoring.carrySpec, List.range_succ_eq_map, List.range'_succ] using this

/-- The answers of the helpers of the density on a grid of five points: most of the points lie with helper 0. -/
def wave (i j : Nat) : ℚ := if i = 0 then [0, 2, 1, 1, 0].getD j 0 else if i ≤ 2 then (if j = 3 then u else 0) else 0

/-- The number of nodes of a segment, multi_kde/mod.rs lines 73-105. -/
def peaks (est : Nat → ℚ) : ℚ := ((Kde.findPeakIndex 1 ((List.range 5).map est)).getD []).length

/-- A run with one column of coordinates whose scores are the number of nodes. -/
def density (t : Nat) : Machine ℚ where
  Data := Unit
  Factor := Unit
  Means := Unit
  Pca := Unit
  Points := Unit
  Column := Unit
  dims _ := 0
  factor _ _ _ _ := ()
  means _ _ _ _ := ()
  comb _ _ := ()
  finish _ _ := ()
  alone _ _ := ()
  points _ _ := ()
  columns _ := [()]
  answer _ _ := wave
  scores _ ests := fun start length => some (ParScore.answer (fun _ => some (peaks (ests.headD fun _ => 0))) start length)
  positions _ := t

theorem answer_right (raw : Nat → Option ℚ) : Right (fun start length => some (ParScore.answer raw start length)) := by
  intro start length r h
  cases h
  simp [ParScore.answer, Scoring.carrySpec]

theorem density_fits (t : Nat) : (density t).Fits t := ⟨fun _ => le_rfl, fun _ _ => answer_right _⟩

theorem density_delivers {t : Nat} (ht : 1 ≤ t) {est : Nat → ℚ} (h : Estimated add ((List.range t).map wave) est) :
    (density t).Delivers add t () (ParScore.answer (fun _ => some (peaks est)) 0 t) := by
  obtain ⟨s0, s, h1, h2, h3⟩ := exists_final (peaks est) ht (le_refl t)
  exact ⟨[], [est], s0, s, .nil, .cons h .nil, h1, h2, h3⟩

theorem fold_zero (l : List (Nat → ℚ)) (hl : ∀ e ∈ l, ∀ j, e j = 0) {est : Nat → ℚ} (he : ∀ j, round (est j) = est j) :
    l.foldl (fun est e j => add (est j) (e j)) est = est := by
  induction l with
  | nil => rfl
  | cons e l ih =>
    rw [List.foldl_cons, show (fun j => add (est j) (e j)) = est from
      funext fun j => by rw [hl e (by simp), add_zero_of (he j)]]
    exact ih fun e h => hl e (by simp [h])

/-- The two densities. -/
def low (j : Nat) : ℚ := [0, 2, 1, 1, 0].getD j 0
def high (j : Nat) : ℚ := [0, 2, 1, 1 + (u + u), 0].getD j 0

theorem rounded_low (j : Nat) : round (low j) = low j := by
  unfold low
  match j with
  | 0 | 4 => simp [round_zero]
  | 1 => simp [round_two]
  | 2 | 3 => simp [round_one]
  | j + 5 => simp [round_zero]

theorem rounded_high (j : Nat) : round (high j) = high j := by
  unfold high
  match j with
  | 0 | 4 => simp [round_zero]
  | 1 => simp [round_two]
  | 2 => simp [round_one]
  | 3 => simp [round_one_two_u]
  | j + 5 => simp [round_zero]

theorem estimated_low {t : Nat} (ht : 3 ≤ t) : Estimated add ((List.range t).map wave) low := by
  obtain ⟨r, rfl⟩ : ∃ r, t = 3 + r := ⟨t - 3, by omega⟩
  refine ⟨_, List.Perm.refl _, ?_⟩
  rw [List.range_add, List.map_append]
  show some (List.foldl _ _ ([wave 1, wave 2] ++ _)) = _
  rw [List.foldl_append, show List.foldl (fun est e j => add (est j) (e j)) (wave 0) [wave 1, wave 2] = low from ?_, fold_zero _ ?_ rounded_low]
  · intro e he j
    simp only [List.mem_map] at he
    obtain ⟨i, ⟨k, -, rfl⟩, rfl⟩ := he
    unfold wave
    rw [if_neg (by omega), if_neg (by omega)]
  · funext j
    show add (add (low j) (if j = 3 then u else 0)) (if j = 3 then u else 0) = low j
    by_cases hj : j = 3
    · subst hj
      show add (add 1 u) u = 1
      unfold add
      rw [round_one_u, round_one_u]
    · rw [if_neg hj, add_zero_of (rounded_low j), add_zero_of (rounded_low j)]

theorem estimated_high {t : Nat} (ht : 3 ≤ t) : Estimated add ((List.range t).map wave) high := by
  obtain ⟨r, rfl⟩ : ∃ r, t = 3 + r := ⟨t - 3, by omega⟩
  rw [List.range_add, List.map_append]
  refine ⟨[wave 1, wave 2, wave 0] ++ ((List.range r).map (3 + ·)).map wave, List.Perm.append_right _ ?_, ?_⟩
  · show [wave 1, wave 2, wave 0].Perm [wave 0, wave 1, wave 2]
    exact (List.perm_append_comm (l₁ := [wave 1, wave 2]) (l₂ := [wave 0]))
  show some (List.foldl _ _ ([wave 2, wave 0] ++ _)) = _
  rw [List.foldl_append, show List.foldl (fun est e j => add (est j) (e j)) (wave 1) [wave 2, wave 0] = high from ?_, fold_zero _ ?_ rounded_high]
  · intro e he j
    simp only [List.mem_map] at he
    obtain ⟨i, ⟨k, -, rfl⟩, rfl⟩ := he
    unfold wave
    rw [if_neg (by omega), if_neg (by omega)]
  · funext j
    show add (add (if j = 3 then u else 0) (if j = 3 then u else 0)) (low j) = high j
    by_cases hj : j = 3
    · subst hj
      show add (add u u) 1 = 1 + (u + u)
      unfold add
      rw [round_two_u, _root_.add_comm, round_one_two_u]
    · rw [if_neg hj, add_zero_of (by exact round_zero), add_comm_f32, add_zero_of (rounded_low j)]
      unfold low high
      match j, hj with
      | 0, _ | 1, _ | 2, _ | 4, _ => rfl
      | j + 5, _ => rfl

theorem peaks_low : peaks low = 1 := by
  have : Kde.findPeakIndex 1 ((List.range 5).map low) = some [1] := by decide +kernel
  unfold peaks
  rw [this]
  rfl

theorem peaks_high : peaks high = 2 := by
  have : Kde.findPeakIndex 1 ((List.range 5).map high) = some [1, 3] := by decide +kernel
  unfold peaks
  rw [this]
  rfl

/-- C81 (what fails): with three or more threads the number of nodes of a segment depends on the order in which the helpers of the density
answer, and with it the scores. -/
theorem C81_density {t : Nat} (ht : 3 ≤ t) : ∃ (m : Machine ℚ) (d : m.Data) (v v' : List ℚ × Bool), m.Fits t ∧
    m.Delivers add t d v ∧ m.Delivers add t d v' ∧ v ≠ v' := by
  refine ⟨density t, (), _, _, density_fits t, density_delivers (by omega) (estimated_low ht),
    density_delivers (by omega) (estimated_high ht), fun h => ?_⟩
  have := answer_inj (by omega) h
  rw [peaks_low, peaks_high] at this
  norm_num at this

/-- C81, exactly: in single precision all runs with `t` threads deliver the same bits, for all data and all implementations of the other
computations, if and only if there are at most two threads. -/
theorem C81_iff {t : Nat} : (∀ (m : Machine ℚ) (d : m.Data) (v v' : List ℚ × Bool), m.Fits t → m.Delivers add t d v →
    m.Delivers add t d v' → v = v') ↔ t ≤ 2 := by
  refine ⟨fun h => ?_, fun ht m d v v' hm => C81_reproducible add_comm_f32 ht hm⟩
  by_contra ht
  obtain ⟨m, d, v, v', hm, h1, h2, hne⟩ := C81_density (t := t) (by omega)
  exact hne (h m d v v' hm h1 h2)

/-! ### The means of the columns -/

/-- A sum over the helpers in the order in which their means are kept (`sum_axis`, pca/helper.rs line 126, helpers with equally many rows,
without the division). -/
def sum (l : List ℚ) : ℚ := l.foldl add 0

/-- The means of the helpers. -/
def shares (i : Nat) : ℚ := if i = 0 then u else if i = 1 then 1 else if i = 2 then -1 else 0

/-- A run with one dimension whose scores are the sum of the helpers' means: helper 1 has a large one, helper 2 the opposite. -/
def centred (t : Nat) : Machine ℚ where
  Data := Unit
  Factor := Unit
  Means := ℚ
  Pca := ℚ
  Points := ℚ
  Column := Unit
  dims _ := 1
  factor _ _ _ _ := ()
  means _ _ _ := shares
  comb _ _ := ()
  finish _ l := sum l
  alone _ _ := 0
  points _ cs := cs.headD 0
  columns _ := []
  answer _ _ _ _ := 0
  scores p _ := fun start length => some (ParScore.answer (fun _ => some p) start length)
  positions _ := t

theorem fold_filter (f : Nat → ℚ) (p : Nat → Bool) (l : List Nat) (hf : ∀ j ∈ l, p j = false → f j = 0) {acc : ℚ} (h : round acc = acc) :
    (l.map f).foldl add acc = ((l.filter p).map f).foldl add acc := by
  induction l generalizing acc with
  | nil => rfl
  | cons a l ih =>
    have hl := fun j (hj : j ∈ l) => hf j (List.mem_cons_of_mem _ hj)
    rw [List.map_cons, List.foldl_cons]
    cases hp : p a with
    | true =>
      rw [List.filter_cons_of_pos hp, List.map_cons, List.foldl_cons]
      exact ih hl (round_idem _)
    | false =>
      rw [hf a (by simp) hp, add_zero_of h, ih hl h, List.filter_cons_of_neg (by simp [hp])]

theorem round_minus : round (u + -1) = u + -1 := by
  refine round_digits (-(2 ^ 24 - 1)) (-1) ?_ ?_ ?_ <;> norm_num [u, abs_of_neg]

/-- The means in the order of a schedule. -/
theorem centred_sum {t : Nat} (ht : 3 ≤ t) {s : HNet Unit} (hr : HNet.Reachable t (fun _ => ()) (fun _ _ => ()) s) {x : Unit × List Nat}
    (hx : x ∈ s.fin) : sum (x.2.map shares) =
      ((x.2.filter (fun j => j = 1 ∨ j = 2)).map shares).foldl add u := by
  obtain ⟨-, l, hl⟩ := (HNet.determined_reachable (by omega) hr).fin x hx
  have hp := (HNet.hinv_reachable (g := fun _ => (0 : Nat)) (by omega) (by simp) hr).fin x hx
  have hn : (0 :: l).Nodup := by
    rw [← hl]
    exact hp.nodup_iff.2 List.nodup_range
  rw [hl]
  have e : List.filter (fun j => decide (j = 1 ∨ j = 2)) (0 :: l) = l.filter (fun j => decide (j = 1 ∨ j = 2)) := by simp
  rw [e]
  unfold sum
  rw [List.map_cons, List.foldl_cons]
  have e0 : add 0 (shares 0) = u := by
    show add 0 u = u
    rw [add_comm_f32, add_zero_of round_u]
  rw [e0]
  refine fold_filter _ _ l (fun j hj hf => ?_) round_u
  have h0 : j ≠ 0 := by
    rintro rfl
    exact (List.nodup_cons.1 hn).1 hj
  simp only [decide_eq_false_iff_not, not_or] at hf
  show (if j = 0 then u else if j = 1 then 1 else if j = 2 then -1 else 0) = 0
  rw [if_neg h0, if_neg hf.1, if_neg hf.2]

theorem centred_delivers {t : Nat} (ht : 3 ≤ t) {s : HNet Unit} (hr : HNet.Reachable t (fun _ => ()) (fun _ _ => ()) s) {x : Unit × List Nat}
    (hx : x ∈ s.fin) {q : ℚ} (hq : q = sum (x.2.map shares)) :
    (centred t).Delivers add t () (ParScore.answer (fun _ => some q) 0 t) := by
  obtain ⟨s0, s1, h1, h2, h3⟩ := exists_final q (t := t) (by omega) (le_refl t)
  refine ⟨[q], [], s0, s1, .cons ?_ .nil, .nil, h1, h2, h3⟩
  unfold Machine.PcaOf
  rw [if_neg (by omega)]
  exact ⟨s, x, hr, hx, hq⟩

/-- C81 (what fails): with three or more threads the mean of a column depends on the order in which the helpers of the PCA send theirs. -/
theorem C81_means {t : Nat} (ht : 3 ≤ t) : ∃ v v' : List ℚ × Bool, (centred t).Fits t ∧
    (centred t).Delivers add t () v ∧ (centred t).Delivers add t () v' ∧ v ≠ v' := by
  obtain ⟨s, s', x, y, hr, hr', hx, hy, h1, h2⟩ := HNet.C81_means_three ht (fun _ => ()) (fun _ _ => ())
  have hx' : x ∈ s.fin := by rw [hx]; simp
  have hy' : y ∈ s'.fin := by rw [hy]; simp
  have e1 := centred_sum ht hr hx'
  have e2 := centred_sum ht hr' hy'
  rw [h1] at e1
  rw [h2] at e2
  have f1 : sum (x.2.map shares) = 0 := by
    rw [e1]
    show add (add u 1) (-1) = 0
    rw [add_comm_f32 u]
    unfold add
    rw [round_one_u, show (1 : ℚ) + -1 = 0 by norm_num, round_zero]
  have f2 : sum (y.2.map shares) = u := by
    rw [e2]
    show add (add u (-1)) 1 = u
    unfold add
    rw [round_minus, show u + -1 + 1 = u by ring, round_u]
  refine ⟨_, _, ⟨fun _ => le_rfl, fun _ _ => answer_right _⟩, centred_delivers ht hr hx' f1.symm, centred_delivers ht hr' hy' f2.symm, fun h => ?_⟩
  have := answer_inj (by omega) h
  norm_num [u] at this

/-! ### The number of threads -/

/-- What a helper of the density adds up at one point of the grid, actors/helper.rs lines 68-85. -/
def part (kernel : List ℚ) (range : Nat × Nat) : ℚ := sum ((kernel.drop range.1).take (range.2 - range.1))

/-- C81 (what fails): the number of threads changes bits, even with one and two threads: the same contributions of three points give
another density. -/
theorem C81_threads_matter : ∃ (kernel : List ℚ) (a b : List (Nat × Nat)) (x y : Nat → ℚ), Kde.tasks kernel.length 1 = some a ∧
    Kde.tasks kernel.length 2 = some b ∧ Estimated add (a.map (fun r _ => part kernel r)) x ∧
    Estimated add (b.map (fun r _ => part kernel r)) y ∧ ∀ j, x j ≠ y j := by
  refine ⟨[1, u, u], [(0, 3)], [(0, 1), (1, 3)], fun _ => 1, fun _ => 1 + (u + u), rfl, rfl, ⟨_, .refl _, ?_⟩, ⟨_, .refl _, ?_⟩, ?_⟩
  · show some (fun _ => add (add (add 0 1) u) u) = _
    rw [add_comm_f32 0, add_zero_of round_one]
    unfold add
    rw [round_one_u, round_one_u]
  · show some (fun _ => add (add 0 1) (add (add 0 u) u)) = _
    rw [add_comm_f32 0, add_zero_of round_one, add_comm_f32 0 u, add_zero_of round_u]
    unfold add
    rw [round_two_u, round_one_two_u]
  · intro j
    norm_num [u]

/-! ### Examples -/

/-- Both witnesses are machines to which `C81_reproducible` applies with two threads, and something is delivered. -/
example : ∃ v, (density 2).Delivers add 2 () v :=
  ⟨_, density_delivers (by norm_num) ⟨_, .refl _, rfl⟩⟩

example : (density 2).Fits 2 := density_fits 2

/-- The default of the command line is eight threads, that of the Python estimator one. -/
example : ¬ ∀ (m : Machine ℚ) (d : m.Data) (v v' : List ℚ × Bool), m.Fits 8 → m.Delivers add 8 d v → m.Delivers add 8 d v' → v = v' := by
  rw [C81_iff]
  norm_num

/-- Machine addition is not associative. -/
example : add (add 1 u) u ≠ add 1 (add u u) := by
  unfold add
  rw [round_one_u, round_one_u, round_two_u, round_one_two_u]
  norm_num [u]

end FloatRun
end S2G
