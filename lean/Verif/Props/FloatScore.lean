import Verif.Model.FloatScore
import Verif.Props.FloatRun
import Verif.Props.Scoring

/-!
# C83: scores in single precision

While the sums over the windows stay below 2^24, the score in `f32` is the correctly rounded negative mean of weight times degree minus one: the sum is
exact, and the constant added to the number of edges is rounded away. Rounding is monotone, so normalised scores are in [0, 1] and keep the order of
the means, but not strictly.
-/

namespace S2G
namespace FloatRun
namespace Score

/-! ### Rounding -/

theorem nearest_mono {q r : ℚ} (h : q ≤ r) : nearest q ≤ nearest r := by
  have hf : ⌊q⌋ ≤ ⌊r⌋ := Int.floor_le_floor h
  rcases hf.lt_or_eq with hlt | heq
  · have h1 : nearest q ≤ ⌊q⌋ + 1 := by
      unfold nearest
      simp only
      split_ifs <;> omega
    have h2 : ⌊r⌋ ≤ nearest r := le_nearest (Int.floor_le r)
    omega
  · unfold nearest
    simp only
    rw [← heq]
    split_ifs <;> first | omega | (exfalso; linarith)

theorem exists_log {x : ℚ} (hx : 0 < x) : ∃ k : ℤ, (2 : ℚ) ^ k ≤ x ∧ x < 2 ^ (k + 1) := by
  refine ⟨Int.log 2 x, ?_, ?_⟩
  · exact_mod_cast Int.zpow_log_le_self (R := ℚ) (b := 2) (by norm_num) hx
  · exact_mod_cast Int.lt_zpow_succ_log_self (R := ℚ) (b := 2) (by norm_num) x

theorem round_bounds {x : ℚ} {k : ℤ} (h1 : (2 : ℚ) ^ k ≤ x) (h2 : x < 2 ^ (k + 1)) : (2 : ℚ) ^ k ≤ round x ∧ round x ≤ 2 ^ (k + 1) := by
  have hx : 0 < x := lt_of_lt_of_le (by positivity) h1
  have hu : (0 : ℚ) < 2 ^ (k - 23) := by positivity
  rw [round_of (k := k) (by rwa [abs_of_pos hx]) (by rwa [abs_of_pos hx])]
  have e1 : (2 : ℚ) ^ k = ((2 ^ 23 : ℤ) : ℚ) * 2 ^ (k - 23) := by
    rw [zpow_sub₀ (by norm_num)]
    field_simp
    norm_num
  have e2 : (2 : ℚ) ^ (k + 1) = ((2 ^ 24 : ℤ) : ℚ) * 2 ^ (k - 23) := by
    rw [zpow_add₀ (by norm_num), e1]
    push_cast
    ring
  rw [e1] at h1
  rw [e2] at h2
  have a : (2 : ℤ) ^ 23 ≤ nearest (x / 2 ^ (k - 23)) := le_nearest (by rwa [le_div_iff₀ hu])
  have b : nearest (x / 2 ^ (k - 23)) ≤ (2 : ℤ) ^ 24 := nearest_le (by rw [div_le_iff₀ hu]; exact h2.le)
  constructor
  · rw [e1]
    exact mul_le_mul_of_nonneg_right (by exact_mod_cast a) hu.le
  · rw [e2]
    exact mul_le_mul_of_nonneg_right (by exact_mod_cast b) hu.le

theorem round_pos {x : ℚ} (hx : 0 < x) : 0 < round x := by
  obtain ⟨k, h1, h2⟩ := exists_log hx
  exact lt_of_lt_of_le (by positivity) (round_bounds h1 h2).1

/-- Rounding keeps the order. -/
theorem round_mono {x y : ℚ} (hx : 0 ≤ x) (h : x ≤ y) : round x ≤ round y := by
  rcases hx.eq_or_lt with rfl | hx
  · rw [round_zero]
    rcases h.eq_or_lt with rfl | hy
    · rw [round_zero]
    · exact (round_pos hy).le
  · obtain ⟨k, h1, h2⟩ := exists_log hx
    obtain ⟨l, h3, h4⟩ := exists_log (lt_of_lt_of_le hx h)
    have hkl : k ≤ l := by
      by_contra hc
      have : (2 : ℚ) ^ (l + 1) ≤ 2 ^ k := zpow_le_zpow_right₀ (by norm_num) (by omega)
      linarith
    rcases hkl.lt_or_eq with hlt | rfl
    · have : (2 : ℚ) ^ (k + 1) ≤ 2 ^ l := zpow_le_zpow_right₀ (by norm_num) (by omega)
      exact (round_bounds h1 h2).2.trans (this.trans (round_bounds h3 h4).1)
    · have hy : 0 < y := lt_of_lt_of_le hx h
      have hu : (0 : ℚ) < 2 ^ (k - 23) := by positivity
      rw [round_of (k := k) (by rwa [abs_of_pos hx]) (by rwa [abs_of_pos hx]), round_of (k := k) (by rwa [abs_of_pos hy]) (by rwa [abs_of_pos hy])]
      exact mul_le_mul_of_nonneg_right (by exact_mod_cast nearest_mono ((div_le_div_iff_of_pos_right hu).2 h)) hu.le

theorem round_nonneg {x : ℚ} (hx : 0 ≤ x) : 0 ≤ round x := by
  have := round_mono le_rfl hx
  rwa [round_zero] at this

/-- Integers up to 2^24 are not changed. -/
theorem round_nat {n : Nat} (h : n ≤ 2 ^ 24) : round n = n := by
  rcases Nat.eq_zero_or_pos n with rfl | hn
  · simpa using round_zero
  · rcases h.lt_or_eq with h | rfl
    · have hk : 2 ^ Nat.log 2 n ≤ n := Nat.pow_log_le_self 2 (by omega)
      have hk2 : n < 2 ^ (Nat.log 2 n + 1) := Nat.lt_pow_succ_log_self (by norm_num) n
      have hl : Nat.log 2 n ≤ 23 := by
        by_contra hc
        have : 2 ^ 24 ≤ 2 ^ Nat.log 2 n := Nat.pow_le_pow_right (by norm_num) (by omega)
        omega
      refine round_digits ((n * 2 ^ (23 - Nat.log 2 n) : Nat) : ℤ) (Nat.log 2 n) ?_ ?_ ?_
      · rw [Nat.abs_cast]
        exact_mod_cast hk
      · rw [Nat.abs_cast]
        exact_mod_cast hk2
      · push_cast
        rw [show ((Nat.log 2 n : ℤ) - 23) = -((23 - Nat.log 2 n : Nat) : ℤ) by omega, zpow_neg, zpow_natCast]
        field_simp
    · refine round_digits (2 ^ 23) 24 ?_ ?_ ?_ <;> norm_num

/-! ### The divisor -/

theorem eps_pos : 0 < eps := round_pos (by norm_num [Scoring.eps])

theorem eps_small : eps < 1 / 2 ^ 24 := by
  have h := round_error Scoring.eps
  rw [abs_le] at h
  have h2 := h.2
  unfold eps
  have : |Scoring.eps| = 1 / 10 ^ 8 := by norm_num [Scoring.eps]
  rw [this] at h2
  have h3 : Scoring.eps = 1 / 10 ^ 8 := rfl
  norm_num at h2 h3 ⊢
  linarith

theorem nearest_near (z : ℤ) {t : ℚ} (h0 : 0 ≤ t) (h : t < 1 / 2) : nearest (z + t) = z := by
  have hf : ⌊(z : ℚ) + t⌋ = z := by
    rw [Int.floor_eq_iff]
    constructor <;> linarith
  unfold nearest
  simp only [hf]
  rw [if_pos (by linarith)]

/-- C83: the constant which is added to the number of edges is rounded away. -/
theorem C83_alpha {n : Nat} (h1 : 1 ≤ n) (h : n ≤ 2 ^ 24) : alpha n = n := by
  have he := eps_pos
  have he' := eps_small
  unfold alpha add
  rw [round_nat h, _root_.add_comm]
  rcases h.lt_or_eq with h | rfl
  · have hk : 2 ^ Nat.log 2 n ≤ n := Nat.pow_log_le_self 2 (by omega)
    have hk2 : n < 2 ^ (Nat.log 2 n + 1) := Nat.lt_pow_succ_log_self (by norm_num) n
    have hl : Nat.log 2 n ≤ 23 := by
      by_contra hc
      have : 2 ^ 24 ≤ 2 ^ Nat.log 2 n := Nat.pow_le_pow_right (by norm_num) (by omega)
      omega
    have hk' : ((2 : ℚ) ^ Nat.log 2 n) ≤ n := by exact_mod_cast hk
    have hk2' : (n : ℚ) + 1 ≤ 2 ^ (Nat.log 2 n + 1) := by exact_mod_cast hk2
    have hpos : (0 : ℚ) < n + eps := by positivity
    have hsmall : eps < 1 := he'.trans (by norm_num)
    rw [round_of (k := Nat.log 2 n)]
    · have e : (2 : ℚ) ^ ((Nat.log 2 n : ℤ) - 23) = (2 ^ (23 - Nat.log 2 n))⁻¹ := by
        rw [show ((Nat.log 2 n : ℤ) - 23) = -((23 - Nat.log 2 n : Nat) : ℤ) by omega, zpow_neg, zpow_natCast]
      have hp : (0 : ℚ) < 2 ^ (23 - Nat.log 2 n) := by positivity
      have hple : (2 : ℚ) ^ (23 - Nat.log 2 n) ≤ 2 ^ 23 := pow_le_pow_right₀ (by norm_num) (by omega)
      rw [e]
      have e2 : ((n : ℚ) + eps) / (2 ^ (23 - Nat.log 2 n))⁻¹ = ((n * 2 ^ (23 - Nat.log 2 n) : Nat) : ℤ) + eps * 2 ^ (23 - Nat.log 2 n) := by
        push_cast
        field_simp
      have e3 : eps * 2 ^ (23 - Nat.log 2 n) < 1 / 2 := by
        calc eps * 2 ^ (23 - Nat.log 2 n) ≤ eps * 2 ^ 23 := mul_le_mul_of_nonneg_left hple he.le
          _ < 1 / 2 ^ 24 * 2 ^ 23 := mul_lt_mul_of_pos_right he' (by norm_num)
          _ = 1 / 2 := by norm_num
      rw [e2, nearest_near _ (by positivity) e3]
      push_cast
      field_simp
    · rw [abs_of_pos hpos, zpow_natCast]
      linarith
    · rw [abs_of_pos hpos]
      have : (2 : ℚ) ^ ((Nat.log 2 n : ℤ) + 1) = 2 ^ (Nat.log 2 n + 1) := by exact_mod_cast rfl
      rw [this]
      linarith
  · have hpos : (0 : ℚ) < ((2 ^ 24 : Nat) : ℚ) + eps := by positivity
    have hsmall : eps < 1 := he'.trans (by norm_num)
    rw [round_of (k := 24)]
    · have e2 : (((2 ^ 24 : Nat) : ℚ) + eps) / 2 ^ ((24 : ℤ) - 23) = ((2 ^ 23 : ℤ) : ℚ) + eps / 2 := by
        norm_num
        ring
      rw [e2, nearest_near _ (by positivity) (by linarith)]
      norm_num
    · rw [abs_of_pos hpos]
      norm_num
      linarith
    · rw [abs_of_pos hpos]
      norm_num
      linarith

/-! ### The sum -/

/-- A sum of integers is exact while it stays up to 2^24. -/
theorem sum_exact (l : List Nat) (h : l.sum ≤ 2 ^ 24) : sum (l.map (fun n : Nat => round (n : ℚ))) = (l.sum : ℚ) := by
  have key : ∀ (l : List Nat) (a : Nat), a + l.sum ≤ 2 ^ 24 → (l.map (fun n : Nat => round (n : ℚ))).foldl add a = ((a + l.sum : Nat) : ℚ) := by
    intro l
    induction l with
    | nil => intro a _; simp
    | cons n l ih =>
      intro a ha
      rw [List.sum_cons] at ha
      rw [List.map_cons, List.foldl_cons, round_nat (by omega)]
      have : add (a : ℚ) n = ((a + n : Nat) : ℚ) := by
        unfold add
        rw [← Nat.cast_add, round_nat (by omega)]
      rw [this, ih (a + n) (by omega), List.sum_cons, Nat.add_assoc]
  have := key l 0 (by omega)
  simpa [sum] using this

/-! ### Scores -/

/-- The weight of a window: weight times degree minus one, added up. -/
def total (w : EdgeKey → Nat) (d : NodeKey → Nat) (win : List Edge) : Nat :=
  (win.map (fun e => w e.edgeKey * (d e.src.nodeKey - 1))).sum

/-- The mean of weight times degree minus one. -/
def mean (w : EdgeKey → Nat) (d : NodeKey → Nat) (win : List Edge) : ℚ := total w d win / win.length

/-- The sums over a window are in the range in which `f32` is exact. -/
structure Small (w : EdgeKey → Nat) (d : NodeKey → Nat) (win : List Edge) : Prop where
  total : total w d win ≤ 2 ^ 24
  length : win.length ≤ 2 ^ 24

theorem terms_eq {w : Counts EdgeKey} {d : Counts NodeKey} {win : List Edge} (h : Scoring.Known w d win) :
    win.mapM (term w d) = some ((win.map (fun e => w.val e.edgeKey * (d.val e.src.nodeKey - 1))).map (fun n : Nat => round (n : ℚ))) := by
  rw [mapM_eq_some, List.map_map, List.forall₂_map_right_iff, List.forall₂_same]
  intro e he
  obtain ⟨h1, h2⟩ := h e he
  obtain ⟨x, hx⟩ := Option.isSome_iff_exists.1 h1
  obtain ⟨g, hg⟩ : ∃ g, d e.src.nodeKey = some g := by
    cases hd : d e.src.nodeKey with
    | none => simp [Counts.val, hd] at h2
    | some g => exact ⟨g, rfl⟩
  simp only [Counts.val, hg, Option.getD_some] at h2
  simp [term, Scoring.term, hx, hg, checkedSub, h2, Counts.val]

/-- C83: the score of a window which is not empty is the correctly rounded mean. -/
theorem C83_score {w : Counts EdgeKey} {d : Counts NodeKey} {win : List Edge} (h : Scoring.Known w d win) (hs : Small w.val d.val win)
    (hne : win ≠ []) : score w d win = some (round (mean w.val d.val win), win.length) := by
  unfold score
  rw [terms_eq h]
  simp only [Option.bind_eq_bind, Option.bind_some]
  rw [sum_exact _ hs.total, C83_alpha (List.length_pos_iff.2 hne) hs.length]
  rfl

/-- The score of a window, if it is not empty. -/
def raw (w : EdgeKey → Nat) (d : NodeKey → Nat) (win : List Edge) : Option ℚ := if win = [] then none else some (- round (mean w d win))

/-- C83: the helper answers with the negated means, correctly rounded, where positions with an empty window repeat the previous score. -/
theorem C83_scores {edges : List Edge} (hs : edges.Pairwise (fun a b => a.toId ≤ b.toId)) {w : Counts EdgeKey}
    {d : Counts NodeKey} (hk : Scoring.Known w d edges) {start length q : Nat} (hq : 1 ≤ q) {from_ len : Nat}
    (hlen : from_ + len + (q - 1) ≤ length)
    (hsm : ∀ i, from_ ≤ i → i < from_ + len → Small w.val d.val (Scoring.windowSpec edges start q i)) :
    helper edges (EdgesInTime.spec start length (edges.map Edge.toId)) w d q from_ len =
      some (Scoring.carrySpec 0 ((List.range' from_ len).map (fun i => raw w.val d.val (Scoring.windowSpec edges start q i))),
        decide (0 < len ∧ Scoring.windowSpec edges start q from_ = [])) := by
  unfold helper
  have hsc : ∀ win, Scoring.Known w d win → Small w.val d.val win → ∃ r, score w d win = some (r, win.length) ∧
      (win ≠ [] → r = round (mean w.val d.val win)) := by
    intro win h1 h2
    by_cases hne : win = []
    · subst hne
      exact ⟨_, rfl, fun h => absurd rfl h⟩
    · exact ⟨_, C83_score h1 h2 hne, fun _ => rfl⟩
  have hfold : ∀ (l : List Nat) (s : List ℚ × Bool), (∀ i ∈ l, from_ ≤ i ∧ i < from_ + len) → ∃ rs : List (ℚ × Nat),
      l.foldlM (fun s i => do
        let win ← Scoring.window edges (EdgesInTime.spec start length (edges.map Edge.toId)) q i
        let r ← score w d win
        some (Scoring.push s r)) s = some (rs.foldl Scoring.push s) ∧
      rs.map (fun r => if r.2 = 0 then none else some (-r.1)) = l.map (fun i => raw w.val d.val (Scoring.windowSpec edges start q i)) ∧
      rs.map Prod.snd = l.map (fun i => (Scoring.windowSpec edges start q i).length) := by
    intro l
    induction l with
    | nil => exact fun s _ => ⟨[], rfl, rfl, rfl⟩
    | cons i l ih =>
      intro s h
      obtain ⟨h1, h2⟩ := h i (by simp)
      obtain ⟨r, hr1, hr2⟩ := hsc (Scoring.windowSpec edges start q i) (fun e he => hk e (Scoring.mem_windowSpec he)) (hsm i h1 h2)
      obtain ⟨rs, h3, h4, h5⟩ := ih (Scoring.push s (r, (Scoring.windowSpec edges start q i).length)) (fun j hj => h j (by simp [hj]))
      refine ⟨(r, (Scoring.windowSpec edges start q i).length) :: rs, ?_, ?_, by rw [List.map_cons, List.map_cons, h5]⟩
      · rw [List.foldlM_cons, Scoring.C48_window hs hq (by omega)]
        simp only [Option.bind_eq_bind, Option.bind_some]
        rw [hr1]
        simp only [Option.bind_some]
        simp only [Option.bind_eq_bind] at h3
        rw [h3]
        rfl
      · rw [List.map_cons, List.map_cons, h4]
        congr 1
        unfold raw
        by_cases hne : Scoring.windowSpec edges start q i = []
        · simp [hne]
        · rw [if_neg (by simpa using hne), if_neg hne, hr2 hne]
  obtain ⟨rs, h1, h2, h3⟩ := hfold (List.range' from_ len) ([], false) (fun i hi => by rw [List.mem_range'_1] at hi; exact hi)
  rw [h1, Scoring.foldl_push, Scoring.carry_eq_spec, h2]
  congr 2
  have h4 := congrArg List.head? h3
  rw [List.head?_map] at h4
  rw [h4]
  cases len with
  | zero => rfl
  | succ m =>
    rw [List.range'_succ]
    simp

/-- C83: the scores keep the order of the means, and equal means have equal scores. -/
theorem C83_order {w : EdgeKey → Nat} {d : NodeKey → Nat} {a b : List Edge} {x y : ℚ} (ha : raw w d a = some x) (hb : raw w d b = some y)
    (h : mean w d a ≤ mean w d b) : y ≤ x := by
  unfold raw at ha hb
  split at ha
  · cases ha
  · split at hb
    · cases hb
    · cases ha
      cases hb
      have h0 : 0 ≤ mean w d a := by unfold mean; positivity
      linarith [round_mono h0 h]

/-! ### Normalisation -/

/-- C83: if two scores differ, normalisation in `f32` gives numbers in [0, 1] and keeps the order; the least score becomes 0 and the greatest 1. -/
theorem C83_normalised {l : List ℚ} (h : ∃ x ∈ l, ∃ y ∈ l, x ≠ y) : ∃ f : ℚ → ℚ, normalize l = some (l.map (fun x => some (f x))) ∧
    (∀ x ∈ l, 0 ≤ f x ∧ f x ≤ 1) ∧ (∀ x ∈ l, ∀ y ∈ l, x ≤ y → f x ≤ f y) ∧ (∀ x ∈ l, (∀ y ∈ l, x ≤ y) → f x = 0) ∧
    ∀ x ∈ l, (∀ y ∈ l, y ≤ x) → f x = 1 := by
  obtain ⟨x, hx, y, hy, hxy⟩ := h
  obtain ⟨hi, lo, h1, h2, h3, h4⟩ := Scoring.exists_bounds (List.ne_nil_of_mem hx)
  have hlt : lo < hi := by
    rcases lt_or_gt_of_ne hxy with h | h
    · exact lt_of_le_of_lt (h4 x hx) (lt_of_lt_of_le h (h2 y hy))
    · exact lt_of_le_of_lt (h4 y hy) (lt_of_lt_of_le h (h2 x hx))
  have hD : 0 < sub hi lo := round_pos (by linarith)
  have hmono : ∀ x y, lo ≤ x → x ≤ y → div (sub x lo) (sub hi lo) ≤ div (sub y lo) (sub hi lo) := by
    intro x y hx hxy
    refine round_mono (div_nonneg (round_nonneg (by linarith)) hD.le) ?_
    exact (div_le_div_iff_of_pos_right hD).2 (round_mono (by linarith) (by linarith))
  have hzero : div (sub lo lo) (sub hi lo) = 0 := by
    unfold div sub
    rw [sub_self, round_zero, zero_div, round_zero]
  have hone : div (sub hi lo) (sub hi lo) = 1 := by
    unfold div
    rw [div_self hD.ne', round_one]
  refine ⟨fun x => div (sub x lo) (sub hi lo), ?_, fun z hz => ⟨?_, ?_⟩, fun z hz z' _ hzz => hmono z z' (h4 z hz) hzz, fun z hz hmin => ?_,
    fun z hz hmax => ?_⟩
  · have e1 : l.max? = some hi := List.max?_eq_some_iff.2 ⟨h1, h2⟩
    have e2 : l.min? = some lo := List.min?_eq_some_iff.2 ⟨h3, h4⟩
    unfold normalize
    rw [e1, e2]
    simp only [Option.bind_eq_bind, Option.bind_some, if_neg hD.ne']
  · rw [← hzero]
    exact hmono lo z le_rfl (h4 z hz)
  · rw [← hone]
    exact hmono z hi (h4 z hz) (h2 z hz)
  · rw [le_antisymm (hmin lo h3) (h4 z hz)]
    exact hzero
  · rw [le_antisymm (h2 z hz) (hmax hi h1)]
    exact hone

/-- C83: NaN appears exactly if all scores are equal, and then everywhere. -/
theorem C83_nan {l : List ℚ} (hne : l ≠ []) : (∀ x ∈ l, ∀ y ∈ l, x = y) ↔ normalize l = some (l.map fun _ => none) := by
  constructor
  · intro h
    obtain ⟨hi, lo, h1, h2, h3, h4⟩ := Scoring.exists_bounds hne
    have e1 : l.max? = some hi := List.max?_eq_some_iff.2 ⟨h1, h2⟩
    have e2 : l.min? = some lo := List.min?_eq_some_iff.2 ⟨h3, h4⟩
    unfold normalize
    rw [e1, e2, h hi h1 lo h3]
    have : sub lo lo = 0 := by
      unfold sub
      rw [sub_self, round_zero]
    simp [this]
  · intro h x hx y hy
    by_contra hxy
    obtain ⟨f, hf, -⟩ := C83_normalised ⟨x, hx, y, hy, hxy⟩
    rw [hf] at h
    have := List.map_inj_left.1 (Option.some.inj h) x hx
    cases this

/-! ### Beyond the range -/

theorem round_between {x : ℚ} (hx : 0 ≤ x) : (1 - u) * x ≤ round x ∧ round x ≤ (1 + u) * x := by
  have h := round_error x
  rw [abs_of_nonneg hx, abs_le] at h
  unfold u
  constructor <;> linarith [h.1, h.2]

/-- `x` is `t` up to `m` roundings. -/
def Close (m : Nat) (x t : ℚ) : Prop := (1 - u) ^ m * t ≤ x ∧ x ≤ (1 + u) ^ m * t

theorem Close.nonneg {m : Nat} {x t : ℚ} (h : Close m x t) (ht : 0 ≤ t) : 0 ≤ x :=
  (mul_nonneg (pow_nonneg (by norm_num [u]) m) ht).trans h.1

theorem Close.round {m : Nat} {x t : ℚ} (h : Close m x t) (ht : 0 ≤ t) : Close (m + 1) (round x) t := by
  have hb := round_between (h.nonneg ht)
  have h1 : (0 : ℚ) ≤ 1 - u := by norm_num [u]
  have h2 : (0 : ℚ) ≤ 1 + u := by norm_num [u]
  constructor
  · calc (1 - u) ^ (m + 1) * t = (1 - u) * ((1 - u) ^ m * t) := by ring
      _ ≤ (1 - u) * x := mul_le_mul_of_nonneg_left h.1 h1
      _ ≤ _ := hb.1
  · calc FloatRun.round x ≤ (1 + u) * x := hb.2
      _ ≤ (1 + u) * ((1 + u) ^ m * t) := mul_le_mul_of_nonneg_left h.2 h2
      _ = (1 + u) ^ (m + 1) * t := by ring

theorem Close.mono {m m' : Nat} {x t : ℚ} (h : Close m x t) (ht : 0 ≤ t) (hm : m ≤ m') : Close m' x t :=
  ⟨(mul_le_mul_of_nonneg_right (pow_le_pow_of_le_one (by norm_num [u]) (by norm_num [u]) hm) ht).trans h.1,
    h.2.trans (mul_le_mul_of_nonneg_right (pow_le_pow_right₀ (by norm_num [u]) hm) ht)⟩

theorem Close.add {m : Nat} {x y s t : ℚ} (h : Close m x s) (h' : Close m y t) : Close m (x + y) (s + t) := by
  unfold Close at *
  rw [mul_add, mul_add]
  exact ⟨add_le_add h.1 h'.1, add_le_add h.2 h'.2⟩

theorem Close.refl (t : ℚ) : Close 0 t t := by simp [Close]

theorem sum_close (l : List Nat) : Close (l.length + 1) (sum (l.map (fun n : Nat => round (n : ℚ)))) (l.sum : ℚ) := by
  have key : ∀ (l : List Nat) (m : Nat) (x : ℚ) (a : Nat), 1 ≤ m → Close m x a →
      Close (m + l.length) ((l.map (fun n : Nat => round (n : ℚ))).foldl FloatRun.add x) ((a + l.sum : Nat) : ℚ) := by
    intro l
    induction l with
    | nil => intro m x a _ h; simpa using h
    | cons n l ih =>
      intro m x a hm h
      rw [List.map_cons, List.foldl_cons, List.sum_cons, List.length_cons, ← Nat.add_assoc a n, Nat.add_comm l.length 1, ← Nat.add_assoc m]
      refine ih (m + 1) _ (a + n) (by omega) ?_
      unfold FloatRun.add
      push_cast
      exact (h.add (((Close.refl (n : ℚ)).round (by positivity)).mono (by positivity) hm)).round (by positivity)
  have := key l 1 0 0 le_rfl (by simp [Close])
  simpa [sum, Nat.add_comm] using this

/-- C83: beyond the range, the score is the mean up to one rounding per edge and two more. -/
theorem C83_error {w : Counts EdgeKey} {d : Counts NodeKey} {win : List Edge} (h : Scoring.Known w d win) (hl : win.length ≤ 2 ^ 24)
    (hne : win ≠ []) : ∃ x, score w d win = some (x, win.length) ∧ (1 - u) ^ (win.length + 2) * mean w.val d.val win ≤ x ∧
      x ≤ (1 + u) ^ (win.length + 2) * mean w.val d.val win := by
  have hpos : (0 : ℚ) < win.length := by exact_mod_cast List.length_pos_iff.2 hne
  unfold score
  rw [terms_eq h]
  simp only [Option.bind_eq_bind, Option.bind_some]
  rw [C83_alpha (List.length_pos_iff.2 hne) hl]
  refine ⟨_, rfl, ?_⟩
  have hc := sum_close (win.map (fun e => w.val e.edgeKey * (d.val e.src.nodeKey - 1)))
  rw [List.length_map] at hc
  have hd : Close (win.length + 1) (sum ((win.map (fun e => w.val e.edgeKey * (d.val e.src.nodeKey - 1))).map (fun n : Nat => round (n : ℚ))) / win.length)
      (mean w.val d.val win) := by
    unfold mean total
    constructor
    · rw [← mul_div_assoc]
      exact (div_le_div_iff_of_pos_right hpos).2 hc.1
    · rw [← mul_div_assoc]
      exact (div_le_div_iff_of_pos_right hpos).2 hc.2
  exact hd.round (by unfold mean; positivity)

/-! ### What fails -/

theorem round_half : round (2 ^ 24 - 1 / 2) = 2 ^ 24 := by
  rw [round_of (k := 23) (by norm_num) (by norm_num)]
  have hf : ⌊(16777215 + 1 / 2 : ℚ)⌋ = 16777215 := by rw [Int.floor_eq_iff]; norm_num
  have : nearest (16777215 + 1 / 2) = 16777216 := by
    unfold nearest
    simp only [hf]
    norm_num
  have e : ((2 : ℚ) ^ 24 - 1 / 2) / 2 ^ ((23 : ℤ) - 23) = 16777215 + 1 / 2 := by norm_num
  rw [e, this]
  norm_num

/-- C83 (what fails): different scores can become equal: both the greatest score and another one become 1. -/
theorem C83_not_strict : ∃ l : List ℚ, (∀ x ∈ l, round x = x) ∧ normalize l = some [some 0, some 1, some 1] ∧ l.Nodup := by
  refine ⟨[-2 ^ 24, -1 / 2, 0], ?_, ?_, ?_⟩
  · intro x hx
    simp only [List.mem_cons, List.not_mem_nil, or_false] at hx
    rcases hx with rfl | rfl | rfl
    · exact round_digits (-2 ^ 23) 24 (by norm_num) (by norm_num) (by norm_num)
    · exact round_digits (-2 ^ 23) (-1) (by norm_num) (by norm_num) (by norm_num)
    · exact round_zero
  · have e1 : ([-2 ^ 24, -1 / 2, 0] : List ℚ).max? = some 0 := by
      rw [List.max?_eq_some_iff]
      norm_num
    have e2 : ([-2 ^ 24, -1 / 2, 0] : List ℚ).min? = some (-2 ^ 24) := by
      rw [List.min?_eq_some_iff]
      norm_num
    have s0 : sub (-2 ^ 24) (-2 ^ 24) = 0 := by unfold sub; rw [sub_self, round_zero]
    have s1 : sub (-1 / 2) (-2 ^ 24) = 2 ^ 24 := by
      unfold sub
      rw [show (-1 / 2 : ℚ) - (-2 ^ 24) = 2 ^ 24 - 1 / 2 by norm_num, round_half]
    have h24 : round (2 ^ 24) = 2 ^ 24 := by
      have := round_nat (n := 2 ^ 24) le_rfl
      push_cast at this
      exact this
    have s2 : sub 0 (-2 ^ 24) = 2 ^ 24 := by
      unfold sub
      rw [zero_sub, neg_neg, h24]
    unfold normalize
    rw [e1, e2]
    simp only [Option.bind_eq_bind, Option.bind_some, List.map_cons, List.map_nil, s0, s1, s2]
    norm_num [div, round_zero, round_one]
  · norm_num

theorem round_tie : round (2 ^ 24 + 1) = 2 ^ 24 := by
  rw [round_of (k := 24) (by norm_num [abs_of_pos]) (by norm_num [abs_of_pos])]
  have hf : ⌊(8388608 + 1 / 2 : ℚ)⌋ = 8388608 := by rw [Int.floor_eq_iff]; norm_num
  have : nearest (8388608 + 1 / 2) = 8388608 := by
    unfold nearest
    simp only [hf]
    norm_num
  have e : ((2 : ℚ) ^ 24 + 1) / 2 ^ ((24 : ℤ) - 23) = 8388608 + 1 / 2 := by norm_num
  rw [e, this]
  norm_num

/-- The witness: three edges, of which the first has been seen 2^24 times. -/
def limE (i : Nat) : Edge := ⟨⟨i, 0, 1⟩, ⟨i + 1, 0, 1⟩⟩
def limW : Counts EdgeKey := fun k => if k.1.1 = 0 then some (2 ^ 24) else some 1
def limD : Counts NodeKey := fun _ => some 2

/-- C83 (what fails): beyond 2^24 the sum is wrong, and the same edges in another order have another score. -/
theorem C83_limit : ∃ (w : Counts EdgeKey) (d : Counts NodeKey) (a b : List Edge) (x y : ℚ), a.Perm b ∧ Scoring.Known w d a ∧
    total w.val d.val a = 2 ^ 24 + 2 ∧ score w d a = some (x, 3) ∧ score w d b = some (y, 3) ∧ x < y ∧ y = round (mean w.val d.val b) := by
  have hk : ∀ l : List Edge, Scoring.Known limW limD l := by
    intro l e _
    unfold limW limD Counts.val
    split <;> simp
  have h24 : round (2 ^ 24) = 2 ^ 24 := by
    have := round_nat (n := 2 ^ 24) le_rfl
    push_cast at this
    exact this
  have h1 : round 1 = 1 := round_one
  have h2 : round 2 = 2 := by
    have := round_nat (n := 2) (by norm_num)
    push_cast at this
    exact this
  have h26 : round (2 ^ 24 + 2) = 2 ^ 24 + 2 := round_digits (2 ^ 23 + 1) 24 (by norm_num) (by norm_num) (by norm_num)
  have ha : alpha 3 = 3 := by
    have := C83_alpha (n := 3) (by norm_num) (by norm_num)
    push_cast at this
    exact this
  have hx : round (2 ^ 24 / 3) = 5592405 + 1 / 2 := by
    rw [round_of (k := 22) (by norm_num [abs_of_pos]) (by norm_num [abs_of_pos])]
    have : ((2 : ℚ) ^ 24 / 3) / 2 ^ ((22 : ℤ) - 23) = ((11184811 : ℤ) : ℚ) - 1 / 3 := by norm_num
    have hf : ⌊((11184811 : ℤ) : ℚ) - 1 / 3⌋ = 11184810 := by rw [Int.floor_eq_iff]; norm_num
    have hn : nearest (((11184811 : ℤ) : ℚ) - 1 / 3) = 11184811 := by
      unfold nearest
      simp only [hf]
      norm_num
    rw [this, hn]
    norm_num
  have hy : round ((2 ^ 24 + 2) / 3) = 5592406 := by
    have := round_nat (n := 5592406) (by norm_num)
    push_cast at this
    rw [show ((2 : ℚ) ^ 24 + 2) / 3 = 5592406 by norm_num, this]
  have s1 : sum [2 ^ 24, 1, 1] = 2 ^ 24 := by
    simp only [sum, List.foldl_cons, List.foldl_nil, add, zero_add, h24, round_tie]
  have s2 : sum [1, 1, 2 ^ 24] = 2 ^ 24 + 2 := by
    simp only [sum, List.foldl_cons, List.foldl_nil, add, zero_add, h1]
    rw [show (1 + 1 : ℚ) = 2 by norm_num, h2, _root_.add_comm, h26]
  have t1 : [limE 0, limE 1, limE 2].mapM (term limW limD) = some [2 ^ 24, 1, 1] := by
    rw [terms_eq (hk _)]
    simp [limE, limW, limD, Counts.val, Edge.edgeKey, Node.nodeKey]
    exact ⟨h24, h1⟩
  have t2 : [limE 1, limE 2, limE 0].mapM (term limW limD) = some [1, 1, 2 ^ 24] := by
    rw [terms_eq (hk _)]
    simp [limE, limW, limD, Counts.val, Edge.edgeKey, Node.nodeKey]
    exact ⟨h1, h24⟩
  refine ⟨limW, limD, [limE 0, limE 1, limE 2], [limE 1, limE 2, limE 0], 5592405 + 1 / 2, 5592406, ?_, hk _, ?_, ?_, ?_, by norm_num, ?_⟩
  · decide
  · decide +kernel
  · unfold score
    rw [t1]
    simp only [Option.bind_eq_bind, Option.bind_some, List.length_cons, List.length_nil, s1, div]
    norm_num only [ha]
    rw [show (16777216 : ℚ) / 3 = 2 ^ 24 / 3 by norm_num, hx]
    norm_num
  · unfold score
    rw [t2]
    simp only [Option.bind_eq_bind, Option.bind_some, List.length_cons, List.length_nil, s2, div]
    norm_num only [ha]
    rw [show (5592406 : ℚ) = (2 ^ 24 + 2) / 3 by norm_num, hy]
    norm_num
  · have : total limW.val limD.val [limE 1, limE 2, limE 0] = 2 ^ 24 + 2 := by decide +kernel
    unfold mean
    rw [this]
    push_cast
    simp only [List.length_cons, List.length_nil]
    norm_num only
    rw [show (5592406 : ℚ) = (2 ^ 24 + 2) / 3 by norm_num, hy]
    norm_num

/-! ### Examples -/

/-- Edges in the range, with weights and degrees counted from them. -/
def exE : List Edge := [limE 0, limE 1, ⟨⟨2, 0, 3⟩, ⟨0, 0, 4⟩⟩, ⟨⟨0, 0, 4⟩, ⟨1, 0, 5⟩⟩]
example : Small (Counts.val (Weights.edgeWeight exE)) (Counts.val (Weights.nodeDegrees exE)) exE :=
  ⟨by decide +kernel, by decide +kernel⟩
example : score (Weights.edgeWeight exE) (Weights.nodeDegrees exE) exE =
    some (round (mean (Counts.val (Weights.edgeWeight exE)) (Counts.val (Weights.nodeDegrees exE)) exE), exE.length) :=
  C83_score (Scoring.C48_known_local _) ⟨by decide +kernel, by decide +kernel⟩ (by decide)

/-- Windows with the same mean and different numbers of edges have different scores over the rationals, and the same score in `f32`. -/
example : Scoring.score limW limD [limE 1] ≠ (Scoring.score limW limD [limE 1, limE 1]).map (fun r => (r.1, 1)) := by decide +kernel
example : raw limW.val limD.val [limE 1] = raw limW.val limD.val [limE 1, limE 1] := by
  have : mean limW.val limD.val [limE 1] = mean limW.val limD.val [limE 1, limE 1] := by decide +kernel
  simp [raw, this]

end Score
end FloatRun
end S2G
