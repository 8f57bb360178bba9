import Verif.Model.SegmentId
import Mathlib.Tactic.FieldSimp
import Mathlib.Tactic.Ring
import Mathlib.Tactic.Linarith
import Mathlib.Tactic.Positivity

/-!
# C25 (segments) and the geometric part of C29 (mirroring)
-/

namespace S2G
namespace SegmentId

/-- the floor of the scaled angle -/
theorem scaled_eq (angle : ℝ) {n : Nat} (hn : 0 < n) :
    (2 * Real.pi + angle) / (2 * Real.pi / (n : ℝ)) = n + angle * n / (2 * Real.pi) := by
  have hpi := Real.pi_pos
  have hn' : (0 : ℝ) < n := by exact_mod_cast hn
  field_simp

/-- Specification: the angle lies in the `s`-th of `n` equal sectors, up to full turns. -/
def InSector (angle : ℝ) (n s : Nat) : Prop :=
  ∃ m : ℤ, 2 * Real.pi * s / n ≤ angle + 2 * Real.pi * m ∧
    angle + 2 * Real.pi * m < 2 * Real.pi * (s + 1) / n

theorem inSector_iff (angle : ℝ) {n s : Nat} (hn : 0 < n) :
    InSector angle n s ↔ ∃ m : ℤ, ⌊angle * n / (2 * Real.pi)⌋ = (s : ℤ) + n * m := by
  have hpi := Real.pi_pos
  have hn' : (0 : ℝ) < n := by exact_mod_cast hn
  have h2 : (0 : ℝ) < 2 * Real.pi := by positivity
  have key : ∀ m : ℤ, (2 * Real.pi * s / n ≤ angle + 2 * Real.pi * m ∧
    angle + 2 * Real.pi * m < 2 * Real.pi * (s + 1) / n) ↔
      ⌊angle * n / (2 * Real.pi)⌋ = (s : ℤ) + n * (-m) := by
    intro m
    rw [Int.floor_eq_iff, div_le_iff₀ hn', lt_div_iff₀ hn', le_div_iff₀ h2, div_lt_iff₀ h2]
    push_cast
    constructor
    · rintro ⟨a, b⟩
      constructor <;> nlinarith
    · rintro ⟨a, b⟩
      constructor <;> nlinarith
  constructor
  · rintro ⟨m, hm⟩
    exact ⟨-m, (key m).1 hm⟩
  · rintro ⟨m, hm⟩
    exact ⟨-m, (key (-m)).2 (by rw [neg_neg]; exact hm)⟩

/-- The segment id as a remainder of the floor of the scaled angle. -/
theorem getSegmentId_eq {angle : ℝ} {n : Nat} (hn : 0 < n) (ha : -(2 * Real.pi) ≤ angle) :
    getSegmentId angle n = some (⌊angle * n / (2 * Real.pi)⌋ % (n : ℤ)).toNat := by
  have hpi := Real.pi_pos
  have hn' : (0 : ℝ) < n := by exact_mod_cast hn
  simp only [getSegmentId, checkedMod, if_neg (Nat.pos_iff_ne_zero.1 hn), scaled_eq angle hn]
  congr 1
  have h0 : (0 : ℝ) ≤ n + angle * n / (2 * Real.pi) := by
    rw [← scaled_eq angle hn]
    apply div_nonneg
    · linarith
    · positivity
  have hfl : ((⌊(n : ℝ) + angle * n / (2 * Real.pi)⌋₊ : ℕ) : ℤ) = n + ⌊angle * n / (2 * Real.pi)⌋ := by
    rw [Int.natCast_floor_eq_floor h0]
    exact Int.floor_natCast_add _ _
  apply Int.natCast_inj.1
  rw [Int.natCast_mod, hfl, Int.add_emod_left, Int.toNat_of_nonneg]
  exact Int.emod_nonneg _ (by exact_mod_cast Nat.pos_iff_ne_zero.1 hn)

/-- C25a: for every angle in `(-π, π]` (indeed, every angle not below `-2π`) the segment id is defined and it is `s`
iff `s < rate` and the angle lies in sector `s`. -/
theorem C25_segment_iff_sector {angle : ℝ} {n : Nat} (hn : 0 < n) (ha : -(2 * Real.pi) ≤ angle) (s : Nat) :
    getSegmentId angle n = some s ↔ s < n ∧ InSector angle n s := by
  have hnz : (0 : ℤ) < n := by exact_mod_cast hn
  rw [getSegmentId_eq hn ha, inSector_iff angle hn, Option.some.injEq]
  have h0 := Int.emod_nonneg ⌊angle * n / (2 * Real.pi)⌋ hnz.ne'
  have h1 := Int.emod_lt_of_pos ⌊angle * n / (2 * Real.pi)⌋ hnz
  constructor
  · intro h
    refine ⟨by omega, ⌊angle * n / (2 * Real.pi)⌋ / n, ?_⟩
    have := Int.emod_add_mul_ediv ⌊angle * n / (2 * Real.pi)⌋ n
    have hs : (s : ℤ) = ⌊angle * n / (2 * Real.pi)⌋ % n := by omega
    rw [hs]; omega
  · rintro ⟨hs, m, hm⟩
    rw [hm, Int.add_mul_emod_self_left, Int.emod_eq_of_lt (by omega) (by omega)]
    simp

/-- C25b: every point falls in exactly one segment below `rate`. -/
theorem C25_exists_unique (x y : ℝ) {n : Nat} (hn : 0 < n) :
    ∃ s, pointSegment x y n = some s ∧ s < n ∧ InSector (theta x y) n s ∧
      ∀ s', s' < n → InSector (theta x y) n s' → s' = s := by
  have ha : -(2 * Real.pi) ≤ theta x y := by
    have := Complex.neg_pi_lt_arg ⟨x, y⟩
    have := Real.pi_pos
    unfold theta; linarith
  have hex : ∃ s, pointSegment x y n = some s := ⟨_, getSegmentId_eq hn ha⟩
  obtain ⟨s, hs⟩ := hex
  have h1 := (C25_segment_iff_sector hn ha s).1 hs
  refine ⟨s, hs, h1.1, h1.2, ?_⟩
  intro s' h2 h3
  have h4 := (C25_segment_iff_sector hn ha s').2 ⟨h2, h3⟩
  have h5 : pointSegment x y n = some s' := h4
  rw [hs] at h5
  exact (Option.some.inj h5).symm

/-- C25c: in terms of the coordinates: a point other than the origin is in segment `s` iff it has polar coordinates
`(r, φ)` with `r > 0` and `φ` in `[2πs/rate, 2π(s+1)/rate)`. -/
theorem C25_polar {x y : ℝ} (hxy : ¬(x = 0 ∧ y = 0)) {n : Nat} (hn : 0 < n) (s : Nat) :
    pointSegment x y n = some s ↔ s < n ∧ ∃ r φ : ℝ, 0 < r ∧ x = r * Real.cos φ ∧ y = r * Real.sin φ ∧
      2 * Real.pi * s / n ≤ φ ∧ φ < 2 * Real.pi * (s + 1) / n := by
  have ha : -(2 * Real.pi) ≤ theta x y := by
    have := Complex.neg_pi_lt_arg ⟨x, y⟩
    have := Real.pi_pos
    unfold theta; linarith
  have hz : (⟨x, y⟩ : ℂ) ≠ 0 := by
    intro h
    have h1 := congrArg Complex.re h
    have h2 := congrArg Complex.im h
    exact hxy ⟨h1, h2⟩
  rw [show pointSegment x y n = getSegmentId (theta x y) n from rfl, C25_segment_iff_sector hn ha s]
  refine and_congr_right (fun _ => ?_)
  constructor
  · rintro ⟨m, h1, h2⟩
    refine ⟨‖(⟨x, y⟩ : ℂ)‖, theta x y + 2 * Real.pi * m, norm_pos_iff.2 hz, ?_, ?_, h1, h2⟩
    · have e : theta x y + 2 * Real.pi * m = theta x y + m * (2 * Real.pi) := by ring
      rw [e, Real.cos_add_int_mul_two_pi]
      exact (Complex.norm_mul_cos_arg ⟨x, y⟩).symm
    · have e : theta x y + 2 * Real.pi * m = theta x y + m * (2 * Real.pi) := by ring
      rw [e, Real.sin_add_int_mul_two_pi]
      exact (Complex.norm_mul_sin_arg ⟨x, y⟩).symm
  · rintro ⟨r, φ, hr, hx, hy, h1, h2⟩
    have hzz : (⟨x, y⟩ : ℂ) = r * (Complex.cos φ + Complex.sin φ * Complex.I) := by
      apply Complex.ext
      · simp [hx, ← Complex.ofReal_cos, ← Complex.ofReal_sin]
      · simp [hy, ← Complex.ofReal_cos, ← Complex.ofReal_sin]
    have harg := Complex.arg_mul_cos_add_sin_mul_I_eq_toIocMod hr φ
    rw [← hzz] at harg
    obtain ⟨m, hm⟩ : ∃ m : ℤ, theta x y + 2 * Real.pi * m = φ := by
      refine ⟨toIocDiv Real.two_pi_pos (-Real.pi) φ, ?_⟩
      have h3 := toIocMod_add_toIocDiv_zsmul Real.two_pi_pos (-Real.pi) φ
      rw [← harg, zsmul_eq_mul] at h3
      unfold theta
      linarith
    exact ⟨m, by rw [hm]; exact h1, by rw [hm]; exact h2⟩

/-- C25d: without segments (`rate = 0`) the computation crashes. -/
theorem C25_rate_zero (angle : ℝ) : getSegmentId angle 0 = none := by simp [getSegmentId, checkedMod]

/-- C29 (geometry): for an even number of segments and a point strictly inside its sector `s`, the mirrored point is
in segment `n/2 - 1 - s` modulo `n`, so that forward steps become backward steps. -/
theorem C29_mirror_segment {x y : ℝ} {r φ : ℝ} {h s : Nat} (hh : 0 < h) (hs : s < 2 * h) (hr : 0 < r)
    (hx : x = r * Real.cos φ) (hy : y = r * Real.sin φ)
    (h1 : 2 * Real.pi * s / (2 * h : Nat) < φ) (h2 : φ < 2 * Real.pi * (s + 1) / (2 * h : Nat)) :
    mirrorSegment x y (2 * h) = some ((3 * h - 1 - s) % (2 * h)) := by
  have hpi := Real.pi_pos
  have hh' : (0 : ℝ) < h := by exact_mod_cast hh
  have hn' : (0 : ℝ) < ((2 * h : Nat) : ℝ) := by push_cast; positivity
  have hxy : ¬(-x = 0 ∧ y = 0) := by
    rintro ⟨a, b⟩
    rw [hx] at a
    rw [hy] at b
    have hc : Real.cos φ = 0 := by
      have : r * Real.cos φ = 0 := by linarith
      rcases mul_eq_zero.1 this with h | h
      · exact absurd h hr.ne'
      · exact h
    have hsn : Real.sin φ = 0 := by
      rcases mul_eq_zero.1 b with h | h
      · exact absurd h hr.ne'
      · exact h
    have := Real.sin_sq_add_cos_sq φ
    rw [hc, hsn] at this
    norm_num at this
  have hmod : (3 * h - 1 - s) % (2 * h) < 2 * h := Nat.mod_lt _ (by omega)
  refine (C25_polar hxy (by omega) _).2 ⟨hmod, ?_⟩
  rw [div_lt_iff₀ hn'] at h1
  rw [lt_div_iff₀ hn'] at h2
  push_cast at h1 h2
  -- the new angle is π - φ, plus a full turn if needed
  rcases Nat.lt_or_ge s h with hlt | hge
  · have hval : (3 * h - 1 - s) % (2 * h) = h - 1 - s := by
      rw [show 3 * h - 1 - s = (h - 1 - s) + 2 * h by omega, Nat.add_mod_right, Nat.mod_eq_of_lt (by omega)]
    rw [hval]
    have hc : ((h - 1 - s : Nat) : ℝ) = h - 1 - s := by
      rw [Nat.cast_sub (by omega), Nat.cast_sub (by omega)]; simp
    refine ⟨r, Real.pi - φ, hr, ?_, ?_, ?_, ?_⟩
    · rw [hx, Real.cos_pi_sub]; ring
    · rw [hy, Real.sin_pi_sub]
    · rw [div_le_iff₀ hn', hc]; push_cast; nlinarith
    · rw [lt_div_iff₀ hn', hc]; push_cast; nlinarith
  · have hval : (3 * h - 1 - s) % (2 * h) = 3 * h - 1 - s := Nat.mod_eq_of_lt (by omega)
    rw [hval]
    have hc : ((3 * h - 1 - s : Nat) : ℝ) = 3 * h - 1 - s := by
      rw [Nat.cast_sub (by omega), Nat.cast_sub (by omega)]; push_cast; ring
    refine ⟨r, Real.pi - φ + 2 * Real.pi, hr, ?_, ?_, ?_, ?_⟩
    · rw [hx, Real.cos_add_two_pi, Real.cos_pi_sub]; ring
    · rw [hy, Real.sin_add_two_pi, Real.sin_pi_sub]
    · rw [div_le_iff₀ hn', hc]; push_cast; nlinarith
    · rw [lt_div_iff₀ hn', hc]; push_cast; nlinarith

/-- Segments of points on the axes. -/
theorem axis_segments (n : Nat) (hn : 2 ≤ n) : pointSegment 1 0 n = some 0 ∧ pointSegment (-1) 0 n = some (n / 2) := by
  have hpi := Real.pi_pos
  have hn' : (0 : ℝ) < n := by exact_mod_cast (by omega : 0 < n)
  refine ⟨(C25_polar (by norm_num) (by omega) 0).2 ⟨by omega, 1, 0, by norm_num, by simp, by simp, ?_, ?_⟩,
    (C25_polar (by norm_num) (by omega) _).2 ⟨by omega, 1, Real.pi, by norm_num, by simp, by simp, ?_, ?_⟩⟩
  · simp
  · simp only [Nat.cast_zero, zero_add, mul_one]; positivity
  · rw [div_le_iff₀ hn']
    have : 2 * ((n / 2 : Nat) : ℝ) ≤ n := by exact_mod_cast Nat.mul_div_le n 2
    nlinarith
  · rw [lt_div_iff₀ hn']
    have : (n : ℝ) < 2 * (((n / 2 : Nat) : ℝ) + 1) := by exact_mod_cast (by omega : n < 2 * (n / 2 + 1))
    nlinarith

/-- C29 (odd number of segments): mirroring can remove a crossing instead of reversing it. With three segments the step from (0, 1) to
(-1, 0) goes from segment 0 to segment 1; after mirroring both points are in segment 0. -/
theorem C29_odd_rate_counterexample : pointSegment 0 1 3 = some 0 ∧ pointSegment (-1) 0 3 = some 1 ∧
    mirrorSegment 0 1 3 = some 0 ∧ mirrorSegment (-1) 0 3 = some 0 := by
  have hpi := Real.pi_pos
  have h0 : pointSegment 0 1 3 = some 0 := by
    refine (C25_polar (by norm_num) (by omega) 0).2 ⟨by omega, 1, Real.pi / 2, by norm_num, by simp, by simp, ?_, ?_⟩
    · simp; positivity
    · norm_num; linarith
  refine ⟨h0, (axis_segments 3 (by omega)).2, ?_, ?_⟩
  · rw [mirrorSegment, neg_zero]; exact h0
  · rw [mirrorSegment, neg_neg]; exact (axis_segments 3 (by omega)).1

/-- C29 (points on a border): for every even number of segments greater than two, a point on the border of segment 0 is mirrored to the
border of segment `rate / 2`, not to the mirrored segment `rate / 2 - 1`: the step from segment `rate - 1` (mirrored: `rate / 2`)
to it is not reversed but lost. -/
theorem C29_border_counterexample (h : Nat) (hh : 1 < h) :
    pointSegment 1 0 (2 * h) = some 0 ∧ mirrorSegment 1 0 (2 * h) = some h ∧ (3 * h - 1 - 0) % (2 * h) = h - 1 ∧
    (3 * h - 1 - (2 * h - 1)) % (2 * h) = h := by
  have e : 2 * h / 2 = h := by omega
  refine ⟨(axis_segments (2 * h) (by omega)).1, ?_, ?_, ?_⟩
  · have := (axis_segments (2 * h) (by omega)).2
    rwa [e] at this
  · rw [show 3 * h - 1 - 0 = (h - 1) + 2 * h by omega, Nat.add_mod_right, Nat.mod_eq_of_lt (by omega)]
  · rw [show 3 * h - 1 - (2 * h - 1) = h by omega, Nat.mod_eq_of_lt (by omega)]

/-! Concrete instances: four segments, the point (-1, 1) is in segment 1; mirrored it is in segment 0. -/
example : InSector (3 * Real.pi / 4) 4 1 := by
  have := Real.pi_pos
  refine ⟨0, ?_, ?_⟩ <;> norm_num <;> linarith
example : (2 * Real.pi * (1 : Nat) / (2 * 2 : Nat) < 3 * Real.pi / 4 ∧
    3 * Real.pi / 4 < 2 * Real.pi * ((1 : Nat) + 1) / (2 * 2 : Nat)) := by
  have := Real.pi_pos
  constructor <;> norm_num <;> linarith

end SegmentId
end S2G
