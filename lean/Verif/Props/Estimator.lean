import Verif.Model.Estimator
import Verif.Props.Preprocessor
import Verif.Props.ClusterRunExample

/-!
# Defaults of the Python estimator (C79)
-/

namespace S2G

namespace Preproc
variable {D K : Type}

/-- With a thread and a column the preprocessing can always be finished. -/
theorem completes {t total : Nat} {data : D} (ht : 0 < t) (hn : 0 < total) [Inhabited K] :
    ∃ s : Sys D, Reachable (K := K) t total data s ∧ 0 < s.mgr.doneMsgs := by
  have key : ∀ k, ∀ s : Sys D, Reachable (K := K) t total data s → total - s.answered.length ≤ k →
      ∃ s : Sys D, Reachable (K := K) t total data s ∧ 0 < s.mgr.doneMsgs := by
    intro k
    induction k with
    | zero =>
      intro s h hk
      by_contra hc
      have h0 : s.mgr.doneMsgs = 0 := by
        by_contra h1
        exact hc ⟨s, h, by omega⟩
      obtain ⟨h1, h2⟩ := C11_progress ht hn h h0
      obtain ⟨c, hcc⟩ := List.exists_mem_of_ne_nil _ h1
      obtain ⟨s', hs', -⟩ := h2 c hcc []
      have := C11_terminates h hs'
      omega
    | succ k ih =>
      intro s h hk
      by_cases h0 : s.mgr.doneMsgs = 0
      · obtain ⟨h1, h2⟩ := C11_progress ht hn h h0
        obtain ⟨c, hcc⟩ := List.exists_mem_of_ne_nil _ h1
        obtain ⟨s', hs', -⟩ := h2 c hcc []
        have := C11_terminates h hs'
        exact ih s' (.step h hs') (by omega)
      · exact ⟨s, h, by omega⟩
  have h0 : ∃ m, start t total data = some m := by
    unfold start distributeWork checkedSub
    simp
  obtain ⟨m, hm⟩ := h0
  exact key _ _ (.init m hm) le_rfl

end Preproc

namespace Estimator
open Whole

variable {e w : Nat}

/-- The library has at most as many components as entries of a window (`slice(s![0..n_components, ..])` panics). -/
def Limited (lib : Lib w) : Prop := w + 1 < 3 → ∀ A, lib.svd A = none

theorem parameters_eq {x : Estimator} {p : Parameters} : x.parameters = some p ↔
    x = ⟨some p.patternLength, some p.latent, some p.rate, some p.queryLength, some p.nThreads, p.selfCorrection, .kde⟩ ∧ p.nClusterNodes = 1 := by
  have key : ∀ (a : Option Int) (n : Nat), toUsize a = some n ↔ a = some (n : Int) := by
    intro a n
    cases a with
    | none => simp [toUsize]
    | some z =>
      show (if z < 0 then none else some z.toNat) = some n ↔ some z = some (n : Int)
      rw [Option.some.injEq]
      split
      · exact ⟨fun h => by simp at h, fun h => by omega⟩
      · rw [Option.some.injEq]
        omega
  unfold parameters
  simp only [Option.bind_eq_bind, Option.bind_eq_some_iff, key]
  constructor
  · rintro ⟨a, ha, b, hb, c, hc, d, hd, f, hf, u, hu, h⟩
    obtain ⟨x1, x2, x3, x4, x5, x6, x7⟩ := x
    have hm : x7 = .kde := by
      cases x7
      · rfl
      · cases hu
    simp only [Option.some.injEq] at h
    subst h
    simp_all
  · rintro ⟨rfl, h⟩
    refine ⟨_, rfl, _, rfl, _, rfl, _, rfl, _, rfl, (), rfl, ?_⟩
    cases p
    simp_all

/-- **C79 (defaults).** What the constructor makes of a pattern length alone, on a machine with `cpus` processors. -/
theorem C79_defaults {cpus L : Nat} (hc : 1 ≤ cpus) :
    (new cpus L).parameters = some ⟨L, L / 3, L, 100, if cpus = 1 then 0 else 1, 1, false⟩ := by
  rw [parameters_eq]
  refine ⟨?_, rfl⟩
  unfold new pyOr threads
  simp only [Estimator.mk.injEq, true_and]
  refine ⟨?_, by rfl, ?_, trivial⟩
  · congr 1
  · split <;> simp <;> omega

/-- **C79 (threads).** Every `n_threads` which is not positive means the same: one thread, however many processors there are, and none on a
machine with one processor. -/
theorem C79_threads {cpus : Nat} (hc : 1 ≤ cpus) {z : Int} (hz : z ≤ 0) : threads cpus z = if cpus = 1 then 0 else 1 := by
  unfold threads
  rw [if_neg (by omega)]
  split <;> omega

/-- **C79 (zero).** `latent=0` and `query_length=0` are not what the user has asked for but the defaults. -/
theorem C79_zero {cpus : Nat} {L rate z : Int} {latent query : Option Int} {sc : Bool} :
    new cpus L (some 0) rate query z sc = new cpus L none rate query z sc ∧
      new cpus L latent rate (some 0) z sc = new cpus L latent rate none z sc := ⟨rfl, rfl⟩

/-- **C79 (returns).** With at least one thread the estimator returns exactly what the run with its parameters delivers. -/
theorem C79_returns {lib : Lib w} {resolution order : Nat} {x : Estimator} {series : List (Fin (e + 1) → ℝ)} {v : Option (List (Option ℚ))} :
    FitPredict lib resolution order x series v ↔
      ∃ p, x.parameters = some p ∧ 1 ≤ p.nThreads ∧ Delivers lib resolution order p series v := by
  constructor
  · rintro ⟨p, h1, ⟨s, h2, h3⟩, h4⟩
    refine ⟨p, h1, ?_, h4⟩
    by_contra h
    have := (Preproc.C11_hang (.inl (by omega)) h2).1
    omega
  · rintro ⟨p, h1, h2, h3⟩
    exact ⟨p, h1, Preproc.completes h2 (by omega), h3⟩

/-- **C79 (one processor).** FALSE: `Series2GraphPP(pattern_length=...)` works on every machine. With the default `n_threads` (or any which is not
positive) on a machine with one processor `fit_predict` never returns. -/
theorem C79_one_cpu {lib : Lib w} {resolution order : Nat} {L rate z : Int} (hz : z ≤ 0) {latent query : Option Int} {sc : Bool}
    {series : List (Fin (e + 1) → ℝ)} {v : Option (List (Option ℚ))} :
    ¬ FitPredict lib resolution order (new 1 L latent rate query z sc) series v := by
  rw [C79_returns]
  rintro ⟨p, h1, h2, -⟩
  have h3 := congrArg Estimator.nThreads (parameters_eq.1 h1).1
  have h4 : threads 1 z = (p.nThreads : Int) := Option.some.inj h3
  rw [C79_threads le_rfl hz, if_pos rfl] at h4
  omega

/-- **C79 (window).** An estimator which returns has windows of at least three entries after the smoothing. -/
theorem C79_window {lib : Lib w} (hlib : Limited lib) {resolution order : Nat} {x : Estimator} {p : Parameters} (hx : x.parameters = some p)
    {series : List (Fin (e + 1) → ℝ)} {v : Option (List (Option ℚ))} (h : FitPredict lib resolution order x series v) :
    p.latent + 3 ≤ p.patternLength := by
  obtain ⟨p', h1, -, h2⟩ := C79_returns.1 h
  rw [hx] at h1
  cases h1
  obtain ⟨pts, s0, s, ⟨lo, hi, ps, ref, comps, means, first, R, -, h3, -, -, h4, -⟩, -⟩ := h2
  obtain ⟨-, y, vs, -, h5, -⟩ := h4 0
  unfold checkedSub at h3
  by_contra hc
  split at h3
  · rw [hlib (by have := Option.some.inj h3; omega)] at h5
    cases h5
  · cases h3

/-- **C79 (short patterns).** FALSE: every pattern length works with the defaults. With the default `latent` an estimator with a pattern of at most three
entries never returns; from four on the window is long enough. -/
theorem C79_short {L : Nat} (hL : L ≤ 3) {lib : Lib w} (hlib : Limited lib) {resolution order : Nat} {cpus : Nat} {rate z : Int}
    {query : Option Int} {sc : Bool} {series : List (Fin (e + 1) → ℝ)} {v : Option (List (Option ℚ))} :
    ¬ FitPredict lib resolution order (new cpus L none rate query z sc) series v := by
  intro h
  obtain ⟨p, h1, -⟩ := C79_returns.1 h
  have h2 := C79_window hlib h1 h
  have h3 := (parameters_eq.1 h1).1
  have h4 : (L : Int) = (p.patternLength : Int) := Option.some.inj (congrArg Estimator.patternLength h3)
  have h5 : Int.tdiv L 3 = (p.latent : Int) := Option.some.inj (congrArg Estimator.latent h3)
  have h6 : Int.tdiv (L : Int) 3 = ((L / 3 : Nat) : Int) := rfl
  omega

theorem C79_long {cpus L : Nat} (hc : 1 ≤ cpus) (hL : 4 ≤ L) :
    ∃ p, (new cpus L).parameters = some p ∧ p.patternLength = L ∧ p.latent + 3 ≤ L :=
  ⟨_, C79_defaults hc, rfl, by dsimp only; omega⟩

/-- **C79 (stale attributes).** FALSE: `set_params(pattern_length=L')` makes an estimator for `L'`. It keeps `latent` and `query_length` of the old
length, so that the parameters are those of a new estimator exactly if nothing changes. -/
theorem C79_stale_iff {cpus L L' : Nat} (hc : 1 ≤ cpus) :
    ({ new cpus L with patternLength := some (L' : Int) } : Estimator).parameters = (new cpus L').parameters ↔ L' = L := by
  constructor
  · intro h
    rw [C79_defaults hc, parameters_eq] at h
    have h1 : (L : Int) = (L' : Int) := by
      have := congrArg Estimator.queryLength h.1
      have h2 : (new cpus L).queryLength = some (L : Int) := rfl
      rw [h2] at this
      exact Option.some.inj this
    omega
  · rintro rfl
    rfl

/-- **C79 (stale attributes).** If the new length is shorter than the old `latent` plus three, the estimator does not return any more. -/
theorem C79_stale {cpus L L' : Nat} (h : L' < L / 3 + 3) {lib : Lib w} (hlib : Limited lib) {resolution order : Nat}
    {series : List (Fin (e + 1) → ℝ)} {v : Option (List (Option ℚ))} :
    ¬ FitPredict lib resolution order { new cpus L with patternLength := some (L' : Int) } series v := by
  intro hf
  obtain ⟨p, h1, -⟩ := C79_returns.1 hf
  have h2 := C79_window hlib h1 hf
  have h3 := (parameters_eq.1 h1).1
  have h4 : (L' : Int) = (p.patternLength : Int) := Option.some.inj (congrArg Estimator.patternLength h3)
  have h5 : Int.tdiv L 3 = (p.latent : Int) := Option.some.inj (congrArg Estimator.latent h3)
  have h6 : Int.tdiv (L : Int) 3 = ((L / 3 : Nat) : Int) := rfl
  omega

/-- **C79 (values of the constructor).** FALSE: what the constructor accepts can be set later: `None` and numbers which are not positive are
replaced in the constructor only. -/
theorem C79_set {x : Estimator} {z : Int} (hz : z < 0) {lib : Lib w} {resolution order : Nat} {series : List (Fin (e + 1) → ℝ)}
    {v : Option (List (Option ℚ))} : ¬ FitPredict lib resolution order { x with nThreads := some z } series v ∧
      ¬ FitPredict lib resolution order { x with latent := none } series v ∧
      ¬ FitPredict lib resolution order { x with queryLength := none } series v := by
  refine ⟨?_, ?_, ?_⟩ <;> rw [C79_returns] <;> rintro ⟨p, h1, -⟩ <;> have h2 := (parameters_eq.1 h1).1
  · have h3 : z = (p.nThreads : Int) := Option.some.inj (congrArg Estimator.nThreads h2)
    omega
  · exact absurd (congrArg Estimator.latent h2) (by simp)
  · exact absurd (congrArg Estimator.queryLength h2) (by simp)

/-- **C79 (clustering).** FALSE: the clusterings which the package offers can be used. With `Clustering.MeanShift` no estimator returns, although the
error message names it as allowed. -/
theorem C79_mean_shift {x : Estimator} (hx : x.clustering = .meanShift) {lib : Lib w} {resolution order : Nat} {series : List (Fin (e + 1) → ℝ)}
    {v : Option (List (Option ℚ))} : ¬ FitPredict lib resolution order x series v := by
  rw [C79_returns]
  rintro ⟨p, h1, -⟩
  have h2 := congrArg Estimator.clustering (parameters_eq.1 h1).1
  rw [hx] at h2
  cases h2

/-! ### Instance: the wave of `ClusterRunExample.lean` -/

theorem hLib_limited : Limited Cluster.hLib := fun h => by omega

/-- `Series2GraphPP(4, rate=4, query_length=1)` on a machine with eight processors returns a vector for the wave, but not on a machine with one
processor, and not after `Series2GraphPP(12, ...)` and `set_params(pattern_length=4)`. -/
example : (∃ v, FitPredict Cluster.hLib 10 2 (new 8 4 none 4 (some 1)) Cluster.hSeries v) ∧
    (∀ v, ¬ FitPredict Cluster.hLib 10 2 (new 1 4 none 4 (some 1)) Cluster.hSeries v) ∧
    ∀ v, ¬ FitPredict Cluster.hLib 10 2 { new 8 12 with patternLength := some (4 : Nat) } Cluster.hSeries v := by
  refine ⟨?_, fun v => C79_one_cpu (by decide), fun v => C79_stale (by decide) hLib_limited⟩
  obtain ⟨v, hv⟩ := Cluster.hDelivers 10 2
  exact ⟨v, C79_returns.2 ⟨_, rfl, le_rfl, hv⟩⟩

end Estimator
end S2G
