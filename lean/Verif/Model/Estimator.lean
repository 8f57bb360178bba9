import Verif.Model.Whole
import Verif.Model.Preprocessor

/-!
# The Python estimator

`Series2GraphPP` (s2gpp/__init__.py lines 15-49) and `s2gpp_local_array` (src/python_binding.rs lines 10-39). Python integers are
`Int`; `None` is `none`. The division of floats in `int(self.pattern_length / 3)` is exact here, as it is below 2^51.
-/

namespace S2G

/-- `a or b`: `None` and `0` are false. -/
def pyOr (a : Option Int) (b : Int) : Option Int :=
  match a with
  | none => some b
  | some z => if z = 0 then some b else some z

/-- The enum `Clustering` of the package, s2gpp/__init__.py lines 10-12. -/
inductive Method where
  | kde
  | meanShift
  deriving DecidableEq

/-- Attributes of `Series2GraphPP`, s2gpp/__init__.py lines 27-34. `set_params` of scikit-learn writes them directly. -/
structure Estimator where
  patternLength : Option Int
  latent : Option Int
  rate : Option Int
  queryLength : Option Int
  nThreads : Option Int
  selfCorrection : Bool
  clustering : Method
  deriving DecidableEq

namespace Estimator

/-- `n_threads if n_threads > 0 else min(cpu_count() - 1, 1)`, line 31. -/
def threads (cpus : Nat) (nThreads : Int) : Int := if nThreads > 0 then nThreads else min ((cpus : Int) - 1) 1

/-- `Series2GraphPP.__init__`, lines 16-34, on a machine with `cpus` processors. -/
def new (cpus : Nat) (patternLength : Int) (latent : Option Int := none) (rate : Int := 100) (queryLength : Option Int := none)
    (nThreads : Int := -1) (selfCorrection : Bool := false) (clustering : Method := .kde) : Estimator where
  patternLength := some patternLength
  latent := pyOr latent (patternLength.tdiv 3)
  rate := some rate
  queryLength := pyOr queryLength patternLength
  nThreads := some (threads cpus nThreads)
  selfCorrection := selfCorrection
  clustering := clustering

/-- Conversion to `usize` by pyo3: `TypeError` for `None`, `OverflowError` for a negative number (`none`). -/
def toUsize : Option Int → Option Nat
  | none => none
  | some z => if z < 0 then none else some z.toNat

/-- `Clustering::from_str(...)`, src/training/node_estimation/mod.rs lines 315-328: it knows `kde` only, and the binding unwraps the error. -/
def fromStr : Method → Option Unit
  | .kde => some ()
  | .meanShift => none

/-- The parameters of the run, src/python_binding.rs lines 22-29, with `Parameters::default()` (src/parameters.rs lines 108-128). -/
def parameters (x : Estimator) : Option Parameters := do
  let patternLength ← toUsize x.patternLength
  let latent ← toUsize x.latent
  let queryLength ← toUsize x.queryLength
  let rate ← toUsize x.rate
  let nThreads ← toUsize x.nThreads
  fromStr x.clustering
  some ⟨patternLength, latent, queryLength, rate, nThreads, 1, x.selfCorrection⟩

variable {e w : Nat}

/-- `fit_predict` can return the vector: the preprocessing announces that it is done (`PreprocessingDoneMessage`, src/data_manager/mod.rs lines
262-272) and the run of `Model/Whole.lean` delivers it. -/
def FitPredict (lib : Whole.Lib w) (resolution order : Nat) (x : Estimator) (series : List (Fin (e + 1) → ℝ)) (v : Option (List (Option ℚ))) : Prop :=
  ∃ p, x.parameters = some p ∧
    (∃ s, Preproc.Reachable (K := ℝ) p.nThreads (e + 1) series s ∧ 0 < s.mgr.doneMsgs) ∧ Whole.Delivers lib resolution order p series v

end Estimator
end S2G
