import Mathlib.Order.BoundedOrder.Basic
import Mathlib.Order.Lattice
import Mathlib.Algebra.Field.Basic
import Mathlib.Algebra.BigOperators.Group.List.Basic

/-!
# Model of the data set statistics
(`src/data_manager/stats_collector/{minmax,std,mod}.rs`, `src/utils/ndarray_extensions/mod.rs` lines 83-132,
`src/data_manager/mod.rs` lines 89-125 and 235-253)

A row of `d` columns is a function `Fin d → α`, a data set a list of rows. `α` is a linear order with least and
greatest element (`f32::MIN`, `f32::MAX`) for the minimum and maximum, and a field for the standard deviation.
`S` is the type of node addresses.
-/

namespace S2G
namespace Stats
variable {d : Nat} {S : Type}

section MinMax
variable {α : Type} [LinearOrder α] [BoundedOrder α]

/-- `min_axis(Axis(0))`, src/utils/ndarray_extensions/mod.rs lines 92-110: per column, start with the greatest
number and keep the smaller one. -/
def minAxis (rows : List (Fin d → α)) : Fin d → α := fun j =>
  rows.foldl (fun smallest r => if smallest > r j then r j else smallest) ⊤

/-- `max_axis(Axis(0))`, src/utils/ndarray_extensions/mod.rs lines 112-131. -/
def maxAxis (rows : List (Fin d → α)) : Fin d → α := fun j =>
  rows.foldl (fun largest r => if largest < r j then r j else largest) ⊥

/-- `MinMaxNodeMessage`, sent by `calculate_minmax`, minmax.rs lines 28-45. -/
structure MinMaxMsg (d : Nat) (α S : Type) where
  min : Fin d → α
  max : Fin d → α
  source : S

/-- `calculate_minmax`, minmax.rs lines 28-45. -/
def calculateMinmax (rows : List (Fin d → α)) (source : S) : MinMaxMsg d α S :=
  ⟨minAxis rows, maxAxis rows, source⟩

/-- `MinMaxCalculation`, minmax.rs lines 9-13; `out` collects the `MinMaxDoneMessage`s sent: (receiver, min, max). -/
structure MinMaxState (d : Nat) (α S : Type) where
  nodes : List S := []
  min : Option (Fin d → α) := none
  max : Option (Fin d → α) := none
  out : List (S × (Fin d → α) × (Fin d → α)) := []

omit [BoundedOrder α] in
/-- Handler of `MinMaxNodeMessage`, minmax.rs lines 48-104. -/
def handleMinMax (nClusterNodes : Nat) (s : MinMaxState d α S) (m : MinMaxMsg d α S) :
    MinMaxState d α S :=
  let nodes := s.nodes ++ [m.source]
  let (mn, mx) := match s.min, s.max with
    | some mn, some mx => ((fun j => Min.min (m.min j) (mn j)), (fun j => Max.max (m.max j) (mx j)))
    | _, _ => (m.min, m.max)
  let out := if nodes.length = nClusterNodes then nodes.map (fun a => (a, mn, mx)) else []
  { nodes := nodes, min := some mn, max := some mx, out := s.out ++ out }

end MinMax

section Std
variable {K : Type} [Field K]

/-- mean over rows (`mean_axis(Axis(0))`). -/
def mean (rows : List (Fin d → K)) : Fin d → K := fun j => (rows.map (· j)).sum / (rows.length : K)

/-- `StdNodeMessage`. -/
structure StdMsg (d : Nat) (K S : Type) where
  n : Nat
  mean : Fin d → K
  m2 : Fin d → K
  source : S

/-- `calculate_std`, std.rs lines 29-63; `cutoff` is `pattern_length - 1` except for the last node, where it is 0.
(`nrows - cutoff` underflows for too short partitions: `none`.) -/
def calculateStd (cutoff : Nat) (rows : List (Fin d → K)) (source : S) : Option (StdMsg d K S) :=
  if cutoff ≤ rows.length then
    let data := rows.take (rows.length - cutoff)
    let n := data.length
    let mu := mean data
    some { n := n, mean := mu,
           m2 := fun j => (data.map (fun r => (r j - mu j) * ((r j - mu j) / (n : K)) * (n : K))).sum,
           source := source }
  else none

/-- `StdCalculation`, std.rs lines 8-13; `out` collects the `StdDoneMessage`s: (receiver, variance, n). The code
sends the square root of the variance component. -/
structure StdState (d : Nat) (K S : Type) where
  nodes : List S := []
  acc : Option (Nat × (Fin d → K) × (Fin d → K)) := none
  out : List (S × (Fin d → K) × Nat) := []

/-- Merge of the accumulated (n, mean, m2) with a message, std.rs lines 75-88: note the factor
`(n + msg.n) / global_n`. -/
def mergeStd (acc : Nat × (Fin d → K) × (Fin d → K)) (m : StdMsg d K S) :
    Nat × (Fin d → K) × (Fin d → K) :=
  let (n, mu, m2) := acc
  let globalN := n + m.n
  let delta := fun j => m.mean j - mu j
  (globalN,
   fun j => (mu j * (n : K) + m.mean j * (m.n : K)) / (globalN : K),
   fun j => m.m2 j + m2 j + delta j * delta j * (((n + m.n : Nat) : K) / (globalN : K)))

/-- Handler of `StdNodeMessage`, std.rs lines 66-128. (In the last step the code does not store the mean and m2.) -/
def handleStd (nClusterNodes : Nat) (s : StdState d K S) (m : StdMsg d K S) : StdState d K S :=
  let nodes := s.nodes ++ [m.source]
  if nodes.length < nClusterNodes then
    { s with
      nodes := nodes
      acc := some (match s.acc with
        | some a => mergeStd a m
        | none => (m.n, m.mean, m.m2)) }
  else
    let r := match s.acc with
      | some a => mergeStd a m
      | none => (m.n, m.mean, m.m2)
    let acc := match s.acc with
      | some (_, mu, m2) => (r.1, mu, m2)
      | none => r
    let var : Fin d → K := fun j => r.2.2 j / ((r.1 - 1 : Nat) : K)
    { nodes := nodes, acc := some acc, out := s.out ++ nodes.map (fun a => (a, var, r.1)) }

end Std

/-! ### Completion of both statistics, src/data_manager/mod.rs -/

/-- `DatasetStats` (stats_collector/mod.rs lines 12-18): which fields are set; `preprocessStarted` counts the calls of
`preprocess`. `V` is the type of a column vector. -/
structure DoneState (V : Type) where
  min : Option V := none
  max : Option V := none
  std : Option V := none
  n : Option Nat := none
  preprocessStarted : Nat := 0

inductive DoneMsg (V : Type)
  | minMax (min max : V)
  | std (std : V) (n : Nat)

variable {V : Type}

/-- `is_done`, stats_collector/mod.rs lines 31-36. -/
def isDone (s : DoneState V) : Bool := s.std.isSome && s.min.isSome && s.max.isSome

/-- Handlers of `MinMaxDoneMessage` and `StdDoneMessage`, src/data_manager/mod.rs lines 235-253, with
`datastats_finished`, lines 106-110. -/
def handleDone (s : DoneState V) (m : DoneMsg V) : DoneState V :=
  let s := match m with
    | .minMax mn mx => { s with min := some mn, max := some mx }
    | .std sd n => { s with std := some sd, n := some n }
  if isDone s then { s with preprocessStarted := s.preprocessStarted + 1 } else s

end Stats
end S2G
