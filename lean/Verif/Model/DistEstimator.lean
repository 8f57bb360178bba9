import Verif.Model.Estimator
import Verif.Model.DataReader

/-!
# The distributed Python estimator

`DistributedSeries2GraphPP` (s2gpp/__init__.py lines 51-114), the constructor of its base class (lines 15-34), and `s2gpp_distributed_main` and
`s2gpp_distributed_sub` (src/python_binding.rs lines 83-159). A Python error and a panic are both `none`. Integers are not bounded (pyo3 refuses those which do
not fit 64 bits); floats as arguments are not modelled. Addresses are an arbitrary type with a parser.
-/

namespace S2G

/-- `DistributedRole`, s2gpp/__init__.py lines 51-53. -/
inductive DistRole where
  | main
  | sub
  deriving DecidableEq

/-- Values which can be given to the constructors. -/
inductive PyVal where
  | none
  | int (z : Int)
  | bool (b : Bool)
  | str (s : String)
  | path (s : String)
  | method (m : Method)
  | role (r : DistRole)
  | self
  deriving DecidableEq

namespace PyVal

/-- `bool(v)`. -/
def truthy : PyVal → Bool
  | none => false
  | int z => z ≠ 0
  | bool b => b
  | str s => s ≠ ""
  | _ => true

/-- `str(v)`. -/
def toStr : PyVal → String
  | none => "None"
  | int z => toString z
  | bool b => if b then "True" else "False"
  | str s => s
  | path s => s
  | method .kde => "Clustering.KDE"
  | method .meanShift => "Clustering.MeanShift"
  | role .main => "DistributedRole.Main"
  | role .sub => "DistributedRole.Sub"
  | self => "self"

/-- `v` as a number; a truth value is one. -/
def number : PyVal → Option Int
  | int z => some z
  | bool b => some (if b then 1 else 0)
  | _ => Option.none

/-- `v.value`, the text of an enum; `none`: `AttributeError`. -/
def value : PyVal → Option String
  | method .kde => some "kde"
  | method .meanShift => some "meanshift"
  | role .main => some "main"
  | role .sub => some "sub"
  | _ => Option.none

/-- Conversions of pyo3 to `usize`, `isize`, `bool` and `String`. -/
def usize (v : PyVal) : Option Nat := v.number.bind fun z => if z < 0 then Option.none else some z.toNat

def isize (v : PyVal) : Option Int := v.number

def asBool : PyVal → Option Bool
  | bool b => some b
  | _ => Option.none

def string : PyVal → Option String
  | str s => some s
  | _ => Option.none

end PyVal

namespace DistEstimator

/-- Keyword arguments. -/
abbrev Kwargs := List (String × PyVal)

/-- How Python binds the parameters of a function with their defaults to positional and keyword arguments. `none`: a parameter without a value, or with
two (`TypeError`). -/
def bindNames : List (String × Option PyVal) → List PyVal → Kwargs → Option (List PyVal)
  | [], _, _ => some []
  | (n, _) :: ps, a :: as, kw => if n ∈ kw.map Prod.fst then none else (bindNames ps as kw).map (a :: ·)
  | (n, d) :: ps, [], kw => ((kw.lookup n).or d).bind fun v => (bindNames ps [] kw).map (v :: ·)

/-- Parameters of `Series2GraphPP.__init__`, s2gpp/__init__.py lines 16-26. -/
def baseNames : List (String × Option PyVal) :=
  [("self", none), ("pattern_length", none), ("latent", some .none), ("rate", some (.int 100)), ("query_length", some .none),
    ("n_threads", some (.int (-1))), ("clustering", some (.method .kde)), ("self_correction", some (.bool false)),
    ("local_host", some (.str "127.0.0.1:1992"))]

/-- Parameters of `DistributedSeries2GraphPP.__init__` before `*args, **kwargs`, line 57. `str(Path("./anomaly_scores.ts"))` is without `./`. -/
def distNames : List (String × Option PyVal) :=
  [("self", none), ("_role", none), ("n_cluster_nodes", none), ("mainhost", some .none), ("output_path", some (.path "anomaly_scores.ts")),
    ("column_start_idx", some (.int 0)), ("column_end_idx", some (.int 0))]

/-- Attributes set by `Series2GraphPP.__init__`, lines 27-34. -/
structure Base where
  patternLength : PyVal
  latent : PyVal
  rate : PyVal
  queryLength : PyVal
  nThreads : PyVal
  clustering : PyVal
  selfCorrection : PyVal
  localHost : PyVal

/-- `Series2GraphPP.__init__`, lines 16-34: too many positional arguments and unknown keywords are refused. -/
def initBase (cpus : Nat) (args : List PyVal) (kw : Kwargs) : Option Base :=
  if (PyVal.self :: args).length ≤ baseNames.length ∧ ∀ k ∈ kw.map Prod.fst, k ∈ baseNames.map Prod.fst then
    match bindNames baseNames (.self :: args) kw with
    | some [_, patternLength, latent, rate, queryLength, nThreads, clustering, selfCorrection, localHost] => do
      let latent ← if latent.truthy then some latent else patternLength.number.map fun L => .int (L.tdiv 3)
      let queryLength := if queryLength.truthy then queryLength else patternLength
      let t ← nThreads.number
      let nThreads := if t > 0 then nThreads else .int (min ((cpus : Int) - 1) 1)
      some ⟨patternLength, latent, rate, queryLength, nThreads, clustering, selfCorrection, localHost⟩
    | _ => none
  else none

/-- Attributes of `DistributedSeries2GraphPP`, lines 58-64. -/
structure Dist extends Base where
  role : PyVal
  outputPath : PyVal
  columnStart : PyVal
  columnEnd : PyVal
  nClusterNodes : PyVal
  mainhost : PyVal

/-- `DistributedSeries2GraphPP.__init__`, lines 57-64: what is left over goes to the base class. -/
def init (cpus : Nat) (args : List PyVal) (kw : Kwargs) : Option Dist :=
  match bindNames distNames (.self :: args) kw with
  | some [_, role, nClusterNodes, mainhost, outputPath, columnStart, columnEnd] =>
    (initBase cpus ((PyVal.self :: args).drop distNames.length) (kw.filter fun x => x.1 ∉ distNames.map Prod.fst)).map fun b =>
      { b with role, outputPath, columnStart, columnEnd, nClusterNodes, mainhost }
  | _ => none

/-- The static methods `main` and `sub`, lines 100-114: `_role` is given by keyword after the arguments of the user. -/
def create (role : DistRole) (cpus : Nat) (args : List PyVal) (kw : Kwargs) : Option Dist :=
  if "_role" ∈ kw.map Prod.fst then none else init cpus args (("_role", .role role) :: kw)

/-- Where a process gets its data from: `Role`, src/parameters.rs lines 7-19. -/
inductive Source (A : Type) where
  | main (path : String)
  | sub (mainhost : A)
  deriving DecidableEq

/-- The arguments of the run, src/python_binding.rs lines 100-116 and 139-155. -/
structure Launch (A : Type) where
  source : Source A
  params : Parameters
  output : Option String
  columnStart : Nat
  columnEnd : Int
  localHost : A

variable {A : Type}

/-- `Clustering::from_str(&clustering).unwrap()`, src/training/node_estimation/mod.rs lines 318-331. -/
def fromStr (s : String) : Option Unit := if s = "kde" then some () else none

/-- The role of the process: `str(X)` is the path of the file, s2gpp/__init__.py lines 67-69, 83-98. -/
def sourceOf (parse : String → Option A) (x : Dist) (X : PyVal) : Option (Source A) :=
  if x.role = .role .main then some (.main X.toStr) else (x.mainhost.string.bind parse).map .sub

/-- `fit_predict(X)`, s2gpp/__init__.py lines 66-98, up to the start of the run. -/
def launch (parse : String → Option A) (x : Dist) (X : PyVal := .none) : Option (Launch A) := do
  let source ← sourceOf parse x X
  let patternLength ← x.patternLength.usize
  let latent ← x.latent.usize
  let queryLength ← x.queryLength.usize
  let rate ← x.rate.usize
  let nThreads ← x.nThreads.usize
  let columnStart ← x.columnStart.usize
  let columnEnd ← x.columnEnd.isize
  x.clustering.value.bind fromStr
  let selfCorrection ← x.selfCorrection.asBool
  let localHost ← x.localHost.string.bind parse
  let nClusterNodes ← x.nClusterNodes.usize
  some
    { source, params := ⟨patternLength, latent, queryLength, rate, nThreads, nClusterNodes, selfCorrection⟩
      output := some x.outputPath.toStr, columnStart, columnEnd, localHost }

/-- `DistributedSeries2GraphPP.main(*args, **kwargs).fit_predict(X)` and the same with `sub`. -/
def start (parse : String → Option A) (role : DistRole) (cpus : Nat) (args : List PyVal) (kw : Kwargs) (X : PyVal := .none) : Option (Launch A) :=
  (create role cpus args kw).bind fun x => launch parse x X

/-- A process which is started without a listener (`n_cluster_nodes` at most 1, src/lib.rs lines 55-62): its data manager has handled the `LoadDataMessage`
without other nodes, and as main node has read the file (src/data_manager/mod.rs lines 164-181). -/
def alone {D : Type} (l : Launch A) (rows : List D) : Option (DataMgr (List D)) :=
  match l.source with
  | .main _ => (DataReader.readCsv 1 (l.params.patternLength - 1) rows).map fun ps => { mailbox := ps.map fun x => .partition x.2 }
  | .sub _ => some {}

/-- The states of its data manager. Nobody else sends messages to it. -/
inductive Alone {D : Type} (l : Launch A) (rows : List D) : DataMgr (List D) → Prop
  | init {s : DataMgr (List D)} (h : alone l rows = some s) : Alone l rows s
  | process {s : DataMgr (List D)} (h : Alone l rows s) (m : DataMsg (List D)) (rest : List (DataMsg (List D))) (hm : s.mailbox = m :: rest) :
      Alone l rows (DataMgr.handle l.params { s with mailbox := rest } m)

end DistEstimator
end S2G
