import Verif.Model.Parameters
import Verif.Model.ClusterNodes
import Mathlib.Algebra.Ring.Defs
import Mathlib.Data.List.Basic

/-!
# Model of the preprocessing stage (`src/data_manager/preprocessor/{mod,helper}.rs`) and of the buffer of early
data partitions (`src/data_manager/mod.rs`)
-/

namespace S2G

/-! ## Helper: `src/data_manager/preprocessor/helper.rs` -/
namespace PreprocessorHelper
variable {K : Type} [Ring K] [DecidableEq K]

/-- State of the flat region scan, helper.rs lines 38-41. -/
structure Scan (K : Type) where
  regions : List (List Nat) := []
  current : List Nat := []
  lastV : K

/-- Loop body, helper.rs lines 42-52. -/
def scanStep (windowSize : Nat) (s : Scan K) (rv : K × Nat) : Scan K :=
  let (v, r) := rv
  if r > 0 ∧ s.lastV = v then { s with current := s.current ++ [r], lastV := v }
  else
    { regions := if s.current.length > windowSize then s.regions ++ [s.current] else s.regions
      current := []
      lastV := v }

/-- The regions found, helper.rs lines 38-55. -/
def flatRegions (windowSize : Nat) (first : K) (data : List K) : List (List Nat) :=
  let s := data.zipIdx.foldl (scanStep windowSize) { lastV := first }
  if s.current.length > windowSize then s.regions ++ [s.current] else s.regions

/-- `select(Axis(0), indices)`: a new, owned array. -/
def select (data : List K) (indices : List Nat) : List K := indices.filterMap (fun i => data[i]?)

/-- `background_oscillation`, helper.rs lines 21-34. -/
def backgroundOscillation (indices : List Nat) (data : List K) (std : K) : List K :=
  List.zipWith (fun i x => ((i % 2 : Nat) : K) * std + x) indices (select data indices)

/-- `assign`: overwrites the contents of its receiver (here the temporary array of `select`) and returns nothing
else; modelled as returning the new contents of the receiver. -/
def assign (_receiver new : List K) : List K := new

/-- `preprocess`, helper.rs lines 36-62, `tenth` = 0.1. Returns the column together with the contents of the
temporary arrays that were overwritten; the column itself is not a receiver of `assign`. `none`: `data[0]` on an
empty column. -/
def preprocess (windowSize : Nat) (tenth : K) (column : List K) (std : K) :
    Option (List K × List (List K)) := do
  let first ← column[0]?
  let regions := flatRegions windowSize first column
  let temporaries := regions.map (fun region =>
    assign (select column region) (backgroundOscillation region column (std * tenth)))
  some (column, temporaries)

end PreprocessorHelper

/-! ## Distribution of the columns: `src/data_manager/preprocessor/mod.rs` -/

/-- `Preprocessing` (mod.rs lines 18-23) and the parts of `DataManager` it works on. `tasks` are the
`PreprocessColumnMessage`s sent so far, `doneMsgs` the number of `PreprocessingDoneMessage`s, `data` the data of the
manager. -/
structure Preproc (D : Type) where
  total : Nat
  processed : Nat := 0
  distributed : Nat := 0
  tasks : List Nat := []
  doneMsgs : Nat := 0
  data : D

namespace Preproc
variable {D : Type}

/-- Loop of `distribute_work`, mod.rs lines 52-66: `i` is the loop counter. -/
def distLoop (maxDist : Nat) : Nat → List Nat → Preproc D → Preproc D
  | _, [], s => s
  | i, column :: rest, s =>
    if i < maxDist then
      distLoop maxDist (i + 1) rest
        { s with tasks := s.tasks ++ [column], distributed := s.distributed + 1 }
    else s

/-- `distribute_work`, mod.rs lines 46-67. `none`: `usize` underflow. -/
def distributeWork (nThreads : Nat) (s : Preproc D) : Option (Preproc D) := do
  let inFlight ← checkedSub s.distributed s.processed
  let maxDist ← checkedSub nThreads inFlight
  some (distLoop maxDist 0 (List.range' s.distributed (s.total - s.distributed)) s)

/-- `Preprocessing::new` and the first `distribute_work`, data_manager/mod.rs lines 112-125. -/
def start (nThreads total : Nat) (data : D) : Option (Preproc D) :=
  distributeWork nThreads { total := total, data := data }

/-- Handler of `ProcessedColumnMessage`, mod.rs lines 70-83: the processed column is ignored. -/
def handleProcessed {K : Type} (nThreads : Nat) (s : Preproc D) (_column : Nat) (_processedColumn : List K) :
    Option (Preproc D) :=
  let s := { s with processed := s.processed + 1 }
  if s.processed = s.total then some { s with doneMsgs := s.doneMsgs + 1 }
  else distributeWork nThreads s

/-- The manager together with the columns that are being processed by the helper threads. -/
structure Sys (D : Type) where
  mgr : Preproc D
  inFlight : List Nat
  answered : List Nat

/-- One helper answers for a column `c` in flight (in any order) with any processed column `col`. -/
inductive Step {K : Type} (nThreads : Nat) : Sys D → Sys D → Prop
  | answer (s : Sys D) (c : Nat) (col : List K) (m : Preproc D) (hc : c ∈ s.inFlight)
      (hm : handleProcessed nThreads s.mgr c col = some m) :
      Step nThreads s
        { mgr := m
          inFlight := s.inFlight.erase c ++ m.tasks.drop s.mgr.tasks.length
          answered := s.answered ++ [c] }

inductive Reachable {K : Type} (nThreads total : Nat) (data : D) : Sys D → Prop
  | init (m : Preproc D) (h : start nThreads total data = some m) :
      Reachable nThreads total data { mgr := m, inFlight := m.tasks, answered := [] }
  | step {s s' : Sys D} (h : Reachable (K := K) nThreads total data s) (hs : Step (K := K) nThreads s s') :
      Reachable nThreads total data s'

end Preproc

/-! ## Early data partitions: `src/data_manager/mod.rs` lines 82-87, 161-192 -/

/-- Messages of the data manager considered here; `P` is the payload of a partition. -/
inductive DataMsg (P : Type)
  | partition (p : P)
  | loadData (nodes : ClusterNodes Nat)

/-- Data manager of a node that does not read the file itself: cluster view, buffer, mailbox, and the partitions
processed so far. -/
structure DataMgr (P : Type) where
  nodes : ClusterNodes Nat := ⟨[]⟩
  buffer : List P := []
  mailbox : List (DataMsg P) := []
  processed : List P := []

namespace DataMgr
variable {P : Type}

/-- Handlers of `DataPartitionMessage` (lines 187-192, then processing) and `LoadDataMessage` (lines 164-181, branch
`resolve_buffer`, which pops from the end and sends to the own mailbox). -/
def handle (p : Parameters) (s : DataMgr P) : DataMsg P → DataMgr P
  | .partition x =>
    if s.nodes.allConnected p then { s with processed := s.processed ++ [x] }
    else { s with buffer := s.buffer ++ [x] }
  | .loadData nodes =>
    { s with nodes := nodes, buffer := [],
             mailbox := s.mailbox ++ s.buffer.reverse.map .partition }

/-- A message arrives in the mailbox, or the first message of the mailbox is handled. -/
inductive Step (p : Parameters) : DataMgr P → DataMgr P → Prop
  | arrive (s : DataMgr P) (m : DataMsg P) : Step p s { s with mailbox := s.mailbox ++ [m] }
  | process (s : DataMgr P) (m : DataMsg P) (rest : List (DataMsg P)) (h : s.mailbox = m :: rest) :
      Step p s (handle p { s with mailbox := rest } m)

end DataMgr
end S2G
