import Verif.Model.JointRotation
import Verif.Model.Preprocessor

/-!
# The data managers of a cluster

`DataManager` (src/data_manager/mod.rs) on every node, with the messages between them: the main node reads the file and hands out the rows, every
node sends its statistics to the main node, the main node answers when it has those of all nodes, every node has its columns preprocessed by
helper threads and hands its data over to `Training`. The main node is node 0. Messages to other nodes are delivered in any order; the mailbox of
a node is a queue. The rows are those of the chosen columns, as real numbers.
-/

namespace S2G

/-- Messages of a data manager: `DataPartitionMessage`, the messages of stats_collector/messages.rs, and those of the preprocessor. -/
inductive LoadMsg (e : Nat)
  | partition (rows : List (Fin (e + 1) → ℝ))
  | minMax (m : Stats.MinMaxMsg (e + 1) ℝ Nat)
  | std (m : Stats.StdMsg (e + 1) ℝ Nat)
  | minMaxDone (min max : Fin (e + 1) → ℝ)
  | stdDone (var : Fin (e + 1) → ℝ) (n : Nat)
  | processed (column : Nat)
  | preprocessingDone

/-- `DataManager`, src/data_manager/mod.rs lines 40-53. `loaded`: it has handled `LoadDataMessage` and knows the other nodes; `handed`: the
messages `DataLoadedAndProcessed` it has sent (reference data set, phase space, number of rows). -/
structure Manager (e : Nat) where
  loaded : Bool := false
  buffer : List (List (Fin (e + 1) → ℝ)) := []
  data : Option (List (Fin (e + 1) → ℝ)) := none
  minmax : Option (Stats.MinMaxState (e + 1) ℝ Nat) := none
  std : Option (Stats.StdState (e + 1) ℝ Nat) := none
  stats : Stats.DoneState (Fin (e + 1) → ℝ) := {}
  preprocessing : Option (Preproc (List (Fin (e + 1) → ℝ))) := none
  handed : List (List (List (Fin (e + 1) → ℝ)) × List (List (Fin (e + 1) → ℝ)) × Nat) := []

/-- What a handler does: the new state, the messages it sends with their receivers, and the columns it gives to the helpers. -/
structure Effect (e : Nat) where
  mgr : Manager e
  sends : List (Nat × LoadMsg e) := []
  tasks : List Nat := []

namespace Manager
noncomputable section

open Cluster Whole Stats

variable {e : Nat}

/-- `min_axis` of rows, src/data_manager/stats_collector/minmax.rs line 29 (there are rows). -/
def lowest (rows : List (Fin (e + 1) → ℝ)) : Fin (e + 1) → ℝ := fun m => (columnMin rows m).getD 0

/-- `max_axis` of rows, src/data_manager/stats_collector/minmax.rs line 30. -/
def highest (rows : List (Fin (e + 1) → ℝ)) : Fin (e + 1) → ℝ := fun m => (columnMax rows m).getD 0

/-- `all_connected`, src/utils/mod.rs lines 132-134: before `LoadDataMessage` a data manager knows no other node. -/
def connected (p : Parameters) (m : Manager e) : Bool := m.loaded || decide (p.nClusterNodes = 1)

/-- Handler of `LoadDataMessage` on node `i`, src/data_manager/mod.rs lines 161-182. `none`: `read_csv` panics. -/
def load (p : Parameters) (series : List (Fin (e + 1) → ℝ)) (i : Nat) (m : Manager e) : Option (Effect e) :=
  if i = 0 then
    (DataReader.readCsv p.nClusterNodes (p.patternLength - 1) series).map fun l =>
      { mgr := { m with loaded := true }, sends := l.map fun a => (a.1, .partition a.2) }
  else
    some { mgr := { m with loaded := true, buffer := [] }, sends := m.buffer.reverse.map fun r => (i, .partition r) }

/-- `datastats_finished` and `preprocess`, src/data_manager/mod.rs lines 106-125, after a message `m`. `none`: the data is not there. -/
def finished (p : Parameters) (m : Manager e) (x : DoneMsg (Fin (e + 1) → ℝ)) : Option (Effect e) :=
  let st := handleDone m.stats x
  if isDone st then
    m.data.bind fun rows => (Preproc.start p.nThreads (e + 1) rows).map fun q =>
      { mgr := { m with stats := st, preprocessing := some q }, tasks := q.tasks }
  else some { mgr := { m with stats := st } }

/-- The handlers of a data manager on node `i`, src/data_manager/mod.rs lines 184-265, stats_collector/minmax.rs lines 28-104,
stats_collector/std.rs lines 29-128, preprocessor/mod.rs lines 70-83. `none`: the handler panics. -/
def handle (p : Parameters) (i : Nat) (m : Manager e) : LoadMsg e → Option (Effect e)
  | .partition rows =>
    if m.connected p then
      if rows = [] then none
      else (calculateStd (cutoff p i) rows i).bind fun x =>
        if x.n = 0 then none
        else some
          { mgr := { m with data := some rows, minmax := some {}, std := some {} }
            sends := [(0, .minMax ⟨lowest rows, highest rows, i⟩), (0, .std x)] }
    else some { mgr := { m with buffer := m.buffer ++ [rows] } }
  | .minMax x => m.minmax.map fun c =>
      let c' := handleMinMax p.nClusterNodes { c with out := [] } x
      { mgr := { m with minmax := some c' }, sends := c'.out.map fun a => (a.1, .minMaxDone a.2.1 a.2.2) }
  | .std x => m.std.map fun c =>
      let c' := handleStd p.nClusterNodes { c with out := [] } x
      { mgr := { m with std := some c' }, sends := c'.out.map fun a => (a.1, .stdDone a.2.1 a.2.2) }
  | .minMaxDone a b => m.finished p (.minMax a b)
  | .stdDone v n => m.finished p (.std v n)
  | .processed c => m.preprocessing.bind fun q => (Preproc.handleProcessed p.nThreads q c ([] : List ℝ)).map fun q' =>
      { mgr := { m with preprocessing := some q' }
        sends := if q'.doneMsgs = q.doneMsgs then [] else [(i, .preprocessingDone)]
        tasks := q'.tasks.drop q.tasks.length }
  | .preprocessingDone => do
      let lo ← m.stats.min
      let hi ← m.stats.max
      let n ← m.stats.n
      let rows ← m.data
      let ref ← PhaseSpace.referenceDataset p lo hi
      let ps ← PhaseSpace.build p rows
      some { mgr := { m with handed := m.handed ++ [(ref, ps, n)] } }

end
end Manager

/-- The data managers of all nodes: their states, mailboxes, the columns their helpers work on, and the messages on the way between nodes with their
receivers. -/
structure LoadNet (e : Nat) where
  mgr : Nat → Manager e := fun _ => {}
  mailbox : Nat → List (LoadMsg e) := fun _ => []
  helpers : Nat → List Nat := fun _ => []
  net : List (Nat × LoadMsg e) := []

namespace LoadNet
noncomputable section

open Stage

variable {e : Nat}

/-- Effect of a handler on node `i`: messages to itself are in its mailbox at once. -/
def post (s : LoadNet e) (i : Nat) (f : Effect e) : LoadNet e where
  mgr := Function.update s.mgr i f.mgr
  mailbox := Function.update s.mailbox i (s.mailbox i ++ (f.sends.filter (·.1 = i)).map Prod.snd)
  helpers := Function.update s.helpers i (s.helpers i ++ f.tasks)
  net := s.net ++ f.sends.filter (·.1 ≠ i)

/-- A message arrives at its receiver, a node handles the first message of its mailbox, or a helper of node `i` is done with a column. -/
inductive Step (p : Parameters) : LoadNet e → LoadNet e → Prop
  | arrive {s : LoadNet e} {i : Nat} {m : LoadMsg e} {pre rest : List (Nat × LoadMsg e)} (hn : s.net = pre ++ (i, m) :: rest) :
      Step p s { s with net := pre ++ rest, mailbox := Function.update s.mailbox i (s.mailbox i ++ [m]) }
  | handle {s : LoadNet e} {i : Nat} {m : LoadMsg e} {rest : List (LoadMsg e)} {f : Effect e} (hm : s.mailbox i = m :: rest)
      (hf : (s.mgr i).handle p i m = some f) : Step p s (post { s with mailbox := Function.update s.mailbox i rest } i f)
  | helper {s : LoadNet e} {i c : Nat} {pre rest : List Nat} (hh : s.helpers i = pre ++ c :: rest) :
      Step p s { s with helpers := Function.update s.helpers i (pre ++ rest),
                        mailbox := Function.update s.mailbox i (s.mailbox i ++ [.processed c]) }

/-- The data managers as a stage: a node enters it when it handles `LoadDataMessage`, its result is what it hands over. -/
def loading (p : Parameters) (series : List (Fin (e + 1) → ℝ)) :
    Stage Unit (List (List (Fin (e + 1) → ℝ)) × List (List (Fin (e + 1) → ℝ)) × Nat) where
  S := LoadNet e
  init := {}
  started s i := (s.mgr i).loaded
  start s i _ t := i < p.nClusterNodes ∧ (s.mgr i).loaded = false ∧ ∃ f, (s.mgr i).load p series i = some f ∧ t = post s i f
  step := Step p
  out s i := match (s.mgr i).handed with
    | [y] => if i < p.nClusterNodes then some y else none
    | _ => none

end
end LoadNet
end S2G
