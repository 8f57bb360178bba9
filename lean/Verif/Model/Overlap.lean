import Verif.Model.Scoring

/-!
# Model of the exchange of overlapping edges, `src/training/scoring/overlap.rs`

Before a node scores its part of the time line, it needs the first edges of the next part. The last node starts; every other
node waits for the overlap of its successor, appends it, sends its own overlap to its predecessor, and scores.
-/

namespace S2G

/-- `OverlapRotation`, src/training/scoring/messages.rs. -/
structure OverlapMsg where
  edges : List Edge
  eit : List Nat
  deriving DecidableEq

/-- State of the cluster during the exchange. -/
structure OvNet where
  /-- edges of the data store -/
  edges : Nat → List Edge
  /-- `edges_in_time` -/
  eit : Nat → List Nat
  /-- `overlap_rotation_protocol` -/
  proto : Nat → Proto OverlapMsg := fun _ => {}
  /-- ghost: the node has handled `ScoreInitDone` -/
  started : Nat → Bool := fun _ => false
  /-- messages on their way, with receiver, in any order -/
  pool : List (Nat × OverlapMsg) := []
  /-- ghost: what the helpers are created with, for every call of `score` (src/training/scoring/mod.rs lines 81-108) -/
  scored : Nat → List (List Edge × List Nat) := fun _ => []

namespace OvNet
open Scoring

/-- Index of the previous node (`ClusterNodes::get_prev_as`, see `ClusterNodes.C03_previous`). -/
def prv (n i : Nat) : Nat := (i + n - 1) % n

/-- The message of `send_overlap_to_neighbor`, lines 14-22 (`none`: `query_length` is 0 or an index is out of range). -/
def overlap (q : Nat) (edges : List Edge) (eit : List Nat) : Option OverlapMsg := do
  let q1 ← checkedSub q 1
  let b ← eit[q1]?
  let es ← slice edges 0 b
  let ts ← slice eit 0 q1
  some ⟨es, ts⟩

/-- `send_overlap_to_neighbor`, lines 13-34, with the call of `score`. -/
def sendOverlap (n q : Nat) (s : OvNet) (i : Nat) : Option OvNet := do
  let m ← overlap q (s.edges i) (s.eit i)
  some { s with
    pool := s.pool ++ [(prv n i, m)]
    proto := Function.update s.proto i (s.proto i).sent
    scored := Function.update s.scored i (s.scored i ++ [(s.edges i, s.eit i)]) }

/-- Handler of `ScoreInitDone`, src/training/scoring/weights.rs lines 224-241. -/
def startStep (n q : Nat) (s : OvNet) (i : Nat) : Option OvNet :=
  let s := { s with started := Function.update s.started i true }
  if i = n - 1 then sendOverlap n q s i
  else
    let p := (s.proto i).start 1
    let (resent, p) := p.resolveBuffer
    some { s with proto := Function.update s.proto i p, pool := s.pool ++ resent.map (fun m => (i, m)) }

/-- Appending an overlap, lines 44-51 (`none`: `edges_in_time` is empty). -/
def extend (edges : List Edge) (eit : List Nat) (m : OverlapMsg) : Option (List Edge × List Nat) := do
  let last ← eit.getLast?
  some (edges ++ m.edges, eit ++ m.eit.map (· + last))

/-- Handler of `OverlapRotation`, lines 37-58; the last lines panic if the protocol is still running. -/
def handleStep (n q : Nat) (s : OvNet) (i : Nat) (m : OverlapMsg) : Option OvNet :=
  match (s.proto i).received m with
  | (false, p) => some { s with proto := Function.update s.proto i p }
  | (true, p) => do
    let x ← extend (s.edges i) (s.eit i) m
    let s := { s with
      proto := Function.update s.proto i p
      edges := Function.update s.edges i x.1
      eit := Function.update s.eit i x.2 }
    let s ← sendOverlap n q s i
    if (s.proto i).isRunning then none else some s

/-- One step of the cluster. -/
inductive Step (n q : Nat) : OvNet → OvNet → Prop
  | start (s : OvNet) (i : Nat) (hi : i < n) (h : s.started i = false) {t : OvNet} (ht : startStep n q s i = some t) :
      Step n q s t
  | handle (s : OvNet) (pre post : List (Nat × OverlapMsg)) (i : Nat) (m : OverlapMsg) (h : s.pool = pre ++ (i, m) :: post)
      {t : OvNet} (ht : handleStep n q { s with pool := pre ++ post } i m = some t) : Step n q s t

/-- Reachable states, when node `i` has the edges `own i` and the counts `cnt i`. -/
inductive Reachable (n q : Nat) (own : Nat → List Edge) (cnt : Nat → List Nat) : OvNet → Prop
  | init : Reachable n q own cnt { edges := own, eit := cnt }
  | step {s t} : Reachable n q own cnt s → Step n q s t → Reachable n q own cnt t

end OvNet
end S2G
