import Verif.Model.Store

/-!
# The segmentation with self correction on several nodes, on data stores with shared points

The stage of `Model/CorrNet.lean` once more, with the data store of every node as in `Model/Store.lean`: points with their coordinates
in cells, steps as references, copies of points in the messages.
-/

namespace S2G
namespace Store

open SelfCorrection

variable {P : Type}

/-- `TransitionCountMessage`, `SendFirstPointMessage`, `SegmentMessage`, src/training/segmentation/messages.rs; points and steps are
copies. -/
inductive HMsg (P : Type) where
  | count (m : RMsg Count)
  | first (x : P) (t : P × P)
  | segs (m : DMsg (List (P × P)))

/-- All nodes. `node`: the fields of `Segmentation` and the data store; `entered`: ghost, `segment` was called; `global`:
`global_transition_count`; `decided`: ghost, the outcome of `try_self_correction`; `cproto`, `dproto`: `transition_count_protocol`,
`direct_protocol`; `done`: how often `SegmentedMessage` was sent; `link j i`: messages on their way from `j` to `i`. -/
structure HeapNet (P : Type) where
  node : Nat → Seg P
  entered : Nat → Bool := fun _ => false
  global : Nat → Nat := fun _ => 0
  decided : Nat → Option Bool := fun _ => none
  cproto : Nat → Proto (RMsg Count) := fun _ => {}
  dproto : Nat → Proto (DMsg (List (P × P))) := fun _ => {}
  done : Nat → Nat := fun _ => 0
  mailbox : Nat → List (HMsg P) := fun _ => []
  link : Nat → Nat → List (HMsg P) := fun _ _ => []
  crashed : Bool := false

/-- `transition_count`, src/training/segmentation/mod.rs lines 304-308. -/
def transitionCount (n : Nat) (l : Seg P) : Nat :=
  l.store.transitions.length + ((List.range n).map (fun a => (l.forNodes a).length)).sum

namespace HeapNet

/-- The beginning of the stage: the data stores hold the points. -/
def init (st : Nat → DataStore P) : HeapNet P := { node := fun i => { store := st i } }

/-- Send a message to another node. -/
def post (s : HeapNet P) (i j : Nat) (m : HMsg P) : HeapNet P :=
  { s with link := Function.update s.link i (Function.update (s.link i) j (s.link i j ++ [m])) }

/-- `start`, `resolve_buffer` and `distribute_segments`, src/training/segmentation/mod.rs lines 101-109, 445-453, 271-288, with
`n ≥ 2` nodes. -/
def distribute (n : Nat) (s : HeapNet P) (i : Nat) (f : Nat → List (P × P)) : HeapNet P :=
  { s with
    dproto := Function.update s.dproto i (((s.dproto i).start (n - 1)).resolveBuffer.2.sentN (n - 1))
    mailbox := Function.update s.mailbox i (s.mailbox i ++ ((s.dproto i).start (n - 1)).resolveBuffer.1.map HMsg.segs)
    link := Function.update s.link i (fun j => if j < n ∧ j ≠ i then s.link i j ++ [.segs ⟨i, j, f j⟩] else s.link i j) }

/-- `try_send_inter_node_points`, lines 245-269, without the answer: the message to the previous node. -/
def trySend (n : Nat) (s : HeapNet P) (i : Nat) (sendPoint : Option P) (sendTransition : Option (P × P)) : HeapNet P :=
  match sendPoint, sendTransition with
  | some x, some t => s.post i (if i = 0 then n - 1 else i - 1) (.first x t)
  | _, _ => s

/-- `distribute_or_wait_for_segments`, lines 92-110; `l.forNodes` are the transitions given to it. The last node does not wait. -/
def distributeOrWait (p : Parameters) (s : HeapNet P) (i : Nat) (l : Seg P) : HeapNet P :=
  let s := trySend p.nClusterNodes { s with node := Function.update s.node i { l with sendPoint := none, sendTransition := none } } i
    l.sendPoint l.sendTransition
  if i ≠ p.nClusterNodes - 1 then s else distribute p.nClusterNodes s i l.forNodes

/-- `try_self_correction` and `finish_self_correction`, lines 323-350. -/
def correct (k : Kind P) (p : Parameters) (s : HeapNet P) (i : Nat) (l : Seg P) : HeapNet P :=
  if mirrors ⟨s.global i, l.invalid⟩ then
    match Store.correct k p i l with
    | none => { s with crashed := true }
    | some l' => distributeOrWait p { s with decided := Function.update s.decided i (some true) } i l'
  else distributeOrWait p { s with decided := Function.update s.decided i (some false) } i l

/-- `segment` and `self_correction`, lines 83-90 and 290-316. -/
def enter (k : Kind P) (p : Parameters) (s : HeapNet P) (i : Nat) : HeapNet P :=
  match buildSegments k p i (s.node i) with
  | none => { s with crashed := true }
  | some l =>
    let n := p.nClusterNodes
    let c := ((s.cproto i).start (n - 1)).resolveBuffer
    let s := { s with mailbox := Function.update s.mailbox i (s.mailbox i ++ c.1.map HMsg.count) }
    let s := s.post i (RingNet.nxt n i) (.count ⟨i, ⟨transitionCount n l, l.invalid⟩⟩)
    { s with
      cproto := Function.update s.cproto i c.2.sent
      global := Function.update s.global i (s.global i + transitionCount n l)
      entered := Function.update s.entered i true
      node := Function.update s.node i l }

/-- `Handler<TransitionCountMessage>` of a counted message, lines 370-383. -/
def counted (k : Kind P) (p : Parameters) (s : HeapNet P) (i : Nat) (m : RMsg Count) (c : Proto (RMsg Count)) : HeapNet P :=
  let l := { s.node i with invalid := (s.node i).invalid + m.body.clockwise }
  let s := { s with
    cproto := Function.update s.cproto i c
    global := Function.update s.global i (s.global i + m.body.count)
    node := Function.update s.node i l }
  if c.isRunning then
    { s.post i (RingNet.nxt p.nClusterNodes i) (.count m) with cproto := Function.update s.cproto i c.sent }
  else correct k p s i l

/-- `Handler<TransitionCountMessage>`, lines 362-383. -/
def handleCount (k : Kind P) (p : Parameters) (s : HeapNet P) (i : Nat) (m : RMsg Count) : HeapNet P :=
  if ((s.cproto i).received m).1 then counted k p s i m ((s.cproto i).received m).2
  else { s with cproto := Function.update s.cproto i ((s.cproto i).received m).2 }

/-- `Handler<SendFirstPointMessage>`, lines 385-455. -/
def handleFirst (k : Kind P) (p : Parameters) (s : HeapNet P) (i : Nat) (x : P) (t : P × P) : HeapNet P :=
  match onFirstPoint k p i (s.node i) x t with
  | none => { s with crashed := true }
  | some l => distribute p.nClusterNodes { s with node := Function.update s.node i { l with forNodes := fun _ => [] } } i l.forNodes

/-- `Handler<SegmentMessage>`, lines 457-471. -/
def handleSegs (k : Kind P) (s : HeapNet P) (i : Nat) (m : DMsg (List (P × P))) : HeapNet P :=
  let c := ((s.dproto i).received m).2
  if ((s.dproto i).received m).1 then
    match receive k (s.node i) m.body with
    | none => { s with crashed := true }
    | some l =>
      { s with
        dproto := Function.update s.dproto i c
        node := Function.update s.node i l
        done := if c.isRunning then s.done else Function.update s.done i (s.done i + 1) }
  else { s with dproto := Function.update s.dproto i c }

/-- The handlers. -/
def handle (k : Kind P) (p : Parameters) (s : HeapNet P) (i : Nat) : HMsg P → HeapNet P
  | .count m => handleCount k p s i m
  | .first x t => handleFirst k p s i x t
  | .segs m => handleSegs k s i m

/-- The counts in a list of messages. -/
def counts (l : List (HMsg P)) : List (RMsg Count) := l.filterMap (fun | .count m => some m | _ => none)

/-- One step; `benign` and `inTime` as in `CorrNet.Step`. -/
inductive Step (benign inTime : Bool) (k : Kind P) (p : Parameters) : HeapNet P → HeapNet P → Prop
  | enter (s : HeapNet P) (i : Nat) (hi : i < p.nClusterNodes) (h : s.entered i = false) (hc : s.crashed = false)
      (hb : benign = true → counts (s.mailbox i) = [] ∨ (s.cproto i).buffer = []) : Step benign inTime k p s (enter k p s i)
  | arrive (s : HeapNet P) (j i : Nat) (m : HMsg P) (rest : List (HMsg P)) (hj : j < p.nClusterNodes) (hi : i < p.nClusterNodes)
      (h : s.link j i = m :: rest) (hc : s.crashed = false) :
      Step benign inTime k p s { s with
        link := Function.update s.link j (Function.update (s.link j) i rest)
        mailbox := Function.update s.mailbox i (s.mailbox i ++ [m]) }
  | handle (s : HeapNet P) (i : Nat) (m : HMsg P) (rest : List (HMsg P)) (hi : i < p.nClusterNodes)
      (h : s.mailbox i = m :: rest) (hc : s.crashed = false)
      (ht : inTime = true → ∀ x t, m = .first x t → s.decided i ≠ none) :
      Step benign inTime k p s (handle k p { s with mailbox := Function.update s.mailbox i rest } i m)

/-- Reachable states. -/
inductive Reachable (benign inTime : Bool) (k : Kind P) (p : Parameters) (st : Nat → DataStore P) : HeapNet P → Prop
  | init : Reachable benign inTime k p st (init st)
  | step {s t} : Reachable benign inTime k p st s → Step benign inTime k p s t → Reachable benign inTime k p st t

end HeapNet
end Store
end S2G
