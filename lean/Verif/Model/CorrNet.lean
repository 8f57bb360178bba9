import Verif.Model.SelfCorrection

/-!
# Model of the segmentation with self correction on several nodes

`src/training/segmentation/mod.rs` with `self_correction = true` and at least two nodes: every node segments its points, the
numbers of transitions travel around the ring, every node decides on its own whether it mirrors its points and segments again, and
then the first points and the transitions are exchanged. All messages of the stage share one mailbox per node; messages from one
node to another arrive in the order in which they were sent.
-/

namespace S2G

open SelfCorrection

/-- `TransitionCountMessage`, `SendFirstPointMessage`, `SegmentMessage`, src/training/segmentation/messages.rs. -/
inductive CMsg where
  | count (m : RMsg Count)
  | first (pt : Pt) (t : Trans)
  | segs (m : DMsg (List Trans))

/-- All nodes. `loc`: the local state (`none` before `segment`), with `invalid_transition_directions` in `invalid`, the own
transitions of the data store in `stored` and `transitions_for_nodes` in `forNodes`; `global`: `global_transition_count`;
`decided`: ghost, the outcome of `try_self_correction`; `cproto`, `dproto`: `transition_count_protocol`, `direct_protocol`; `got`:
received messages whose transitions are in the data store; `done`: how often `SegmentedMessage` was sent; `link j i`: messages on
their way from `j` to `i`. -/
structure CorrNet where
  loc : Nat → Option SegState := fun _ => none
  global : Nat → Nat := fun _ => 0
  decided : Nat → Option Bool := fun _ => none
  cproto : Nat → Proto (RMsg Count) := fun _ => {}
  dproto : Nat → Proto (DMsg (List Trans)) := fun _ => {}
  got : Nat → List (DMsg (List Trans)) := fun _ => []
  done : Nat → Nat := fun _ => 0
  mailbox : Nat → List CMsg := fun _ => []
  link : Nat → Nat → List CMsg := fun _ _ => []
  crashed : Bool := false

namespace CorrNet

/-- Send a message to another node. -/
def post (s : CorrNet) (i j : Nat) (m : CMsg) : CorrNet :=
  { s with link := Function.update s.link i (Function.update (s.link i) j (s.link i j ++ [m])) }

/-- `start`, `resolve_buffer` and `distribute_segments`, src/training/segmentation/mod.rs lines 101-109, 445-453, 271-288, with
`n ≥ 2` nodes. -/
def distribute (n : Nat) (s : CorrNet) (i : Nat) (f : Nat → List Trans) : CorrNet :=
  let p := (s.dproto i).start (n - 1)
  let (resent, p) := p.resolveBuffer
  { s with
    dproto := Function.update s.dproto i (p.sentN (n - 1))
    mailbox := Function.update s.mailbox i (s.mailbox i ++ resent.map CMsg.segs)
    link := Function.update s.link i (fun j => if j < n ∧ j ≠ i then s.link i j ++ [.segs ⟨i, j, f j⟩] else s.link i j) }

/-- `try_send_inter_node_points`, lines 245-269, without the answer: the message to the previous node. -/
def trySend (n : Nat) (s : CorrNet) (i : Nat) (sendPoint : Option Pt) (sendTransition : Option Trans) : CorrNet :=
  match sendPoint, sendTransition with
  | some pt, some t => s.post i (if i = 0 then n - 1 else i - 1) (.first pt t)
  | _, _ => s

/-- `distribute_or_wait_for_segments`, lines 92-110; `l.forNodes` are the transitions given to it. The last node does not wait. (It
never reads `transitions_for_nodes`, because it gets no first point; here they are set there, too.) -/
def distributeOrWait (p : Parameters) (s : CorrNet) (i : Nat) (l : SegState) : CorrNet :=
  let s := trySend p.nClusterNodes { s with loc := Function.update s.loc i (some { l with sendPoint := none, sendTransition := none }) } i
    l.sendPoint l.sendTransition
  if i ≠ p.nClusterNodes - 1 then s else distribute p.nClusterNodes s i l.forNodes

/-- `clear_segmentation`, lines 352-359; the transitions of the data store are cleared, too (`got` in `correct`). -/
def cleared (l : SegState) : SegState :=
  { l with stored := [], questions := NodeQuestions.clear, sendPoint := none, lastPoint := none, sendTransition := none,
           lastTransition := none }

/-- `get_points`, src/data_store/mod.rs lines 70-72: `add_materialized_transition` (lines 93-98) appends the two points of every
received transition to the points of the node. -/
def points (pts : Nat → List Pt) (s : CorrNet) (i : Nat) : List Pt :=
  pts i ++ ((s.got i).flatMap DMsg.body).flatMap (fun t => [t.src, t.dst])

/-- `try_self_correction` and `finish_self_correction`, lines 323-350; `mir` is the effect of `mirror_points` on a point. -/
def correct (p : Parameters) (pts : Nat → List Pt) (mir : Pt → Pt) (s : CorrNet) (i : Nat) (l : SegState) : CorrNet :=
  if mirrors ⟨s.global i, l.invalid⟩ then
    match SegState.buildSegments p i (cleared l) ((points pts s i).map mir) with
    | none => { s with crashed := true }
    | some l' => distributeOrWait p
        { s with got := Function.update s.got i [], decided := Function.update s.decided i (some true) } i l'
  else distributeOrWait p { s with decided := Function.update s.decided i (some false) } i l

/-- `segment` and `self_correction`, lines 83-90 and 290-316. -/
def enter (p : Parameters) (pts : Nat → List Pt) (s : CorrNet) (i : Nat) : CorrNet :=
  match SegState.buildSegments p i {} (pts i) with
  | none => { s with crashed := true }
  | some l =>
    let n := p.nClusterNodes
    let c := (s.cproto i).start (n - 1)
    let (resent, c) := c.resolveBuffer
    let s := { s with mailbox := Function.update s.mailbox i (s.mailbox i ++ resent.map CMsg.count) }
    let s := s.post i (RingNet.nxt n i) (.count ⟨i, countMsg n l⟩)
    { s with
      cproto := Function.update s.cproto i c.sent
      global := Function.update s.global i (s.global i + transitionCount n l)
      loc := Function.update s.loc i (some l) }

/-- `Handler<TransitionCountMessage>`, lines 362-383. -/
def handleCount (p : Parameters) (pts : Nat → List Pt) (mir : Pt → Pt) (s : CorrNet) (i : Nat) (m : RMsg Count) : CorrNet :=
  match (s.cproto i).received m with
  | (false, c) => { s with cproto := Function.update s.cproto i c }
  | (true, c) =>
    let l := (s.loc i).getD {}
    let l := { l with invalid := l.invalid + m.body.clockwise }
    let s := { s with
      cproto := Function.update s.cproto i c
      global := Function.update s.global i (s.global i + m.body.count)
      loc := Function.update s.loc i (some l) }
    if c.isRunning then
      { s.post i (RingNet.nxt p.nClusterNodes i) (.count m) with cproto := Function.update s.cproto i c.sent }
    else correct p pts mir s i l

/-- `Handler<SendFirstPointMessage>`, lines 385-455. -/
def handleFirst (p : Parameters) (s : CorrNet) (i : Nat) (pt : Pt) (t : Trans) : CorrNet :=
  match s.loc i with
  | none => { s with crashed := true }
  | some l =>
    match l.onFirstPoint p i pt t with
    | none => { s with crashed := true }
    | some l' =>
      distribute p.nClusterNodes { s with loc := Function.update s.loc i (some { l' with forNodes := fun _ => [] }) } i l'.forNodes

/-- `Handler<SegmentMessage>`, lines 457-471. -/
def handleSegs (s : CorrNet) (i : Nat) (m : DMsg (List Trans)) : CorrNet :=
  match (s.dproto i).received m with
  | (false, c) => { s with dproto := Function.update s.dproto i c }
  | (true, c) =>
    { s with
      dproto := Function.update s.dproto i c
      got := Function.update s.got i (s.got i ++ [m])
      done := if c.isRunning then s.done else Function.update s.done i (s.done i + 1) }

/-- The handlers. -/
def handle (p : Parameters) (pts : Nat → List Pt) (mir : Pt → Pt) (s : CorrNet) (i : Nat) : CMsg → CorrNet
  | .count m => handleCount p pts mir s i m
  | .first pt t => handleFirst p s i pt t
  | .segs m => handleSegs s i m

/-- The counts in a list of messages. -/
def counts (l : List CMsg) : List (RMsg Count) := l.filterMap (fun | .count m => some m | _ => none)

/-- One step: a node enters the stage, a message arrives in the mailbox, or the first message of a mailbox is handled.
`benign = true`: only schedules in which no node enters the stage while it has both buffered and waiting counts (see
`RingNet.Step`). `inTime = true`: only schedules in which a node handles the first point of the next node after its own decision.
The code has neither guard. -/
inductive Step (benign inTime : Bool) (p : Parameters) (pts : Nat → List Pt) (mir : Pt → Pt) : CorrNet → CorrNet → Prop
  | enter (s : CorrNet) (i : Nat) (hi : i < p.nClusterNodes) (h : s.loc i = none) (hc : s.crashed = false)
      (hb : benign = true → counts (s.mailbox i) = [] ∨ (s.cproto i).buffer = []) : Step benign inTime p pts mir s (enter p pts s i)
  | arrive (s : CorrNet) (j i : Nat) (m : CMsg) (rest : List CMsg) (hj : j < p.nClusterNodes) (hi : i < p.nClusterNodes)
      (h : s.link j i = m :: rest) (hc : s.crashed = false) :
      Step benign inTime p pts mir s { s with
        link := Function.update s.link j (Function.update (s.link j) i rest)
        mailbox := Function.update s.mailbox i (s.mailbox i ++ [m]) }
  | handle (s : CorrNet) (i : Nat) (m : CMsg) (rest : List CMsg) (hi : i < p.nClusterNodes)
      (h : s.mailbox i = m :: rest) (hc : s.crashed = false)
      (ht : inTime = true → ∀ pt t, m = .first pt t → s.decided i ≠ none) :
      Step benign inTime p pts mir s (handle p pts mir { s with mailbox := Function.update s.mailbox i rest } i m)

/-- Reachable states. -/
inductive Reachable (benign inTime : Bool) (p : Parameters) (pts : Nat → List Pt) (mir : Pt → Pt) : CorrNet → Prop
  | init : Reachable benign inTime p pts mir {}
  | step {s t} : Reachable benign inTime p pts mir s → Step benign inTime p pts mir s t → Reachable benign inTime p pts mir t

/-- The transitions in the data store of node `i`. -/
def store (s : CorrNet) (i : Nat) : List Trans := ((s.loc i).map SegState.stored).getD [] ++ (s.got i).flatMap DMsg.body

end CorrNet
end S2G
