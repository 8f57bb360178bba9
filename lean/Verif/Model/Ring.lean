import Verif.Model.Protocols

/-!
# Model of the ring rotations

The stages `TransitionCountMessage` (src/training/segmentation/mod.rs lines 290-314, 362-383),
`NodeDegrees` and `EdgeWeights` (src/training/scoring/weights.rs lines 118-222) and `SubScores`
(src/training/scoring/mod.rs lines 158-188, 313-335) all use `RotationProtocol` in the same way: a node that
enters the stage calls `start(n-1)`, `resolve_buffer`, sends its own contribution to the next node and calls
`sent()`; the handler of a received contribution adds it to the local state, forwards it to the next node
(followed by `sent()`) while `is_running()`, and otherwise announces completion.

Here we need mailboxes with an order, because which message is forwarded depends on the arrival order.
-/

namespace S2G

/-- A contribution travelling around the ring. `origin` is a ghost field, except for `SubScores` where it
is `cluster_node_id`. -/
structure RMsg (P : Type) where
  origin : Nat
  body : P
  deriving Repr, DecidableEq

/-- State of the cluster during one ring rotation. -/
structure RingNet (P : Type) where
  proto : Nat → Proto (RMsg P)
  /-- ghost: the node has entered the stage -/
  started : Nat → Bool
  /-- contributions added to the local state, in processing order -/
  processed : Nat → List (RMsg P)
  /-- how often completion was announced -/
  done : Nat → Nat
  /-- mailbox of the actor (FIFO) -/
  mailbox : Nat → List (RMsg P)
  /-- network link into node `i` from its predecessor (FIFO) -/
  net : Nat → List (RMsg P)
  /-- ghost: own contribution -/
  pay : Nat → P

namespace RingNet
variable {P : Type}

/-- before any node entered the stage -/
def init (pay : Nat → P) : RingNet P where
  proto := fun _ => {}
  started := fun _ => false
  processed := fun _ => []
  done := fun _ => 0
  mailbox := fun _ => []
  net := fun _ => []
  pay := pay

/-- Index of the next node on the ring (`ClusterNodes::get_next_idx`, see `ClusterNodes.C03_next`). -/
def nxt (k i : Nat) : Nat := (i + 1) % k

/-- Node `i` enters the stage with contribution `b`: src/training/segmentation/mod.rs lines 297-312,
src/training/scoring/weights.rs lines 118-137 and 139-153, src/training/scoring/mod.rs lines 165-182.
The buffered messages are re-sent to the own mailbox, i.e. queued *behind* everything which is already
there. -/
def startStep (k : Nat) (s : RingNet P) (i : Nat) (b : P) : RingNet P :=
  let p := (s.proto i).start (k - 1)
  let (resent, p) := p.resolveBuffer
  { s with
    proto := Function.update s.proto i p.sent
    started := Function.update s.started i true
    mailbox := Function.update s.mailbox i (s.mailbox i ++ resent)
    net := Function.update s.net (nxt k i) (s.net (nxt k i) ++ [⟨i, b⟩])
    pay := Function.update s.pay i b }

/-- The first message on the link into node `i` arrives in its mailbox. -/
def arriveStep (s : RingNet P) (i : Nat) (m : RMsg P) (rest : List (RMsg P)) : RingNet P :=
  { s with
    net := Function.update s.net i rest
    mailbox := Function.update s.mailbox i (s.mailbox i ++ [m]) }

/-- Node `i` handles the first message of its mailbox: src/training/segmentation/mod.rs lines 365-382,
src/training/scoring/weights.rs lines 164-190 and 196-221, src/training/scoring/mod.rs lines 316-334. -/
def handleStep (k : Nat) (s : RingNet P) (i : Nat) (m : RMsg P) (rest : List (RMsg P)) : RingNet P :=
  match (s.proto i).received m with
  | (false, p) =>
    { s with proto := Function.update s.proto i p, mailbox := Function.update s.mailbox i rest }
  | (true, p) =>
    if p.isRunning then
      { s with
        proto := Function.update s.proto i p.sent
        processed := Function.update s.processed i (s.processed i ++ [m])
        mailbox := Function.update s.mailbox i rest
        net := Function.update s.net (nxt k i) (s.net (nxt k i) ++ [m]) }
    else
      { s with
        proto := Function.update s.proto i p
        processed := Function.update s.processed i (s.processed i ++ [m])
        mailbox := Function.update s.mailbox i rest
        done := Function.update s.done i (s.done i + 1) }

/-- One step of a ring of `k` nodes. With `benign = true` a node may only enter the stage when its
mailbox or its buffer is empty, i.e. when re-sending the buffered messages does not reorder them. The code
has no such guard (`benign = false`). -/
inductive Step (benign : Bool) (k : Nat) : RingNet P → RingNet P → Prop
  | start (s : RingNet P) (i : Nat) (b : P) (hi : i < k) (h : s.started i = false)
      (hb : benign = true → s.mailbox i = [] ∨ (s.proto i).buffer = []) :
      Step benign k s (startStep k s i b)
  | arrive (s : RingNet P) (i : Nat) (m : RMsg P) (rest : List (RMsg P)) (hi : i < k)
      (h : s.net i = m :: rest) : Step benign k s (arriveStep s i m rest)
  | handle (s : RingNet P) (i : Nat) (m : RMsg P) (rest : List (RMsg P)) (hi : i < k)
      (h : s.mailbox i = m :: rest) : Step benign k s (handleStep k s i m rest)

/-- Reachable states: arbitrary schedules. -/
inductive Reachable (benign : Bool) (k : Nat) : RingNet P → Prop
  | init (pay) : Reachable benign k (init pay)
  | step {s t} : Reachable benign k s → Step benign k s t → Reachable benign k t

end RingNet
end S2G
