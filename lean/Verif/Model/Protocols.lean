import Verif.Model.Parameters
import Mathlib.Logic.Function.Basic
import Mathlib.Data.List.Basic

/-!
# Model of the message protocols

`src/utils/direct_protocol.rs`, `src/utils/rotation_protocol.rs` (identical code) and
`src/utils/helper_protocol.rs`, together with the transition systems in which the stages use them.
-/

namespace S2G

/-- `DirectProtocol<T>` / `RotationProtocol<T>`, src/utils/direct_protocol.rs lines 4-10,
src/utils/rotation_protocol.rs lines 4-10. -/
structure Proto (T : Type) where
  nTotal : Nat := 0
  nReceived : Nat := 0
  nSent : Nat := 0
  buffer : List T := []
  deriving Repr, DecidableEq

namespace Proto
variable {T : Type}

/-- `start`, lines 13-15: only sets the target, keeps the counters. -/
def start (p : Proto T) (nTotal : Nat) : Proto T := { p with nTotal := nTotal }

/-- `is_running`, lines 30-32. -/
def isRunning (p : Proto T) : Bool := p.nReceived < p.nTotal || p.nSent < p.nTotal

/-- `received`, lines 17-24: count the message if running, otherwise buffer it. -/
def received (p : Proto T) (m : T) : Bool × Proto T :=
  if p.isRunning then (true, { p with nReceived := p.nReceived + 1 })
  else (false, { p with buffer := p.buffer ++ [m] })

/-- `sent`, lines 26-28. -/
def sent (p : Proto T) : Proto T := { p with nSent := p.nSent + 1 }

/-- `sent` called `k` times (inside the loop over the peers). -/
def sentN (p : Proto T) : Nat → Proto T
  | 0 => p
  | k + 1 => (p.sentN k).sent

/-- `resolve_buffer`, lines 34-41: the buffered messages are sent again to the own mailbox in the
order in which they were buffered; the buffer is empty afterwards. -/
def resolveBuffer (p : Proto T) : List T × Proto T := (p.buffer, { p with buffer := [] })

end Proto

/-! ## Helper protocol -/

/-- `HelperProtocol`, src/utils/helper_protocol.rs lines 1-6. -/
structure HelperProto where
  nTotal : Nat := 0
  nReceived : Nat := 0
  nSent : Nat := 0
  deriving Repr, DecidableEq

namespace HelperProto

/-- `received`, src/utils/helper_protocol.rs: `n_sent -= 1` panics on underflow. -/
def received (p : HelperProto) : Option HelperProto := do
  let s ← checkedSub p.nSent 1
  some { p with nSent := s, nReceived := p.nReceived + 1 }

/-- `sent`, src/utils/helper_protocol.rs. -/
def sent (p : HelperProto) : HelperProto := { p with nSent := p.nSent + 1 }

/-- `is_running`, src/utils/helper_protocol.rs. -/
def isRunning (p : HelperProto) : Bool := p.nReceived < p.nTotal

end HelperProto

/-! ## Direct exchange: the all-to-all network -/

/-- A message of the direct exchange. `src` is not transmitted by the code, it is a ghost field which
only allows to state who has sent the message. -/
structure DMsg (P : Type) where
  src : Nat
  dst : Nat
  body : P
  deriving Repr, DecidableEq

/-- State of the whole cluster during one direct exchange. The messages in flight and the mailboxes
are one unordered pool, so every delivery order (and more) is covered. -/
structure DirectNet (P : Type) where
  /-- the protocol object of every node -/
  proto : Nat → Proto (DMsg P)
  /-- ghost: the node has entered the stage -/
  started : Nat → Bool
  /-- bodies for which the handler ran past the `received` guard, in processing order -/
  processed : Nat → List (DMsg P)
  /-- how often the node has sent itself the stage-done message -/
  done : Nat → Nat
  /-- messages in flight or in mailboxes -/
  pool : List (DMsg P)
  /-- ghost: what the node has sent to whom -/
  pay : Nat → Nat → P

namespace DirectNet
variable {P : Type}

/-- before any node entered the stage -/
def init (pay : Nat → Nat → P) : DirectNet P where
  proto := fun _ => {}
  started := fun _ => false
  processed := fun _ => []
  done := fun _ => 0
  pool := []
  pay := pay

/-- Receivers of node `i` in a cluster of `n` nodes: all peers (`ClusterNodes::iter`) and, if `incl`,
also the node itself (`ClusterNodes::iter_any_as`). -/
def peers (incl : Bool) (n i : Nat) : List Nat := (List.range n).filter (fun j => incl || j ≠ i)

/-- The `n_total` argument of `start`: `n - 1` (`cluster_nodes.len()`) or `n` (`len_incl_own()`). -/
def total (incl : Bool) (n : Nat) : Nat := if incl then n else n - 1

/-- Node `i` enters the stage with outgoing bodies `f`:
src/training/segmentation/mod.rs lines 101-109 (= 445-453) with `distribute_segments` lines 271-288, and
src/training/intersection_calculation/mod.rs lines 175-184 with `rotate_foreign_assignments` lines 220-246;
src/training/transposition/mod.rs lines 37-42 with `transpose_rotation` lines 78-93;
with `incl = true`: src/training/node_estimation/mod.rs lines 89-121 (asking) and 169-208 (answering).
`start(total)`, `resolve_buffer`, send one message per receiver each followed by `sent()`;
without receivers the stage is done at once. -/
def startStep (incl : Bool) (n : Nat) (s : DirectNet P) (i : Nat) (f : Nat → P) : DirectNet P :=
  let p := (s.proto i).start (total incl n)
  let (resent, p) := p.resolveBuffer
  let out := (peers incl n i).map (fun j => DMsg.mk i j (f j))
  let p := p.sentN out.length
  { s with
    proto := Function.update s.proto i p
    started := Function.update s.started i true
    done := if out.isEmpty then Function.update s.done i (s.done i + 1) else s.done
    pool := s.pool ++ resent ++ out
    pay := Function.update s.pay i f }

/-- Node `m.dst` handles message `m`: src/training/segmentation/mod.rs lines 460-470,
src/training/intersection_calculation/mod.rs lines 311-343,
src/training/transposition/mod.rs lines 104-118, src/training/node_estimation/mod.rs lines 274-310. The rest of the pool is given. -/
def handleStep (s : DirectNet P) (m : DMsg P) (rest : List (DMsg P)) : DirectNet P :=
  let i := m.dst
  match (s.proto i).received m with
  | (false, p) => { s with proto := Function.update s.proto i p, pool := rest }
  | (true, p) =>
    { s with
      proto := Function.update s.proto i p
      processed := Function.update s.processed i (s.processed i ++ [m])
      done := if p.isRunning then s.done else Function.update s.done i (s.done i + 1)
      pool := rest }

/-- One step of the cluster: some node which has not entered the stage enters it, or some message of
the pool is handled. -/
inductive Step (incl : Bool) (n : Nat) : DirectNet P → DirectNet P → Prop
  | start (s : DirectNet P) (i : Nat) (f : Nat → P) (hi : i < n) (h : s.started i = false) :
      Step incl n s (startStep incl n s i f)
  | handle (s : DirectNet P) (pre post : List (DMsg P)) (m : DMsg P)
      (h : s.pool = pre ++ m :: post) :
      Step incl n s (handleStep s m (pre ++ post))

/-- Reachable states: arbitrary schedules. -/
inductive Reachable (incl : Bool) (n : Nat) : DirectNet P → Prop
  | init (pay) : Reachable incl n (init pay)
  | step {s t} : Reachable incl n s → Step incl n s t → Reachable incl n t

/-- Steps of an exchange in which node `i` sends `f i j` to node `j`, whenever it enters the stage. -/
inductive StepWith (incl : Bool) (n : Nat) (f : Nat → Nat → P) : DirectNet P → DirectNet P → Prop
  | start (s : DirectNet P) (i : Nat) (hi : i < n) (h : s.started i = false) :
      StepWith incl n f s (startStep incl n s i (f i))
  | handle (s : DirectNet P) (pre post : List (DMsg P)) (m : DMsg P)
      (h : s.pool = pre ++ m :: post) :
      StepWith incl n f s (handleStep s m (pre ++ post))

/-- Reachable states of the exchange with given contents. -/
inductive ReachableWith (incl : Bool) (n : Nat) (f : Nat → Nat → P) : DirectNet P → Prop
  | init : ReachableWith incl n f (init f)
  | step {s t} : ReachableWith incl n f s → StepWith incl n f s t → ReachableWith incl n f t

end DirectNet
end S2G
