import Verif.Model.Ring
import Verif.Model.SubScores

/-!
# The end of a run on several nodes

The rotation of the scores is the last stage. A node which has the scores of all others writes its output and stops its process
(src/training/scoring/mod.rs lines 199-241, src/training/mod.rs lines 259-279: `System::current().stop()`). The others see that it has left the
cluster (`ClusterLog::MemberLeft`, src/cluster_listener.rs lines 123-128): a node with the role `Sub` then stops its listener and with it its process
(lines 78-80), whatever it is doing; the main node (node 0) does nothing.

A node can only finish when it has the scores of all others, so all nodes are in this stage when the first one stops.
-/

namespace S2G

/-- The ring of the scores and the processes which have ended. -/
structure EndNet (P : Type) where
  ring : RingNet P
  stopped : Nat → Bool := fun _ => false

namespace EndNet
variable {P : Type}

/-- The process of node `i` ends. -/
def stop (s : EndNet P) (i : Nat) : EndNet P := { s with stopped := Function.update s.stopped i true }

/-- One step of `k` nodes. `benign` as in `RingNet.Step`. `lossy`: messages which an ended process had sent, but which have not arrived, can be lost, as
`do_send` to another node only puts them into the queue of an actor of the same process. -/
inductive Step (benign lossy : Bool) (k : Nat) : EndNet P → EndNet P → Prop
  | start (s : EndNet P) (i : Nat) (b : P) (hi : i < k) (hr : s.stopped i = false) (h : s.ring.started i = false)
      (hb : benign = true → s.ring.mailbox i = [] ∨ (s.ring.proto i).buffer = []) :
      Step benign lossy k s { s with ring := RingNet.startStep k s.ring i b }
  | arrive (s : EndNet P) (i : Nat) (m : RMsg P) (rest : List (RMsg P)) (hi : i < k) (hr : s.stopped i = false)
      (h : s.ring.net i = m :: rest) : Step benign lossy k s { s with ring := RingNet.arriveStep s.ring i m rest }
  | handle (s : EndNet P) (i : Nat) (m : RMsg P) (rest : List (RMsg P)) (hi : i < k) (hr : s.stopped i = false)
      (h : s.ring.mailbox i = m :: rest) : Step benign lossy k s { s with ring := RingNet.handleStep k s.ring i m rest }
  /-- `Handler<ScoringDone>`, src/training/mod.rs lines 259-279 -/
  | finish (s : EndNet P) (i : Nat) (hi : i < k) (hr : s.stopped i = false) (h : s.ring.done i = 1) : Step benign lossy k s (s.stop i)
  /-- `ClusterLog::MemberLeft`, src/cluster_listener.rs lines 123-128 -/
  | leave (s : EndNet P) (i j : Nat) (hi : i < k) (h0 : i ≠ 0) (hj : j < k) (hr : s.stopped i = false) (h : s.stopped j = true) :
      Step benign lossy k s (s.stop i)
  | lose (s : EndNet P) (i : Nat) (kept lost : List (RMsg P)) (hl : lossy = true) (hi : i < k) (hr : s.stopped i = true)
      (h : s.ring.net (RingNet.nxt k i) = kept ++ lost) (hne : lost ≠ []) :
      Step benign lossy k s { s with ring := { s.ring with net := Function.update s.ring.net (RingNet.nxt k i) kept } }

/-- The states of all runs. -/
inductive Reachable (benign lossy : Bool) (k : Nat) : EndNet P → Prop
  | init (pay : Nat → P) : Reachable benign lossy k { ring := RingNet.init pay }
  | step {s t : EndNet P} : Reachable benign lossy k s → Step benign lossy k s t → Reachable benign lossy k t

/-- Nothing more can happen. -/
def Over (benign lossy : Bool) (k : Nat) (s : EndNet P) : Prop := ¬ ∃ t, Step benign lossy k s t

end EndNet
end S2G
