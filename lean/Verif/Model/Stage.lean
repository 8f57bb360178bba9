import Verif.Model.Protocols
import Verif.Model.Ring

/-!
# Stages of a run which overlap

`Training` (src/training/mod.rs lines 155-289) is one actor on every node, and all stages are handlers of this actor. A node enters the next
stage as soon as *it* has finished the stage before (it sends the message `...Done` to itself); the other nodes may still be in an
earlier stage, and messages of a later stage may arrive early. Here a stage is a transition system of the whole cluster in which every node
has its own input and its own result, and `comp` runs two stages at the same time.
-/

namespace S2G

/-- A stage of the cluster: every node enters it once with an input and has a result when it is done. -/
structure Stage (I O : Type) where
  S : Type
  init : S
  /-- the node has entered the stage -/
  started : S → Nat → Bool
  /-- a node enters the stage with an input -/
  start : S → Nat → I → S → Prop
  /-- a message is handled -/
  step : S → S → Prop
  /-- the result of a node which is done -/
  out : S → Nat → Option O

namespace Stage
variable {I O J Q C : Type}

/-- States which are reached when node `i` enters the stage with `f i`, whenever it does. -/
inductive Run (A : Stage I O) (f : Nat → I) : A.S → Prop
  | init : Run A f A.init
  | start {s t : A.S} {i : Nat} : Run A f s → A.start s i (f i) t → Run A f t
  | step {s t : A.S} : Run A f s → A.step s t → Run A f t

/-- Two stages one after the other, e.g. the handlers of `IntersectionCalculationDone` and `NodeEstimationDone`, src/training/mod.rs
lines 205-231. Node `i` enters the second stage at any time after *it* has finished the first one; what happens between the two is `glue`
(`none`: it panics). The messages of both stages are handled in any order. -/
def comp (A : Stage I O) (glue : Nat → O → Option J) (B : Stage J Q) : Stage I Q where
  S := A.S × B.S
  init := (A.init, B.init)
  started s := A.started s.1
  start s i x t := ∃ a, A.start s.1 i x a ∧ t = (a, s.2)
  step s t := (∃ a, A.step s.1 a ∧ t = (a, s.2)) ∨ (∃ b, B.step s.2 b ∧ t = (s.1, b)) ∨
    ∃ i y z b, A.out s.1 i = some y ∧ glue i y = some z ∧ B.start s.2 i z b ∧ t = (s.1, b)
  out s := B.out s.2

/-- A stage in which every node keeps something for later (a field of `Training` which the stage does not touch). -/
def carry (C : Type) (A : Stage I O) : Stage (I × C) (O × C) where
  S := A.S × (Nat → Option C)
  init := (A.init, fun _ => none)
  started s := A.started s.1
  start s i x t := ∃ a, A.start s.1 i x.1 a ∧ t = (a, Function.update s.2 i (some x.2))
  step s t := ∃ a, A.step s.1 a ∧ t = (a, s.2)
  out s i := (A.out s.1 i).bind (fun y => (s.2 i).map (fun c => (y, c)))

/-- Two stages which a node enters at the same time; it is done when both are done. -/
def both (A : Stage I O) (B : Stage J Q) : Stage (I × J) (O × Q) where
  S := A.S × B.S
  init := (A.init, B.init)
  started s := A.started s.1
  start s i x t := ∃ a b, A.start s.1 i x.1 a ∧ B.start s.2 i x.2 b ∧ t = (a, b)
  step s t := (∃ a, A.step s.1 a ∧ t = (a, s.2)) ∨ ∃ b, B.step s.2 b ∧ t = (s.1, b)
  out s i := (A.out s.1 i).bind (fun y => (B.out s.2 i).map (fun z => (y, z)))

/-- A stage which is an exchange of messages between all nodes (`DirectProtocol`): `prep` is what the node does first, `body l j` the
message to node `j`, `result` what it has afterwards. -/
def direct {L P : Type} (n : Nat) (prep : Nat → I → Option L) (body : L → Nat → P) (result : Nat → L → List (DMsg P) → O)
    (pay : Nat → Nat → P) : Stage I O where
  S := (Nat → Option L) × DirectNet P
  init := (fun _ => none, DirectNet.init pay)
  started s := s.2.started
  start s i x t := i < n ∧ s.2.started i = false ∧ ∃ l, prep i x = some l ∧
    t = (Function.update s.1 i (some l), DirectNet.startStep false n s.2 i (body l))
  step s t := ∃ pre m post, s.2.pool = pre ++ m :: post ∧ t = (s.1, DirectNet.handleStep s.2 m (pre ++ post))
  out s i := if i < n ∧ s.2.done i = 1 then (s.1 i).map (fun l => result i l (s.2.processed i)) else none

/-- A stage which is a ring rotation (`RotationProtocol`), in schedules without the race of C18. -/
def ring {P : Type} (n : Nat) (pay : Nat → P) (result : P → List (RMsg P) → Nat → O) : Stage P O where
  S := RingNet P
  init := RingNet.init pay
  started s := s.started
  start s i b t := i < n ∧ s.started i = false ∧ (s.mailbox i = [] ∨ (s.proto i).buffer = []) ∧ t = RingNet.startStep n s i b
  step s t := (∃ i m rest, i < n ∧ s.net i = m :: rest ∧ t = RingNet.arriveStep s i m rest) ∨
    ∃ i m rest, i < n ∧ s.mailbox i = m :: rest ∧ t = RingNet.handleStep n s i m rest
  out s i := if i < n ∧ s.done i = 1 then some (result (s.pay i) (s.processed i) i) else none

end Stage
end S2G
