import Verif.Model.Weights

/-!
# Model of the initialisation of the scoring, `src/training/scoring/{mod,weights}.rs`

Two ring rotations run side by side, one for the node degrees and one for the edge weights. The handler which finds that
neither is running sends `ScoreInitDone`. The mailbox is split by message type; the relative order of messages of
different types is free, so the model has more schedules than the code.
-/

namespace S2G

/-- State of the cluster during the initialisation. -/
structure ScoreInit where
  deg : RingNet (Counts NodeKey)
  wei : RingNet (Counts EdgeKey)
  /-- how often `ScoreInitDone` was sent -/
  ready : Nat → Nat

namespace ScoreInit

/-- before any node entered the stage -/
def init (d : Nat → Counts NodeKey) (w : Nat → Counts EdgeKey) : ScoreInit :=
  ⟨RingNet.init d, RingNet.init w, fun _ => 0⟩

/-- The handler gets to the `else` branch: the message is accepted and the rotation is not running afterwards,
src/training/scoring/weights.rs lines 165, 182 and 198, 213. -/
def last {P : Type} (s : RingNet P) (i : Nat) (m : RMsg P) : Bool :=
  let r := (s.proto i).received m
  r.1 && !r.2.isRunning

/-- `init_scoring` with several nodes, src/training/scoring/mod.rs lines 72-74. -/
def startStep (k : Nat) (s : ScoreInit) (i : Nat) (d : Counts NodeKey) (w : Counts EdgeKey) : ScoreInit :=
  { s with deg := RingNet.startStep k s.deg i d, wei := RingNet.startStep k s.wei i w }

/-- Handler of `NodeDegrees`, src/training/scoring/weights.rs lines 161-191. -/
def handleDeg (k : Nat) (s : ScoreInit) (i : Nat) (m : RMsg (Counts NodeKey)) (rest : List (RMsg (Counts NodeKey))) :
    ScoreInit :=
  let t := { s with deg := RingNet.handleStep k s.deg i m rest }
  if last s.deg i m && !((t.deg.proto i).isRunning || (t.wei.proto i).isRunning) then
    { t with ready := Function.update s.ready i (s.ready i + 1) }
  else t

/-- Handler of `EdgeWeights`, src/training/scoring/weights.rs lines 193-222. -/
def handleWei (k : Nat) (s : ScoreInit) (i : Nat) (m : RMsg (Counts EdgeKey)) (rest : List (RMsg (Counts EdgeKey))) :
    ScoreInit :=
  let t := { s with wei := RingNet.handleStep k s.wei i m rest }
  if last s.wei i m && !((t.deg.proto i).isRunning || (t.wei.proto i).isRunning) then
    { t with ready := Function.update s.ready i (s.ready i + 1) }
  else t

/-- One step of `k` nodes. -/
inductive Step (k : Nat) : ScoreInit → ScoreInit → Prop
  | start (s : ScoreInit) (i : Nat) (d w) (hi : i < k) (hd : s.deg.started i = false) (hw : s.wei.started i = false) :
      Step k s (startStep k s i d w)
  | arriveDeg (s : ScoreInit) (i : Nat) (m rest) (hi : i < k) (h : s.deg.net i = m :: rest) :
      Step k s { s with deg := RingNet.arriveStep s.deg i m rest }
  | arriveWei (s : ScoreInit) (i : Nat) (m rest) (hi : i < k) (h : s.wei.net i = m :: rest) :
      Step k s { s with wei := RingNet.arriveStep s.wei i m rest }
  | handleDeg (s : ScoreInit) (i : Nat) (m rest) (hi : i < k) (h : s.deg.mailbox i = m :: rest) :
      Step k s (handleDeg k s i m rest)
  | handleWei (s : ScoreInit) (i : Nat) (m rest) (hi : i < k) (h : s.wei.mailbox i = m :: rest) :
      Step k s (handleWei k s i m rest)

/-- Reachable states: arbitrary schedules. -/
inductive Reachable (k : Nat) : ScoreInit → Prop
  | init (d w) : Reachable k (init d w)
  | step {s t} : Reachable k s → Step k s t → Reachable k t

end ScoreInit
end S2G
