import Verif.Model.Scoring
import Verif.Model.Protocols

/-!
# Model of the parallel computation of the scores, `src/training/scoring/mod.rs`

The helpers run in their own threads, so their answers arrive in any order. An answer which cannot be appended yet is put into
a map and sent again later.
-/

namespace S2G

/-- `ScoringHelperResponse`, src/training/scoring/messages.rs. -/
structure ScoreResp where
  start : Nat
  scores : List ℚ
  firstEmpty : Bool
  deriving DecidableEq

/-- State of one node. -/
structure ParScore where
  /-- `single_scores` -/
  scores : List ℚ := []
  /-- `first_empty` -/
  firstEmpty : Bool := false
  /-- `helper_buffer` -/
  buffer : Nat → Option ScoreResp := fun _ => none
  proto : HelperProto
  /-- answers on their way, in any order -/
  pool : List ScoreResp
  /-- what `finalize_parallel_score` was called with, see lines 158-162 and 174, 185 -/
  final : List (List ℚ × Bool) := []

namespace ParScore

/-- `parallel_score`, lines 134-156: start and length of the instructions (`none`: division by zero). -/
def chunks (scoreLength threads : Nat) : Option (List (Nat × Nat)) := do
  let n ← checkedDiv scoreLength threads
  let rest ← checkedMod scoreLength threads
  some ((List.range threads).map (fun i => (i * n, n + if i = threads - 1 then rest else 0)))

/-- The state after `score`, lines 81-108, when all helpers have answered; `run start length` is the helper. -/
def init (run : Nat → Nat → Option (List ℚ × Bool)) (scoreLength threads : Nat) : Option ParScore := do
  let cs ← chunks scoreLength threads
  let rs ← cs.mapM (fun c => (run c.1 c.2).map (fun r => (⟨c.1, r.1, r.2⟩ : ScoreResp)))
  some { proto := { nTotal := threads, nSent := threads }, pool := rs }

/-- The scores of an answer after filling up, and the new `first_empty`, lines 268-276. -/
def fill (scores : List ℚ) (firstEmpty : Bool) (m : ScoreResp) : List ℚ × Bool :=
  if m.firstEmpty then
    match scores.getLast? with
    | some last => (Scoring.fillUp last m.scores, firstEmpty)
    | none => (m.scores, true)
  else (m.scores, firstEmpty)

/-- Handler of `ScoringHelperResponse`, lines 258-294 (`none`: `received` underflows). -/
def handle (s : ParScore) (m : ScoreResp) : Option ParScore :=
  if m.start ≠ s.scores.length then some { s with buffer := Function.update s.buffer m.start (some m) }
  else do
    let proto ← s.proto.received
    let f := fill s.scores s.firstEmpty m
    let all := s.scores ++ f.1
    if !proto.isRunning then
      some { s with proto := proto, firstEmpty := f.2, scores := [], final := s.final ++ [(all, f.2)] }
    else
      match s.buffer all.length with
      | none => some { s with proto := proto, firstEmpty := f.2, scores := all }
      | some m' => some { s with proto := proto, firstEmpty := f.2, scores := all,
                                 buffer := Function.update s.buffer all.length none, pool := s.pool ++ [m'] }

/-- One step: any answer which is on its way is handled. -/
inductive Step : ParScore → ParScore → Prop
  | handle (s : ParScore) (pre post : List ScoreResp) (m : ScoreResp) (h : s.pool = pre ++ m :: post) {t : ParScore}
      (ht : handle { s with pool := pre ++ post } m = some t) : Step s t

/-- Reachable states. -/
inductive Reachable (s0 : ParScore) : ParScore → Prop
  | init : Reachable s0 s0
  | step {s t} : Reachable s0 s → Step s t → Reachable s0 t

end ParScore
end S2G
