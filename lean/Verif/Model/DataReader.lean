import Mathlib.Data.List.Basic

/-!
# Model of `read_csv` (`src/data_manager/data_reader/mod.rs` lines 31-103)

Rows are an arbitrary type `α` (`Vec<String>`). The number of lines (line 34-38, lines of the file minus header)
is in `readCsv` taken to be the number of records, i.e. the file has a header, no empty lines and no multi-line fields; `readFile` is the
general case.
The receivers are numbered by the position of the iterator (C03).
-/

namespace S2G
namespace DataReader
variable {α : Type}

/-- State of the loop in `read_csv`: lines 52-54. `position` is the position of `receiver_iterator`,
`sent` the list of messages (receiver, rows). -/
structure State (α : Type) where
  buffer : List α := []
  overlapBuffer : List α := []
  position : Nat := 0
  sent : List (Nat × List α) := []
  deriving DecidableEq

/-- `receiver_iterator.next().unwrap().do_send(..)`, lines 71-76 and 94-99; `none` is the panic of `unwrap`
on an exhausted iterator. -/
def sendNext (k : Nat) (s : State α) : Option (State α) :=
  if s.position ≥ k then none
  else some { s with
    sent := s.sent ++ [(s.position, s.buffer ++ s.overlapBuffer)]
    position := s.position + 1 }

/-- Body of the loop, lines 56-92. `k` = number of receivers, `p` = `partition_len`, `overlap` = configured
overlap, `lastOverlap` = line 51. -/
def step (k p overlap lastOverlap : Nat) (s : State α) (r : α) : Option (State α) :=
  let lastPosition := decide (s.position ≥ k)
  if s.buffer.length < p then some { s with buffer := s.buffer ++ [r] }
  else if k > 1 ∧ ((s.overlapBuffer.length < overlap ∧ lastPosition = false) ∨
      (s.overlapBuffer.length < lastOverlap ∧ lastPosition = true)) then
    some { s with overlapBuffer := s.overlapBuffer ++ [r] }
  else do
    let s' ← sendNext k s
    some { s' with buffer := s.overlapBuffer ++ [r], overlapBuffer := [] }

/-- `read_csv`, lines 32-103: messages sent, in order, or `none` for a panic. `overlap` is
`pattern_length - 1` (src/data_manager/mod.rs line 170). -/
def readCsv (k overlap : Nat) (rows : List α) : Option (List (Nat × List α)) := do
  let n := rows.length
  let p := n / k
  let lastOverlap := n - p * k
  let s ← rows.foldlM (step k p overlap lastOverlap) {}
  let s ← sendNext k s
  some s.sent

/-- `read_csv` of a file whose lines after the header line are `lines`; a line without a record is `none`: an empty line (which the CSV
reader skips) or the continuation of a quoted field. All lines are counted, lines 33-38, the records are distributed, line 56. -/
def readFile (k overlap : Nat) (lines : List (Option α)) : Option (List (Nat × List α)) := do
  let n := lines.length
  let p := n / k
  let lastOverlap := n - p * k
  let s ← lines.reduceOption.foldlM (step k p overlap lastOverlap) {}
  let s ← sendNext k s
  some s.sent

end DataReader
end S2G
