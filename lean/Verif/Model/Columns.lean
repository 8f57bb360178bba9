import Verif.Model.Parameters
import Mathlib.Data.List.Basic

/-!
# Model of the column selection in the handler of `DataPartitionMessage`
(`src/data_manager/mod.rs` lines 194-223 and `src/utils/itertools.rs` lines 6-52)

Cells are an arbitrary type `α` (`String`), `parse : α → Option β` is `f32::from_str`.
-/

namespace S2G
namespace Columns
variable {α β : Type}

/-- `isize as usize` on a 64 bit machine: wraps modulo 2^64. -/
def asUsize (i : Int) : Nat := (i % (2 ^ 64 : Int)).toNat

/-- lines 195-199: `until_column`. `none` is the index panic of `msg.data[0]`. -/
def untilColumn (columnEnd : Int) (data : List (List α)) : Option Nat :=
  if columnEnd = 0 then data[0]?.map List.length
  else if columnEnd > 0 then some columnEnd.toNat
  else data[0]?.map (fun r => asUsize ((r.length : Int) + columnEnd))

/-- `FromTo` iterator, src/utils/itertools.rs lines 18-35: skip `from`, enumerate, stop at the first element with
`index + from >= to`. -/
def fromTo (src : List α) (start stop : Nat) : List α :=
  go start stop 0 (src.drop start)
where
  go (start stop : Nat) : Nat → List α → List α
  | _, [] => []
  | i, x :: xs => if i + start < stop then x :: go start stop (i + 1) xs else []

/-- `into_shape([r, c])` for a row-major array. -/
def intoShape (r c : Nat) (flat : List β) : Option (List (List β)) :=
  if flat.length = r * c then some ((List.range r).map (fun i => (flat.drop (i * c)).take c)) else none

/-- lines 194-220: the data array from a partition message. `none` is a panic (index, underflow of line 201,
`unwrap` of the parse, `expect` of `into_shape`). -/
def selectColumns (parse : α → Option β) (columnStart : Nat) (columnEnd : Int)
    (data : List (List α)) : Option (List (List β)) := do
  let nRows := data.length
  let until_ ← untilColumn columnEnd data
  let nColumns ← checkedSub until_ columnStart
  let flat ← (data.map (fun rec => fromTo rec columnStart until_)).mapM (fun r => r.mapM parse)
  intoShape nRows nColumns flat.flatten

end Columns
end S2G
