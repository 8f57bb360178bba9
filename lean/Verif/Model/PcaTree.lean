import Mathlib.Data.Nat.Log
import Mathlib.Logic.Function.Basic

/-!
# Model of the reduction of the PCA factors

`src/training/rotation/pca/mod.rs` (between nodes) and `src/training/rotation/pca/helper.rs` (between the threads of a node) use
the same scheme: participant `i` sends its triangular factor to `i - threshold`, where the threshold is halved in each round.
Here only the factors are modelled (the means: `Verif.Model.PcaNet`). A factor is a value of any type `M`, combining two of them
is any function `comb`. Messages in flight form a pool from which any may be delivered next.
-/

namespace S2G

/-- `next_2_power`, pca/mod.rs lines 158-161, helper.rs lines 78-81: `2^ceil(log2 k)`. The logarithm in f32 is taken to be
exact (the number of participants is small). -/
def nextPow (k : Nat) : Nat := 2 ^ Nat.clog 2 k

/-- The branches of `send_to_neighbor_or_finalize`. -/
inductive Branch where
  | send (to : Nat)
  | skip
  | finalize
  | wait
  deriving DecidableEq, Repr

/-- Which branch is taken, pca/mod.rs lines 163-189, helper.rs lines 83-108; `none`: no participant with this id (panic). -/
def branch (k i c : Nat) : Option Branch :=
  let t := nextPow k / 2 ^ (c + 1)
  if t ≤ i ∧ 0 < i then
    if i - t < k ∧ i - t ≠ i then some (.send (i - t)) else none
  else if c = 0 ∧ k ≤ i + t then some .skip
  else if i = 0 ∧ t = 0 then some .finalize
  else some .wait

/-- All participants and the messages between them. `loc` is `local_r`, `c` is `r_count`, `buf` is `buffer`; a message in the
pool is (receiver, `count`, `r`). `fin` are the factors with which `finalize` was called. -/
structure TreeNet (M : Type) where
  loc : Nat → Option M := fun _ => none
  c : Nat → Nat := fun _ => 0
  buf : Nat → List (Nat × M) := fun _ => []
  pool : List (Nat × Nat × M) := []
  fin : List M := []

namespace TreeNet
variable {M : Type}

/-- One branch (except for the one with the recursive call). -/
def perform (s : TreeNet M) (i : Nat) : Branch → Option (TreeNet M)
  | .send d => (s.loc i).map (fun r => { s with pool := s.pool ++ [(d, s.c i + 1, r)] })
  | .finalize => (s.loc i).map (fun r => { s with fin := s.fin ++ [r] })
  | .wait => some s
  | .skip => none

/-- `send_to_neighbor_or_finalize`, pca/mod.rs lines 163-189, helper.rs lines 83-108. The recursive call is done with
`r_count = 1`, so there is not a second one (`perform` returns `none` for it). -/
def sendOrFinalize (k : Nat) (s : TreeNet M) (i : Nat) : Option (TreeNet M) := do
  let b ← branch k i (s.c i)
  match b with
  | .skip =>
    let s' := { s with c := Function.update s.c i (s.c i + 1) }
    let b' ← branch k i (s'.c i)
    perform s' i b'
  | b => perform s i b

/-- `resolve_buffer`, pca/mod.rs lines 78-83, helper.rs lines 58-62: the last message of the buffer is re-sent first. -/
def flush (s : TreeNet M) (i : Nat) : TreeNet M :=
  { s with
    pool := s.pool ++ (s.buf i).reverse.map (fun x => (i, x.1, x.2))
    buf := Function.update s.buf i [] }

/-- The local factor is computed: helper.rs lines 36-56, pca/mod.rs lines 318-343. -/
def startStep (k : Nat) (init : Nat → M) (s : TreeNet M) (i : Nat) : Option (TreeNet M) := do
  let s ← sendOrFinalize k { s with loc := Function.update s.loc i (some (init i)) } i
  some (s.flush i)

/-- A factor arrives: pca/mod.rs lines 191-203 and 295-307, helper.rs lines 110-122 and 166-182. -/
def handleStep (k : Nat) (comb : M → M → M) (s : TreeNet M) (i : Nat) (x : Nat × M) : Option (TreeNet M) :=
  match s.loc i with
  | some l =>
    if x.1 = s.c i + 1 then do
      let s ← sendOrFinalize k { s with
        c := Function.update s.c i x.1
        loc := Function.update s.loc i (some (comb l x.2)) } i
      some (s.flush i)
    else some { s with buf := Function.update s.buf i (s.buf i ++ [x]) }
  | none => some { s with buf := Function.update s.buf i (s.buf i ++ [x]) }

/-- The states of all schedules with `k` participants, of which the first `ns` get their data (helper.rs: one chunk of data
per helper, if there are enough chunks; pca/mod.rs: all nodes). -/
inductive Reachable (k ns : Nat) (init : Nat → M) (comb : M → M → M) : TreeNet M → Prop
  | init : Reachable k ns init comb {}
  | start {s t i} : Reachable k ns init comb s → i < ns → s.loc i = none → startStep k init s i = some t →
      Reachable k ns init comb t
  | deliver {s t pre post i x} : Reachable k ns init comb s → s.pool = pre ++ (i, x) :: post →
      handleStep k comb { s with pool := pre ++ post } i x = some t → Reachable k ns init comb t

end TreeNet

/-! ### Chunks of rows -/

/-- `num_integer::div_ceil`. -/
def divCeil (n t : Nat) : Nat := (n + t - 1) / t

/-- The chunks handed to the helpers, `helper_center_columns_decomposition`, pca/mod.rs lines 116-145: `axis_chunks_iter` with
chunk size `div_ceil(rows, n_threads)`, zipped with the helpers. `none`: no rows (chunk size 0, panic) or no helpers. -/
def pcaChunks {α : Type} (rows : List α) (t : Nat) : Option (List (List α)) :=
  if t = 0 ∨ rows = [] then none
  else
    let cs := divCeil rows.length t
    some (((List.range (divCeil rows.length cs)).map (fun j => (rows.drop (j * cs)).take cs)).take t)

end S2G
