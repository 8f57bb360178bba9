import Verif.Model.PcaNet

/-!
# Model of the rotation stage over all dimensions

`src/training/rotation/mod.rs` with the PCA between the nodes (`src/training/rotation/pca/mod.rs`) for a series of `d` dimensions:
the dimensions are reduced one after the other, each with its own PCA, in the same fields; the messages do not say which dimension
they belong to. In the model factors and means carry the number of the dimension they were computed from, which no handler reads.
Messages between two nodes arrive in the order in which they were sent; a node's messages to itself are a channel, too.
-/

namespace S2G

/-- Messages of the stage: `PCADecompositionMessage`, `PCAMeansMessage`, `PCAComponents`, `PCADoneMessage`
(pca/messages.rs), `RotationMatrixMessage` (rotation/messages.rs). The components are represented by the factor and the means
`finalize` computes them from; the means of node `j` in dimension `dim` by `(dim, j)`. -/
inductive StageMsg (M R : Type) where
  | dec (dim count : Nat) (r : M)
  | means (dim j : Nat)
  | comps (x : M × List (Nat × Nat))
  | done
  | rot (m : R)

/-- All nodes. `n`: `n_reduced`; `data`: the dimension whose rows are in `pca.data`; `phase`: 0 before `rotate`, 1 while the
helpers compute the factor of the own data, 2 when it is known; `comps`: `pca.components` (with `pca.global_means`) as set by
`PCAComponents`; `reduced`: for each dimension, the components it was reduced with; `applied`: matrices with which
`apply_rotation_matrix` was called (each time followed by a `RotationDoneMessage`); `fin`: factors and means with which `finalize`
was called. -/
structure RotNet (M R : Type) where
  n : Nat → Nat := fun _ => 0
  data : Nat → Nat := fun _ => 0
  phase : Nat → Nat := fun _ => 0
  loc : Nat → Option M := fun _ => none
  c : Nat → Nat := fun _ => 0
  buf : Nat → List (Nat × Nat × M) := fun _ => []
  mbuf : Nat → List (Nat × Nat) := fun _ => []
  means : Nat → List (Nat × Nat) := fun _ => []
  comps : Nat → Option (M × List (Nat × Nat)) := fun _ => none
  reduced : Nat → Nat → Option (M × List (Nat × Nat)) := fun _ _ => none
  broadcasted : Nat → Bool := fun _ => false
  rbuf : Nat → Option R := fun _ => none
  applied : Nat → List R := fun _ => []
  chan : Nat → Nat → List (StageMsg M R) := fun _ _ => []
  fin : List (M × List (Nat × Nat)) := []

namespace RotNet
variable {M R : Type}

/-- Send messages. -/
def post (s : RotNet M R) (i b : Nat) (xs : List (StageMsg M R)) : RotNet M R :=
  { s with chan := Function.update s.chan i (Function.update (s.chan i) b (s.chan i b ++ xs)) }

/-- Send a message to every node of the cluster, the own one included. -/
def postAll (k : Nat) (s : RotNet M R) (i : Nat) (x : StageMsg M R) : RotNet M R :=
  { s with chan := Function.update s.chan i (fun b => if b < k then s.chan i b ++ [x] else s.chan i b) }

/-- One branch of `send_to_neighbor_or_finalize`; `finalize` ends with `share_principal_components`, pca/mod.rs lines 251-267. -/
def perform (k : Nat) (s : RotNet M R) (i : Nat) : Branch → Option (RotNet M R)
  | .send b => (s.loc i).map (fun r => s.post i b [.dec (s.data i) (s.c i + 1) r])
  | .finalize => (s.loc i).map (fun r => { s.postAll k i (.comps (r, s.means i)) with fin := s.fin ++ [(r, s.means i)] })
  | .wait => some s
  | .skip => none

/-- `send_to_neighbor_or_finalize`, pca/mod.rs lines 163-189. -/
def sendOrFinalize (k : Nat) (s : RotNet M R) (i : Nat) : Option (RotNet M R) := do
  let b ← branch k i (s.c i)
  match b with
  | .skip =>
    let s' := { s with c := Function.update s.c i (s.c i + 1) }
    let b' ← branch k i (s'.c i)
    perform k s' i b'
  | b => perform k s i b

/-- `resolve_buffer`, pca/mod.rs lines 78-83. -/
def flush (s : RotNet M R) (i : Nat) : RotNet M R :=
  { s.post i i ((s.buf i).reverse.map (fun x => .dec x.1 x.2.1 x.2.2)) with buf := Function.update s.buf i [] }

/-- `resolve_means_buffer`, pca/mod.rs lines 85-90. -/
def flushMeans (s : RotNet M R) (i : Nat) : RotNet M R :=
  { s.post i i ((s.mbuf i).reverse.map (fun x => .means x.1 x.2)) with mbuf := Function.update s.mbuf i [] }

/-- The factor of the own data is known: `center_columns_decomposition`, pca/mod.rs lines 92-114 (`threads = false`), or
`Handler<PCAHelperMessage>`, lines 320-342 (`threads = true`). `init dim i`: factor of the rows of dimension `dim` on node `i`. -/
def ready (k : Nat) (threads : Bool) (init : Nat → Nat → M) (s : RotNet M R) (i : Nat) : Option (RotNet M R) := do
  let s := { s with
    phase := Function.update s.phase i 2
    loc := Function.update s.loc i (some (init (s.data i) i))
    means := Function.update s.means i [(s.data i, i)] }
  let s := if i = 0 then s else s.post i 0 [.means (s.data i) i]
  let s ← sendOrFinalize k s i
  some (if threads then (s.flush i).flushMeans i else s)

/-- `PCA::clear`, pca/mod.rs lines 48-50, and the new data, rotation/mod.rs lines 57-63. -/
def clear (s : RotNet M R) (i : Nat) : RotNet M R :=
  { s with
    data := Function.update s.data i (s.n i)
    phase := Function.update s.phase i 1
    loc := Function.update s.loc i none
    c := Function.update s.c i 0
    buf := Function.update s.buf i []
    mbuf := Function.update s.mbuf i []
    means := Function.update s.means i []
    comps := Function.update s.comps i none }

/-- `run_pca`, rotation/mod.rs lines 55-66. -/
def runPca (k : Nat) (threads : Bool) (init : Nat → Nat → M) (s : RotNet M R) (i : Nat) : Option (RotNet M R) := do
  let t ← if threads then some (s.clear i) else ready k threads init (s.clear i) i
  some { t with n := Function.update t.n i (t.n i + 1) }

/-- `reduce`, rotation/mod.rs lines 68-129: the slot `n_reduced - 1` is filled. `none`: no components. -/
def reduce (s : RotNet M R) (i : Nat) : Option (RotNet M R) :=
  (s.comps i).map (fun x => { s with reduced := Function.update s.reduced i (Function.update (s.reduced i) (s.n i - 1) (some x)) })

/-- `broadcast_rotation_matrix`, rotation/mod.rs lines 191-203; `rotm` is `get_rotation_matrix`, which reads the reduced
reference data of all dimensions (the main node is node 0). -/
def broadcast (k : Nat) (rotm : (Nat → Option (M × List (Nat × Nat))) → R) (s : RotNet M R) (i : Nat) : RotNet M R :=
  let s := if i = 0 then s.postAll k i (.rot (rotm (s.reduced i))) else s
  match s.rbuf i with
  | some m => { s.post i i [.rot m] with rbuf := Function.update s.rbuf i none }
  | none => s

/-- The handlers, pca/mod.rs lines 270-318 and rotation/mod.rs lines 248-275; `d` is `phase_space.shape()[2]`. `none`: panic. -/
def handle (k d : Nat) (threads : Bool) (init : Nat → Nat → M) (comb : M → M → M) (rotm : (Nat → Option (M × List (Nat × Nat))) → R)
    (s : RotNet M R) (i : Nat) : StageMsg M R → Option (RotNet M R)
  | .means dim j =>
    match s.loc i with
    | some _ => some { s with means := Function.update s.means i (s.means i ++ [(dim, j)]) }
    | none => some { s with mbuf := Function.update s.mbuf i (s.mbuf i ++ [(dim, j)]) }
  | .dec dim count r =>
    match s.loc i with
    | some l =>
      if count = s.c i + 1 then do
        let s ← sendOrFinalize k { s with
          c := Function.update s.c i count
          loc := Function.update s.loc i (some (comb l r)) } i
        some (s.flush i)
      else some { s with buf := Function.update s.buf i (s.buf i ++ [(dim, count, r)]) }
    | none => some { s with buf := Function.update s.buf i (s.buf i ++ [(dim, count, r)]) }
  | .comps x => some ({ s with comps := Function.update s.comps i (some x) }.post i i [.done])
  | .done =>
    if s.phase i = 0 then none
    else do
      let t ← reduce s i
      if s.n i < d then runPca k threads init t i
      else
        let t := broadcast k rotm t i
        some { t with broadcasted := Function.update t.broadcasted i true }
  | .rot m =>
    if s.broadcasted i then some { s with applied := Function.update s.applied i (s.applied i ++ [m]) }
    else some { s with rbuf := Function.update s.rbuf i (some m) }

/-- A step of a schedule: a node enters the stage (`rotate`, rotation/mod.rs lines 42-53, up to the end of `run_pca`), its helpers
answer, or a message is handled. `ok s i x`: restriction of the schedules. -/
inductive Step (k d : Nat) (threads : Bool) (init : Nat → Nat → M) (comb : M → M → M)
    (rotm : (Nat → Option (M × List (Nat × Nat))) → R) (ok : RotNet M R → Nat → StageMsg M R → Prop) : RotNet M R → RotNet M R → Prop
  | enter {s t i} : i < k → s.phase i = 0 → runPca k threads init s i = some t → Step k d threads init comb rotm ok s t
  | ready {s t i} : threads = true → i < k → s.phase i = 1 → ready k threads init s i = some t →
      Step k d threads init comb rotm ok s t
  | deliver {s t i j x rest} : j < k → i < k → s.chan j i = x :: rest → ok s i x →
      handle k d threads init comb rotm { s with chan := Function.update s.chan j (Function.update (s.chan j) i rest) } i x = some t →
      Step k d threads init comb rotm ok s t

/-- The states of all schedules with the restriction. -/
inductive Reachable (k d : Nat) (threads : Bool) (init : Nat → Nat → M) (comb : M → M → M)
    (rotm : (Nat → Option (M × List (Nat × Nat))) → R) (ok : RotNet M R → Nat → StageMsg M R → Prop) : RotNet M R → Prop
  | init : Reachable k d threads init comb rotm ok {}
  | step {s t} : Reachable k d threads init comb rotm ok s → Step k d threads init comb rotm ok s t →
      Reachable k d threads init comb rotm ok t

/-- No factor and no means are handled by a node which has not computed its own factor of the same dimension yet. -/
def NotEarly (s : RotNet M R) (i : Nat) : StageMsg M R → Prop
  | .dec dim _ _ => s.phase i ≠ 0 ∧ (dim < s.data i ∨ (dim = s.data i ∧ s.phase i = 2))
  | .means dim _ => s.phase i ≠ 0 ∧ (dim < s.data i ∨ (dim = s.data i ∧ s.phase i = 2))
  | _ => True

/-- Factors and means are only handled by a node which is busy with the same dimension and has computed its own factor. -/
def InTime (s : RotNet M R) (i : Nat) : StageMsg M R → Prop
  | .dec dim _ _ => dim = s.data i ∧ s.phase i = 2
  | .means dim _ => dim = s.data i ∧ s.phase i = 2
  | _ => True

end RotNet
end S2G
