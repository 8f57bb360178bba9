import Verif.Model.PcaTree

/-!
# Model of the exchange of factors and means in the PCA

Two networks which run the reduction of `Verif.Model.PcaTree`, together with the means which every participant sends to
participant 0.

* `HNet`: the threads of one node (helper.rs). Sending puts the message into the mailbox of the receiver at once (actix, same
  process), mailboxes are first-in-first-out.
* `NNet`: the nodes of the cluster (mod.rs). Messages from one node to another arrive in the order in which they were sent, but
  nothing is known about the order of messages from different nodes.

The means of participant `j` are represented by the number `j`.
-/

namespace S2G

/-- `PCAHelperMessage` (without `Components` and `Response`, which helpers do not get), messages.rs. -/
inductive HMsg (M : Type) where
  | setup
  | dec (count : Nat) (r : M)
  | means (j : Nat)

/-- All helpers of a node: `local_r`, `r_count`, `buffer`, `column_means` (with `n`), and the mailboxes. `fin`: factor and means
with which `finalize` was called. -/
structure HNet (M : Type) where
  loc : Nat → Option M := fun _ => none
  c : Nat → Nat := fun _ => 0
  buf : Nat → List (HMsg M) := fun _ => []
  means : Nat → List Nat := fun _ => []
  queue : Nat → List (HMsg M)
  fin : List (M × List Nat) := []

namespace HNet
variable {M : Type}

/-- Put a message into a mailbox. -/
def post (s : HNet M) (d : Nat) (x : HMsg M) : HNet M := { s with queue := Function.update s.queue d (s.queue d ++ [x]) }

/-- Put messages into a mailbox. -/
def postAll (s : HNet M) (d : Nat) (xs : List (HMsg M)) : HNet M :=
  { s with queue := Function.update s.queue d (s.queue d ++ xs) }

/-- One branch of `send_to_neighbor_or_finalize`. -/
def perform (s : HNet M) (i : Nat) : Branch → Option (HNet M)
  | .send d => (s.loc i).map (fun r => s.post d (.dec (s.c i + 1) r))
  | .finalize => (s.loc i).map (fun r => { s with fin := s.fin ++ [(r, s.means i)] })
  | .wait => some s
  | .skip => none

/-- `send_to_neighbor_or_finalize`, helper.rs lines 83-108 (see `TreeNet.sendOrFinalize`). -/
def sendOrFinalize (k : Nat) (s : HNet M) (i : Nat) : Option (HNet M) := do
  let b ← branch k i (s.c i)
  match b with
  | .skip =>
    let s' := { s with c := Function.update s.c i (s.c i + 1) }
    let b' ← branch k i (s'.c i)
    perform s' i b'
  | b => perform s i b

/-- `resolve_buffer`, helper.rs lines 58-62: last in, first out, into the own mailbox. (`means_buffer` is never filled: a
message is buffered there only if there are no means although there is a factor.) -/
def flush (s : HNet M) (i : Nat) : HNet M :=
  { s.postAll i (s.buf i).reverse with buf := Function.update s.buf i [] }

/-- `center_columns_decomposition`, helper.rs lines 36-56. -/
def setup (k : Nat) (init : Nat → M) (s : HNet M) (i : Nat) : Option (HNet M) := do
  let s := { s with loc := Function.update s.loc i (some (init i)), means := Function.update s.means i [i] }
  let s := if i = 0 then s else s.post 0 (.means i)
  let s ← sendOrFinalize k s i
  some (s.flush i)

/-- `Handler<PCAHelperMessage>`, helper.rs lines 156-214. -/
def handle (k : Nat) (init : Nat → M) (comb : M → M → M) (s : HNet M) (i : Nat) : HMsg M → Option (HNet M)
  | .setup => setup k init s i
  | .dec count r =>
    match s.loc i with
    | none => some { s with buf := Function.update s.buf i (s.buf i ++ [.dec count r]) }
    | some l =>
      if count = s.c i + 1 then do
        let s ← sendOrFinalize k { s with
          c := Function.update s.c i count
          loc := Function.update s.loc i (some (comb l r)) } i
        some (s.flush i)
      else some { s with buf := Function.update s.buf i (s.buf i ++ [.dec count r]) }
  | .means j =>
    match s.loc i with
    | none => some { s with buf := Function.update s.buf i (s.buf i ++ [.means j]) }
    | some _ => some { s with means := Function.update s.means i (s.means i ++ [j]) }

/-- The states of all schedules with `k` helpers. Initially every mailbox contains the set-up message: it is sent to the helpers
in ascending order (pca/mod.rs lines 136-144), and a helper only sends to helpers with a smaller number, so that nothing can be
in the mailbox before it. -/
inductive Reachable (k : Nat) (init : Nat → M) (comb : M → M → M) : HNet M → Prop
  | init : Reachable k init comb { queue := fun _ => [.setup] }
  | step {s t i x rest} : Reachable k init comb s → i < k → s.queue i = x :: rest →
      handle k init comb { s with queue := Function.update s.queue i rest } i x = some t → Reachable k init comb t

end HNet

/-- `PCADecompositionMessage` and `PCAMeansMessage`, pca/messages.rs. -/
inductive NMsg (M : Type) where
  | dec (count : Nat) (r : M)
  | means (j : Nat)

/-- All nodes: `phase` 0 before `rotate` (src/training/rotation/mod.rs lines 42-53), 1 after it, 2 when the factor of the own
data is known. `chan i j`: messages from `i` to `j`. -/
structure NNet (M : Type) where
  phase : Nat → Nat := fun _ => 0
  loc : Nat → Option M := fun _ => none
  c : Nat → Nat := fun _ => 0
  buf : Nat → List (Nat × M) := fun _ => []
  mbuf : Nat → List Nat := fun _ => []
  means : Nat → List Nat := fun _ => []
  chan : Nat → Nat → List (NMsg M) := fun _ _ => []
  fin : List (M × List Nat) := []

namespace NNet
variable {M : Type}

/-- Send messages. -/
def post (s : NNet M) (i d : Nat) (xs : List (NMsg M)) : NNet M :=
  { s with chan := Function.update s.chan i (Function.update (s.chan i) d (s.chan i d ++ xs)) }

/-- One branch of `send_to_neighbor_or_finalize`. -/
def perform (s : NNet M) (i : Nat) : Branch → Option (NNet M)
  | .send d => (s.loc i).map (fun r => s.post i d [.dec (s.c i + 1) r])
  | .finalize => (s.loc i).map (fun r => { s with fin := s.fin ++ [(r, s.means i)] })
  | .wait => some s
  | .skip => none

/-- `send_to_neighbor_or_finalize`, pca/mod.rs lines 163-189. -/
def sendOrFinalize (k : Nat) (s : NNet M) (i : Nat) : Option (NNet M) := do
  let b ← branch k i (s.c i)
  match b with
  | .skip =>
    let s' := { s with c := Function.update s.c i (s.c i + 1) }
    let b' ← branch k i (s'.c i)
    perform s' i b'
  | b => perform s i b

/-- `resolve_buffer`, pca/mod.rs lines 78-83. -/
def flush (s : NNet M) (i : Nat) : NNet M :=
  { s.post i i ((s.buf i).reverse.map (fun x => .dec x.1 x.2)) with buf := Function.update s.buf i [] }

/-- `resolve_means_buffer`, pca/mod.rs lines 85-90. -/
def flushMeans (s : NNet M) (i : Nat) : NNet M :=
  { s.post i i ((s.mbuf i).reverse.map .means) with mbuf := Function.update s.mbuf i [] }

/-- `rotate` and `run_pca` up to the decomposition: the state of the PCA is replaced by a new one,
src/training/rotation/mod.rs lines 42-58 (`PCA::new`, `clear`). -/
def enter (s : NNet M) (i : Nat) : NNet M :=
  { s with
    phase := Function.update s.phase i 1
    loc := Function.update s.loc i none
    c := Function.update s.c i 0
    buf := Function.update s.buf i []
    mbuf := Function.update s.mbuf i []
    means := Function.update s.means i [] }

/-- The factor of the own data is known: `center_columns_decomposition`, pca/mod.rs lines 92-114 (`threads = false`, buffers are
not resolved), or `Handler<PCAHelperMessage>`, lines 318-343 (`threads = true`). -/
def ready (k : Nat) (threads : Bool) (init : Nat → M) (s : NNet M) (i : Nat) : Option (NNet M) := do
  let s := { s with
    phase := Function.update s.phase i 2
    loc := Function.update s.loc i (some (init i))
    means := Function.update s.means i [i] }
  let s := if i = 0 then s else s.post i 0 [.means i]
  let s ← sendOrFinalize k s i
  some (if threads then (s.flush i).flushMeans i else s)

/-- `Handler<PCAMeansMessage>` and `Handler<PCADecompositionMessage>`, pca/mod.rs lines 270-307. -/
def handle (k : Nat) (comb : M → M → M) (s : NNet M) (i : Nat) : NMsg M → Option (NNet M)
  | .means j =>
    match s.loc i with
    | some _ => some { s with means := Function.update s.means i (s.means i ++ [j]) }
    | none => some { s with mbuf := Function.update s.mbuf i (s.mbuf i ++ [j]) }
  | .dec count r =>
    match s.loc i with
    | some l =>
      if count = s.c i + 1 then do
        let s ← sendOrFinalize k { s with
          c := Function.update s.c i count
          loc := Function.update s.loc i (some (comb l r)) } i
        some (s.flush i)
      else some { s with buf := Function.update s.buf i (s.buf i ++ [(count, r)]) }
    | none => some { s with buf := Function.update s.buf i (s.buf i ++ [(count, r)]) }

/-- A step of a schedule. With one thread the decomposition is part of the handler which calls `rotate`. -/
inductive Step (k : Nat) (threads : Bool) (init : Nat → M) (comb : M → M → M) : NNet M → NNet M → Prop
  | enter {s i} : threads = true → i < k → s.phase i = 0 → Step k threads init comb s (s.enter i)
  | ready {s t i} : threads = true → i < k → s.phase i = 1 → ready k threads init s i = some t → Step k threads init comb s t
  | both {s t i} : threads = false → i < k → s.phase i = 0 → ready k threads init (s.enter i) i = some t →
      Step k threads init comb s t
  | deliver {s t i j x rest} : s.chan j i = x :: rest →
      handle k comb { s with chan := Function.update s.chan j (Function.update (s.chan j) i rest) } i x = some t →
      Step k threads init comb s t

/-- The states of all schedules. -/
inductive Reachable (k : Nat) (threads : Bool) (init : Nat → M) (comb : M → M → M) : NNet M → Prop
  | init : Reachable k threads init comb {}
  | step {s t} : Reachable k threads init comb s → Step k threads init comb s t → Reachable k threads init comb t

/-- The states of all schedules in which no message is delivered to a node which is not ready. -/
inductive Calm (k : Nat) (threads : Bool) (init : Nat → M) (comb : M → M → M) : NNet M → Prop
  | init : Calm k threads init comb {}
  | enter {s i} : Calm k threads init comb s → threads = true → i < k → s.phase i = 0 → Calm k threads init comb (s.enter i)
  | ready {s t i} : Calm k threads init comb s → threads = true → i < k → s.phase i = 1 →
      ready k threads init s i = some t → Calm k threads init comb t
  | both {s t i} : Calm k threads init comb s → threads = false → i < k → s.phase i = 0 →
      ready k threads init (s.enter i) i = some t → Calm k threads init comb t
  | deliver {s t i j x rest} : Calm k threads init comb s → s.phase i = 2 → s.chan j i = x :: rest →
      handle k comb { s with chan := Function.update s.chan j (Function.update (s.chan j) i rest) } i x = some t →
      Calm k threads init comb t

end NNet
end S2G
