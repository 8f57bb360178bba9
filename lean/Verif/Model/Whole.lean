import Verif.Model.PcaNet
import Verif.Model.Pca
import Verif.Model.Points
import Verif.Model.Geometry
import Verif.Model.Kde
import Verif.Model.Pipeline

/-!
# The whole run on one node, from the series to the delivered scores

`Training::fit` without peers (src/training/mod.rs lines 114-117, 144-287, src/data_manager/mod.rs lines 226-232, 262-272): data
statistics, reference data set, phase space, one PCA per dimension, rotation, points, and then the stages of `Model/Pipeline.lean`
with the clustering of `Model/Kde.lean` and the coordinates of `Model/Geometry.lean`. All numbers are real up to the edges.

The series has `e + 1` columns, and the windows have `w + 1` entries (`pattern_length - latent`). The routines of LAPACK are
parameters. The steps whose outcome may depend on the schedule of threads (PCA with helpers, scoring) are relations.
-/

namespace S2G
namespace Whole
noncomputable section

open Pca Rotation Points

variable {e w : Nat}

/-- The routines of the linear algebra library: `qr` (the triangular factor) and the first three right singular vectors of `svd`
(src/training/rotation/pca/mod.rs lines 225-229; `none`: there are fewer than three). -/
structure Lib (w : Nat) where
  qr : List (Row (w + 1)) → List (Row (w + 1))
  svd : List (Row (w + 1)) → Option (List (Row (w + 1)))

/-- Column `m` of an array of shape `[rows, w + 1, columns]`, `slice(s![.., .., m])`, src/training/rotation/mod.rs lines 57-63. -/
def column (a : List (List (Fin (e + 1) → ℝ))) (m : Fin (e + 1)) : List (Row (w + 1)) :=
  a.map (fun row j => row.getD j 0 m)

/-- What `Training` knows of the rows of one dimension before it finalises: with one thread `center_columns_decomposition`
(src/training/rotation/pca/mod.rs lines 92-114), otherwise the answer of the helpers in some schedule (lines 116-145, 320-330). -/
def Summarised (lib : Lib w) (threads : Nat) (data : List (Row (w + 1))) (x : Summary (w + 1)) : Prop :=
  if threads ≤ 1 then x = localStep lib.qr data
  else ∃ chunks s f, pcaChunks data threads = some chunks ∧ chunks.length = threads ∧
    HNet.Reachable threads (fun i => (localStep lib.qr (chunks.getD i [])).r) (combine lib.qr) s ∧ f ∈ s.fin ∧
    x = finalize lib.qr (f.2.map (fun i => ((localStep lib.qr (chunks.getD i [])).means, (localStep lib.qr (chunks.getD i [])).n))) f.1

/-- The components and the means of one dimension: `finalize` and `normalize`, src/training/rotation/pca/mod.rs lines 205-249, on
the only node. Without rows there is no mean (`unwrap` of `mean_axis`). -/
def PcaOf (lib : Lib w) (threads : Nat) (data : List (Row (w + 1))) (comps : List (Row (w + 1))) (means : Row (w + 1)) : Prop :=
  data ≠ [] ∧ ∃ x vs, Summarised lib threads data x ∧ lib.svd (finalize lib.qr [(x.means, x.n)] x.r).r = some vs ∧ comps = normalize vs ∧
    means = (finalize lib.qr [(x.means, x.n)] x.r).means

/-- One row of `reduce`, src/training/rotation/mod.rs lines 68-129, as a vector. -/
def reduced (comps : List (Row (w + 1))) (means : Row (w + 1)) (x : Row (w + 1)) : Vec := fun i => (reduceRow comps means x).getD i 0

/-- `min_col` and `max_col` of the only node; for values below the largest float the fold of `min_axis` is the minimum
(`Model/Stats.lean`). `none`: no rows. -/
def columnMin (series : List (Fin (e + 1) → ℝ)) (m : Fin (e + 1)) : Option ℝ := Kde.colMin (series.map (· m))

def columnMax (series : List (Fin (e + 1) → ℝ)) (m : Fin (e + 1)) : Option ℝ := Kde.colMax (series.map (· m))

/-- The rotated points of a series: the stages from the data to `apply_rotation_matrix`. -/
def PointsOf (lib : Lib w) (p : Parameters) (series : List (Fin (e + 1) → ℝ)) (pts : List Point) : Prop :=
  ∃ (lo hi : Fin (e + 1) → ℝ) (ps ref : List (List (Fin (e + 1) → ℝ))) (comps : Fin (e + 1) → List (Row (w + 1)))
    (means : Fin (e + 1) → Row (w + 1)) (first : List (Fin (e + 1) → ℝ)) (R : Fin (e + 1) → Matrix (Fin 3) (Fin 3) ℝ),
    (∀ m, columnMin series m = some (lo m) ∧ columnMax series m = some (hi m)) ∧
    checkedSub p.patternLength p.latent = some (w + 1) ∧
    PhaseSpace.referenceDataset p lo hi = some ref ∧ PhaseSpace.build p series = some ps ∧
    (∀ m, PcaOf lib p.nThreads (column ps m) (comps m) (means m)) ∧ ref.head? = some first ∧
    (∀ m, rotationMatrix (reduced (comps m) (means m) (fun j => first.getD j 0 m)) = some (R m)) ∧
    applyRotation R ((List.range ps.length).map (fun i m => reduced (comps m) (means m) ((column ps m).getD i 0))) series.length 1 0
      p.rate = some pts

/-- `Point::mirror`, src/data_store/point.rs lines 53-58; `none`: `% 0`. -/
def mirrorPoint (rate : Nat) (x : Point) : Option Point :=
  match x.coordinates with
  | [] => none
  | c :: cs => newPoint x.id (c * (-1) :: cs) rate

/-- Id and segment of a point. -/
def toPt (x : Point) : Pt := ⟨x.id, x.segment⟩

/-- Coordinates of the point with an id. -/
def coordsOf (pts : List Point) (id : Nat) : List ℝ := ((pts.find? (fun x => x.id = id)).map Point.coordinates).getD []

/-- A vector from a list of coordinates. -/
def vec (n : Nat) (l : List ℝ) : Fin n → ℝ := fun i => l.getD i 0

/-- End points of a step. -/
def ends (pts : List Point) (t : Trans) : (Fin (2 * e + 2) → ℝ) × (Fin (2 * e + 2) → ℝ) :=
  (vec _ (coordsOf pts t.src.id), vec _ (coordsOf pts t.dst.id))

/-- The coordinates of an intersection, src/training/intersection_calculation/mod.rs lines 59-173 and helper.rs lines 16-35; `ts` are
the transitions of the data store. `none`: `intersection error`. -/
def interCoord (e : Nat) (pts : List Point) (ts : List Trans) (rate : Nat) (x : Inter) : Option (List ℝ) :=
  (Geometry.intersectionPoint (m := 2 * e) (ts.map (ends pts)) rate (ends pts x.1) x.2).map (fun y =>
    List.ofFn (Geometry.distances (d := e + 1) (fun i => y (Fin.cast (by omega) i))))

/-- The mirrored point with the same id. -/
def mirrorPt (mirrored : List Point) (a : Pt) : Pt := ((mirrored.find? (fun x => x.id = a.id)).map toPt).getD a

/-- The points from the segmentation on: if self correction mirrors (`Pipeline.segment`), the mirrored ones,
src/training/segmentation/mod.rs lines 323-353. -/
def effectivePoints (p : Parameters) (mirrored pts : List Point) : Option (List Point) := do
  let s ← SegState.buildSegments p 0 {} (pts.map toPt)
  some (if p.selfCorrection && SelfCorrection.mirrors (SelfCorrection.localCount s) then mirrored else pts)

/-- The clustering of src/training/node_estimation/mod.rs, `Model/Kde.lean`. -/
def clustering (resolution order : Nat) (p : Parameters) (e : Nat) (data : List (List ℝ)) : Option (List Nat) :=
  (Kde.cluster p.nThreads resolution order (e + 1) data).map Prod.fst

/-- The stages from the segmentation to the instructions for the scoring: `Pipeline.localRun` with the coordinates of the
intersections, of which all have to exist. -/
def scoreWith (resolution order : Nat) (p : Parameters) (e len : Nat) (mirror : Pt → Pt) (pts : List Pt) (eff : List Point)
    (stored : List Trans) : Option ParScore :=
  if (intersectionTasks p.rate stored).all (fun x => (interCoord e eff stored p.rate x).isSome) then
    Pipeline.localRun (clustering resolution order p e) (fun x => (interCoord e eff stored p.rate x).getD []) mirror p len pts
  else none

/-- The stages from the points to the instructions for the scoring. `none`: panic. -/
def score (resolution order : Nat) (p : Parameters) (e len : Nat) (pts : List Point) : Option ParScore := do
  let mirrored ← pts.mapM (mirrorPoint p.rate)
  let eff ← effectivePoints p mirrored pts
  let t ← Pipeline.segment p (mirrorPt mirrored) (pts.map toPt)
  scoreWith resolution order p e len (mirrorPt mirrored) (pts.map toPt) eff t.stored

/-- A run on the series can deliver the vector. `resolution` and `order` are the constants of the clustering. -/
def Delivers (lib : Lib w) (resolution order : Nat) (p : Parameters) (series : List (Fin (e + 1) → ℝ))
    (v : Option (List (Option ℚ))) : Prop :=
  ∃ pts s0 s, PointsOf lib p series pts ∧ score resolution order p e series.length pts = some s0 ∧ ParScore.Reachable s0 s ∧
    v ∈ Pipeline.delivered s

end
end Whole
end S2G
