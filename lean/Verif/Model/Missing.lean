import Verif.Model.NanRun

/-!
# Runs on a series with missing values

`f32::from_str` reads `NaN` (src/data_manager/data_reader/mod.rs lines 119-127; an empty cell is an error), and NumPy arrays and matrices
handed to the library may contain it. Here a float is a real number or NaN, written `⊤` in `WithTop ℝ`, whose addition absorbs. What the
linear algebra library makes of NaN is left open (it is a parameter, as in `Model/Whole.lean`; if it fails the run delivers nothing), and
so are the reference data set and the rotation matrices. There are no infinities.
-/

namespace S2G
namespace Missing
noncomputable section

/-- A float: a number or NaN. -/
abbrev Fl := WithTop ℝ

/-- Multiplication and subtraction: NaN if an operand is NaN. -/
def mul (x y : Fl) : Fl := Option.map₂ (· * ·) x y
def sub (x y : Fl) : Fl := Option.map₂ (· - ·) x y

/-- Division by a number of rows. -/
def divBy (x : Fl) (n : ℝ) : Fl := Option.map (· / n) x

/-- The square root of a number of rows times a float. -/
def scale (n : ℝ) (x : Fl) : Fl := Option.map (Real.sqrt n * ·) x

/-- A row. -/
abbrev Row (d : Nat) := Fin d → Fl

variable {d e w : Nat}

/-- As `Pca.Summary`. -/
structure Summary (d : Nat) where
  means : Row d
  n : ℝ
  r : List (Row d)

/-- `mean_axis(Axis(0))`, as `Pca.colMeans`. -/
def colMeans (data : List (Row d)) : Row d := fun a => divBy (data.map (· a)).sum data.length

/-- `center_columns_decomposition`, pca/mod.rs lines 92-110, helper.rs lines 36-48. -/
def localStep (qr : List (Row d) → List (Row d)) (data : List (Row d)) : Summary d :=
  { means := colMeans data
    n := data.length
    r := qr (data.map (fun x a => sub (x a) (colMeans data a))) }

/-- `combine_remote_r`, pca/mod.rs lines 191-203, helper.rs lines 110-122. -/
def combine (qr : List (Row d) → List (Row d)) (a b : List (Row d)) : List (Row d) := qr (a ++ b)

/-- `global_means`, pca/mod.rs lines 206-211, helper.rs lines 125-130. -/
def globalMeans (ms : List (Row d × ℝ)) : Row d :=
  fun a => divBy (ms.map (fun x => mul (x.2 : ℝ) (x.1 a))).sum (ms.map Prod.snd).sum

/-- `finalize` up to the factor, pca/mod.rs lines 205-224, helper.rs lines 124-148. -/
def finalize (qr : List (Row d) → List (Row d)) (ms : List (Row d × ℝ)) (r : List (Row d)) : Summary d :=
  { means := globalMeans ms
    n := (ms.map Prod.snd).sum
    r := qr (ms.map (fun x => fun a => scale x.2 (sub (x.1 a) (globalMeans ms a))) ++ r) }

open Classical in
/-- `normalize` of one component, pca/mod.rs lines 235-249; `NaN >= 0.0` is false. -/
def normalizeRow (v : Row (d + 1)) : Row (d + 1) := if ∃ x : ℝ, v 0 = x ∧ 0 ≤ x then v else fun a => mul (v a) (-1 : ℝ)

/-- The routines of the linear algebra library, with three singular vectors. -/
structure Lib (w : Nat) where
  qr : List (Row (w + 1)) → List (Row (w + 1))
  svd : List (Row (w + 1)) → Option (Fin 3 → Row (w + 1))

/-- Column `m` of the phase space, src/training/rotation/mod.rs lines 57-63. -/
def column (a : List (List (Fin (e + 1) → Fl))) (m : Fin (e + 1)) : List (Row (w + 1)) := a.map (fun row j => row.getD j 0 m)

/-- As `Whole.Summarised`. -/
def Summarised (lib : Lib w) (threads : Nat) (data : List (Row (w + 1))) (x : Summary (w + 1)) : Prop :=
  if threads ≤ 1 then x = localStep lib.qr data
  else ∃ chunks s f, pcaChunks data threads = some chunks ∧ chunks.length = threads ∧
    HNet.Reachable threads (fun i => (localStep lib.qr (chunks.getD i [])).r) (combine lib.qr) s ∧ f ∈ s.fin ∧
    x = finalize lib.qr (f.2.map (fun i => ((localStep lib.qr (chunks.getD i [])).means, (localStep lib.qr (chunks.getD i [])).n))) f.1

/-- As `Whole.PcaOf`. -/
def PcaOf (lib : Lib w) (threads : Nat) (data : List (Row (w + 1))) (comps : Fin 3 → Row (w + 1)) (means : Row (w + 1)) : Prop :=
  data ≠ [] ∧ ∃ x vs, Summarised lib threads data x ∧ lib.svd (finalize lib.qr [(x.means, x.n)] x.r).r = some vs ∧
    comps = (fun i => normalizeRow (vs i)) ∧ means = (finalize lib.qr [(x.means, x.n)] x.r).means

/-- One row of `reduce`, src/training/rotation/mod.rs lines 68-129. -/
def reduced (comps : Fin 3 → Row d) (means : Row d) (x : Row d) : Fin 3 → Fl :=
  fun i => ((List.finRange d).map (fun a => mul (sub (x a) (means a)) (comps i a))).sum

/-- One coordinate of a rotated row, `b.dot(&a.t())`, src/training/rotation/mod.rs lines 206-210. -/
def rotate (R : Fin 3 → Fin 3 → Fl) (x : Fin 3 → Fl) (c : Fin 3) : Fl := ((List.finRange 3).map (fun k => mul (x k) (R c k))).sum

/-- `Points.coordinates`, src/training/rotation/mod.rs lines 205-229; NaN as in `Whole.segmentN`. -/
def coordinates {d : Nat} (R : Fin d → Fin 3 → Fin 3 → Fl) (row : Fin d → Fin 3 → Fl) : List (Option ℝ) :=
  [(0 : Fin 3), 1].flatMap (fun c => (List.finRange d).map (fun m => rotate (R m) (row m) c))

/-- The coordinates of all points, as `Whole.CoordsN`. -/
def Coords (lib : Lib w) (p : Parameters) (series : List (Fin (e + 1) → Fl)) (R : Fin (e + 1) → Fin 3 → Fin 3 → Fl)
    (cs : List (List (Option ℝ))) : Prop :=
  ∃ (ps : List (List (Fin (e + 1) → Fl))) (comps : Fin (e + 1) → Fin 3 → Row (w + 1)) (means : Fin (e + 1) → Row (w + 1)),
    checkedSub p.patternLength p.latent = some (w + 1) ∧ PhaseSpace.build p series = some ps ∧
    (∀ m, PcaOf lib p.nThreads (column ps m) (comps m) (means m)) ∧
    cs = (List.range ps.length).map (fun i => coordinates R (fun m => reduced (comps m) (means m) ((column ps m).getD i 0)))

/-- A run on the series can deliver the vector, as `Whole.DeliversN`. -/
def Delivers {X : Type} (lib : Lib w) (clu : List X → Option (List Nat)) (coord : Inter → X) (p : Parameters) (series : List (Fin (e + 1) → Fl))
    (R : Fin (e + 1) → Fin 3 → Fin 3 → Fl) (v : Option (List (Option ℚ))) : Prop :=
  ∃ cs pts mirrored s0 s, Coords lib p series R cs ∧ Whole.pointsN p.rate cs = some pts ∧
    Whole.pointsN p.rate (cs.map Whole.mirrorN) = some mirrored ∧
    Pipeline.localRun clu coord (fun a => (mirrored.find? (fun x => x.id = a.id)).getD a) p series.length pts = some s0 ∧
    ParScore.Reachable s0 s ∧ v ∈ Pipeline.delivered s

end
end Missing
end S2G
