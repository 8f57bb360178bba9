import Verif.Model.Joint

/-!
# One run of the whole cluster from the rotation on, with overlapping stages

`Training` (src/training/mod.rs lines 155-279): the rotation of `Model/RotNet.lean` in front of the run of `Model/Joint.lean`. A node begins with
the segmentation as soon as *it* has rotated its points (`RotationDoneMessage`, src/training/rotation/mod.rs lines 205-246), whatever the other
nodes are doing.
-/

namespace S2G
namespace Joint
noncomputable section

open Pca Rotation Whole Points Cluster Stage

/-- The rotation (`Model/RotNet.lean`) in schedules in which nobody is early. A node has no input but what it has loaded, which is in `init` and
`rotm`; it is done when it has applied a matrix, and the results are the components of its dimensions and this matrix. -/
def rotation {M R : Type} (k d : Nat) (threads : Bool) (init : Nat → Nat → M) (comb : M → M → M)
    (rotm : (Nat → Option (M × List (Nat × Nat))) → R) : Stage Unit ((Nat → Option (M × List (Nat × Nat))) × R) where
  S := RotNet M R
  init := {}
  started s i := decide (s.phase i ≠ 0)
  start s i _ t := i < k ∧ s.phase i = 0 ∧ RotNet.runPca k threads init s i = some t
  step s t := (∃ i, threads = true ∧ i < k ∧ s.phase i = 1 ∧ RotNet.ready k threads init s i = some t) ∨
    ∃ i j x rest, j < k ∧ i < k ∧ s.chan j i = x :: rest ∧ RotNet.NotEarly s i x ∧
      RotNet.handle k d threads init comb rotm { s with chan := Function.update s.chan j (Function.update (s.chan j) i rest) } i x = some t
  out s i := match s.applied i with
    | [m] => if i < k then some (s.reduced i, m) else none
    | _ => none

variable {e w : Nat}

/-- `apply_rotation_matrix`, src/training/rotation/mod.rs lines 205-246, on node `i`, as a function of the results of the rotation. -/
def nodePoints (lib : Lib w) (p : Parameters) (n : Nat) (ps : Nat → List (List (Fin (e + 1) → ℝ))) (xs : Nat → Nat → Summary (w + 1)) (i : Nat)
    (y : (Nat → Option (List (Row (w + 1)) × List (Nat × Nat))) × Option (Fin (e + 1) → Matrix (Fin 3) (Fin 3) ℝ)) : Option (List Point) :=
  y.2.bind fun R =>
    if h : ∀ m : Fin (e + 1), ((y.1 m).bind (resultOf lib xs)).isSome then
      applyRotation R ((List.range (ps i).length).map (fun r m => reduced (((y.1 m).bind (resultOf lib xs)).get (h m)).1
        (((y.1 m).bind (resultOf lib xs)).get (h m)).2 ((column (ps i) m).getD r 0))) n p.nClusterNodes i p.rate
    else none

/-- The rotation of a cluster which has loaded its data (`Cluster.Loaded`); the results are the points of the nodes. -/
abbrev rotating (lib : Lib w) (p : Parameters) (first : List (Fin (e + 1) → ℝ)) (xs : Nat → Nat → Summary (w + 1)) :
    Stage Unit ((Nat → Option (List (Row (w + 1)) × List (Nat × Nat))) × Option (Fin (e + 1) → Matrix (Fin 3) (Fin 3) ℝ)) :=
  rotation p.nClusterNodes (e + 1) (decide (1 < p.nThreads)) (fun m i => (xs i m).r) (combine lib.qr) (matrices lib xs first)

/-- From the loaded data of every node to its map of scores, src/training/mod.rs lines 155-279; the other parameters are those of `Joint.run`. -/
def training (lib : Lib w) (resolution order : Nat) (p : Parameters) (series : List (Fin (e + 1) → ℝ)) (n : Nat) (first : List (Fin (e + 1) → ℝ))
    (ps : Nat → List (List (Fin (e + 1) → ℝ))) (xs : Nat → Nat → Summary (w + 1)) (pts mirrored eff : Nat → List Point) :
    Stage Unit (Nat → Option (List ℚ × Bool)) :=
  comp (rotating lib p first xs) (nodePoints lib p n ps xs)
    (run e (clustering resolution order p e) p series.length (fun i => (pts i).length) mirrored eff)

/-- A node has crashed in the segmentation without self correction (`Model/Segmentation.lean`). -/
def crashed (p : Parameters) (mirrored : Nat → List Point) (s : (segmentation p mirrored).S) : Prop :=
  ∃ h : segmentation p mirrored = plain p, SegNet.crashed (cast (congrArg Stage.S h) s) = true

/-- What the parameters of the run are: `pts i`, `mirrored i` and `eff i` are the points of node `i` after its rotation, mirrored, and after its
segmentation. -/
structure Consistent (lib : Lib w) (resolution order : Nat) (p : Parameters) (series : List (Fin (e + 1) → ℝ)) (n : Nat)
    (first : List (Fin (e + 1) → ℝ)) (ps : Nat → List (List (Fin (e + 1) → ℝ))) (xs : Nat → Nat → Summary (w + 1))
    (pts mirrored eff : Nat → List Point) (s : (training lib resolution order p series n first ps xs pts mirrored eff).S) : Prop where
  points : ∀ i y q, (rotating lib p first xs).out s.1 i = some y → nodePoints lib p n ps xs i y = some q → pts i = q
  mirror : p.selfCorrection → ∀ i < p.nClusterNodes, (pts i).mapM (mirrorPoint p.rate) = some (mirrored i)
  effective : ∀ i y, (segmentation p mirrored).out s.2.1 i = some y → eff i = if y.2.2 then mirrored i else pts i

/-- A run in which the stages from the rotation on overlap can deliver vector `v` on node `i`; compare `Joint.Delivers`, where all nodes have
rotated before the segmentation begins. -/
def TrainingDelivers (lib : Lib w) (resolution order : Nat) (p : Parameters) (series : List (Fin (e + 1) → ℝ)) (i : Nat)
    (v : Option (List (Option ℚ))) : Prop :=
  ∃ parts n first ps xs, Loaded lib p series parts n first ps xs ∧ ∃ pts mirrored eff s,
    (training lib resolution order p series n first ps xs pts mirrored eff).Run (fun _ => ()) s ∧
      Consistent lib resolution order p series n first ps xs pts mirrored eff s ∧
      ∃ r, (training lib resolution order p series n first ps xs pts mirrored eff).out s i = some r ∧ v = SubScores.finalize p.nClusterNodes r

end
end Joint
end S2G
