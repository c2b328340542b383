import Verif.Model.Batch
import Verif.Model.Sim

/-!
Model of the simulators around the batch optimisers: src/rfspsoslam1dSim.cpp, src/rfspsoorbslam1dSim.cpp, src/rfsceresslam1dSim.cpp, src/rfspsoslam2dSim.cpp and
src/rfsceresslam2dSim.cpp. Line numbers are those of src/rfsceresslam1dSim.cpp unless said otherwise.

Exact real arithmetic; a time stamp is its number of seconds (C01-C03); `drand48()` is a stream read at a position that is passed along, as in `Sim`. `none` is
undefined behaviour, or an unfinished loop where a definition takes fuel. Log files, progress bars and the optimisation itself (Ceres) are left out: the least
squares problem handed to Ceres is modelled by the residual blocks added and the cost they stand for.
-/

namespace RFS
namespace BatchSim
open Batch

/-! ### Trajectory and odometry -/

/-- Settings of the trajectory, lines 118-125. -/
structure TrajCfg where
  nSeg : Nat
  maxDx : ℝ
  minDx : ℝ
  dT : ℝ

/-- The displacement of step `k ≥ 1`, lines 180-197: the input kept from the step before, `seg`, and the position in the random stream. -/
noncomputable def nextInput (c : TrajCfg) (u : Nat → ℝ) (kMax k : Nat) (st : ℝ × Nat × Nat) : Option (ℝ × Nat × Nat) :=
  if c.nSeg = 0 then none
  else if kMax / c.nSeg * st.2.1 ≤ k then some ((u st.2.2 * (c.maxDx - c.minDx) + c.minDx) * c.dT, st.2.1 + 1, st.2.2 + 1)
  else some st

/-- `generateTrajectory` from step `k` on, lines 176-206: `n` steps left, `t` the time, `prev` the last position. The 1-D motion model adds the input to the position
(`Motion.step1d`, C61). Displacements and poses pushed, with their times. -/
noncomputable def trajFrom (c : TrajCfg) (u : Nat → ℝ) (kMax : Nat) : Nat → Nat → ℝ → ℝ → ℝ × Nat × Nat → Option (List (ℝ × ℝ) × List (ℝ × ℝ))
  | 0, _, _, _, _ => some ([], [])
  | n + 1, k, t, prev, st =>
    (nextInput c u kMax k st).bind fun st' =>
      (trajFrom c u kMax n (k + 1) (t + c.dT) (prev + st'.1) st').map fun r => ((t + c.dT, st'.1) :: r.1, (t + c.dT, prev + st'.1) :: r.2)

/-- `generateTrajectory`, lines 157-208: displacement and pose 0 are zero. -/
noncomputable def generateTrajectory (c : TrajCfg) (u : Nat → ℝ) (kMax : Nat) : Option (List (ℝ × ℝ) × List (ℝ × ℝ)) :=
  (trajFrom c u kMax (kMax - 1) 1 0 0 (0, 0, 0)).map fun r => ((0, 0) :: r.1, (0, 0) :: r.2)

/-- The loop of `generateOdometry`, lines 229-247, for any motion model: `noisy k` adds the noise of step `k` to an input, `idx k` is the element of `odometry_` that dead
reckoning uses in step `k`; `odometry_` and `deadReckoning_pose_` so far, the displacements left. -/
def odoFrom {U S : Type} (step : S → U → S) (noisy : Nat → U → U) (idx : Nat → Nat) : Nat → List (ℝ × U) → List (ℝ × S) → List (ℝ × U) →
    Option (List (ℝ × U) × List (ℝ × S))
  | _, odo, dr, [] => some (odo, dr)
  | k, odo, dr, d :: ds =>
    match dr[k - 1]?, (odo ++ [(d.1, noisy k d.2)])[idx k]? with
    | some p, some o => odoFrom step noisy idx (k + 1) (odo ++ [(d.1, noisy k d.2)]) (dr ++ [(d.1, step p.2 o.2)]) ds
    | _, _ => none

/-- `generateOdometry` of the 1-D programs: dead reckoning uses `odometry_[k-1]` (line 243; src/rfspsoslam1dSim.cpp 222, src/rfspsoorbslam1dSim.cpp 225). The standard deviation
of the noise is that of `Q * dt * dt`, lines 234-237. `disp` are the displacements 1, 2, …. -/
noncomputable def generateOdometry1d (vardx dT : ℝ) (w : Nat → ℝ) (disp : List (ℝ × ℝ)) : Option (List (ℝ × ℝ) × List (ℝ × ℝ)) :=
  odoFrom (fun x u => x + u) (fun k u => u + √(vardx * dT * dT) * w k) (fun k => k - 1) 1 [] [(0, 0)] disp

/-- `generateOdometry` of the 2-D programs, src/rfsceresslam2dSim.cpp 309-347 and src/rfspsoslam2dSim.cpp 201-239: the line that pushes a first element (317, 209) is commented out, yet dead
reckoning uses `odometry_[k]` (341, 233). -/
def generateOdometry2d {U S : Type} (step : S → U → S) (noisy : Nat → U → U) (x0 : S) (disp : List (ℝ × U)) : Option (List (ℝ × U) × List (ℝ × S)) :=
  odoFrom step noisy (fun k => k) 1 [] [(0, x0)] disp

/-! ### Landmarks -/

/-- The steps of `generateLandmarks` that create a landmark, lines 260-279: `n` steps from `k` on, `created` so far. The test `k >= (double) kMax_ / nLandmarks_ * nLandmarksCreated` is
evaluated without rounding; without landmarks it compares with NaN and is never met. -/
def lmkSteps (kMax nL : Nat) : Nat → Nat → Nat → List Nat
  | 0, _, _ => []
  | n + 1, k, created =>
    if 0 < nL ∧ kMax * created ≤ k * nL then k :: lmkSteps kMax nL n (k + 1) (created + 1) else lmkSteps kMax nL n (k + 1) created

/-- All of them; `k` runs from 0. -/
def landmarkSteps (kMax nL : Nat) : List Nat := lmkSteps kMax nL kMax 0 0

/-- The same in src/rfspsoorbslam1dSim.cpp 242-260, where the test is `k >= (kMax_* nLandmarksCreated ) / nLandmarks_` with integers. -/
def lmkStepsOrb (kMax nL : Nat) : Nat → Nat → Nat → List Nat
  | 0, _, _ => []
  | n + 1, k, created =>
    if kMax * created / nL ≤ k then k :: lmkStepsOrb kMax nL n (k + 1) (created + 1) else lmkStepsOrb kMax nL n (k + 1) created

/-- All of them; a division by zero is undefined. -/
def landmarkStepsOrb (kMax nL : Nat) : Option (List Nat) := if nL = 0 ∧ 0 < kMax then none else some (lmkStepsOrb kMax nL kMax 0 0)

/-! ### Measurements -/

/-- State of `generateMeasurements` within a step: the measurements with their data association, `lmkFirstObsTime_`, the position in the random stream. -/
structure GenSt where
  out : List (ℝ × Int)
  first : List ℝ
  pos : Nat

/-- One landmark in one step, lines 325-345: `ms.2` is what `sample` returned, `none` if it failed. -/
noncomputable def detect (c : Sim.Cfg) (u : Nat → ℝ) (t : ℝ) (g : GenSt) (ms : Nat × Option ℝ) : GenSt :=
  match ms.2 with
  | none => g
  | some z =>
    if |z| ≤ c.rMax ∧ c.rMin ≤ |z| then
      if u g.pos ≤ c.pd then ⟨g.out ++ [(z, (ms.1 : Int))], if g.first.getD ms.1 0 = -1 then g.first.set ms.1 t else g.first, g.pos + 1⟩
      else { g with pos := g.pos + 1 }
    else g

/-- The false alarms of a step, lines 346-364; `code` is the data association they get (-2 here, -1 in src/rfspsoslam1dSim.cpp 341). -/
noncomputable def clutterLoop (c : Sim.Cfg) (u : Nat → ℝ) (code : Int) (fuel : Nat) : Nat → Nat → Option (List (ℝ × Int) × Nat)
  | 0, pos => some ([], pos)
  | n + 1, pos => (Sim.clutterRange c u fuel pos).bind fun r => (clutterLoop c u code fuel n r.2).map fun l => ((r.1, code) :: l.1, l.2)

/-- One step, lines 319-365. -/
noncomputable def genStep (c : Sim.Cfg) (u : Nat → ℝ) (code : Int) (fuel : Nat) (t : ℝ) (samples : List (Option ℝ)) (first : List ℝ) (pos : Nat) : Option GenSt :=
  let g := ((List.range samples.length).zip samples).foldl (detect c u t) ⟨[], first, pos⟩
  (Sim.nClutter c.mean (u g.pos)).bind fun n => (clutterLoop c u code fuel n (g.pos + 1)).map fun l => ⟨g.out ++ l.1, g.first, l.2⟩

/-- All steps, lines 317-366: `ss` are the samples of each step for each landmark; the clock advances after each step. -/
noncomputable def genAll (c : Sim.Cfg) (u : Nat → ℝ) (code : Int) (fuel : Nat) (dT : ℝ) : List (List (Option ℝ)) → ℝ → List ℝ → Nat → Option (List (ℝ × (ℝ × Int)) × List ℝ)
  | [], _, first, _ => some ([], first)
  | s :: ss, t, first, pos =>
    (genStep c u code fuel t s first pos).bind fun g =>
      (genAll c u code fuel dT ss (t + dT) g.first g.pos).map fun r => (g.out.map (fun z => (t, z)) ++ r.1, r.2)

/-- `generateMeasurements`, lines 286-368. -/
noncomputable def generateMeasurements (c : Sim.Cfg) (u : Nat → ℝ) (code : Int) (fuel : Nat) (dT : ℝ) (nLmk : Nat) (ss : List (List (Option ℝ))) :
    Option (List (ℝ × (ℝ × Int)) × List ℝ) := genAll c u code fuel dT ss 0 (List.replicate nLmk (-1)) 0

/-- `setup`, lines 476-480 (src/rfspsoslam1dSim.cpp 461-462): inputs, then all measurements. -/
noncomputable def handOver (odo : List (ℝ × ℝ)) (ms : List (ℝ × (ℝ × Int))) : Res (TL ℝ (ℝ × Int)) :=
  addMeasurements ms (setInputs 0 (odo.map Prod.fst) ⟨[], [], []⟩)

/-! ### The parameter arrays of `run` -/

section params
variable {K : Type} [Zero K] {P D : Nat}

/-- The array with the elements written, if all are. -/
def written (a : Option (List (Option K))) : Option (List K) := a.bind fun l => l.mapM id

/-- `run`, lines 536-586: `gtparams` is filled with the ground truth and read by `Evaluate` twice; `init` makes `initParams`, after which `landmarks_` is resized to the number of true
landmarks (562); then `initParams` is printed, both arrays are evaluated, twice (the last four calls are like these two). `T` is the length of the trajectory; `Evaluate` reads as many parameters as
`landmarks_` and `trajectory_` ask for. The arrays, if nothing outside is read. -/
def run1d (gt : List (Fin P → K) × List (Fin D → K)) (ini : List (Fin P → K) × List (Fin D → K)) : Option (List K × List K) :=
  (written (initParams gt.1 gt.2)).bind fun gtparams =>
  (readParams P D gt.1.length gt.2.length gtparams).bind fun _ =>
  (written (initParams ini.1 ini.2)).bind fun params =>
  (readParams P D ini.1.length gt.2.length params).bind fun _ =>
  (readParams P D ini.1.length gt.2.length gtparams).map fun _ => (gtparams, params)

/-- `run`, src/rfsceresslam2dSim.cpp 640-694: here `landmarks_` keeps the size that `init` gave it (the line that resizes it, 673, is commented out), and `gtparams` is evaluated with that. -/
def run2d (gt : List (Fin P → K) × List (Fin D → K)) (ini : List (Fin P → K) × List (Fin D → K)) : Option (List K × List K) :=
  (written (initParams gt.1 gt.2)).bind fun gtparams =>
  (readParams P D gt.1.length gt.2.length gtparams).bind fun _ =>
  (written (initParams ini.1 ini.2)).bind fun params =>
  (readParams P D ini.1.length ini.2.length params).bind fun _ =>
  (readParams P D ini.1.length ini.2.length gtparams).map fun _ => (gtparams, params)

end params

/-! ### The least squares problem with known data associations -/

/-- A residual block of `ObsevationError1d`, lines 56-78 and 638-641: positions of the two parameters, observed difference, standard deviation. -/
structure Block where
  a : Nat
  b : Nat
  obs : ℝ
  sd : ℝ

/-- The blocks of the odometry, lines 633-642. -/
noncomputable def odoBlocks (vardx : ℝ) (odo : List ℝ) : List Block := odo.zipIdx.map fun x => ⟨x.2, x.2 + 1, x.1, √vardx⟩

/-- The blocks of the measurements, lines 643-653: those of negative data association are skipped; `T` is `trajectory_.size()`. -/
noncomputable def measBlocks (varzr : ℝ) (T : Nat) (Z : List (List (ℝ × Int))) : List Block :=
  Z.zipIdx.flatMap fun x => x.1.filterMap fun z => if z.2 < 0 then none else some ⟨x.2, T + z.2.toNat, z.1, √varzr⟩

/-- The residual, line 65; `none` if a parameter outside the array is read. -/
noncomputable def residual (params : List ℝ) (r : Block) : Option ℝ :=
  match params[r.a]?, params[r.b]? with
  | some x, some m => some ((m - x - r.obs) / r.sd)
  | _, _ => none

/-- The cost that Ceres minimises (without loss function): half the sum of the squared residuals. -/
noncomputable def cost (params : List ℝ) (bs : List Block) : Option ℝ := (bs.mapM (residual params)).map fun l => (l.map fun r => r ^ 2).sum / 2

/-- The cost of the problem built in lines 626-653: `params` is `0` followed by the parameter vector. -/
noncomputable def daCost (vardx varzr : ℝ) (odo : List ℝ) (Z : List (List (ℝ × Int))) (T : Nat) (ps : List ℝ) : Option ℝ :=
  cost (0 :: ps) (odoBlocks vardx odo ++ measBlocks varzr T Z)

/-! ### Error terms of the 2-D program -/

open Real Matrix

/-- `NormalizeAngle`, src/rfsceresslam2dSim.cpp 56-63. -/
noncomputable def normalizeAngle (a : ℝ) : ℝ := a - 2 * π * ⌊(a + π) / (2 * π)⌋

/-- `RotationMatrix2D`, src/rfsceresslam2dSim.cpp 65-73. -/
noncomputable def rotation (a : ℝ) : Matrix (Fin 2) (Fin 2) ℝ := !![cos a, -sin a; sin a, cos a]

/-- `PoseGraph2dErrorTerm`, src/rfsceresslam2dSim.cpp 75-101: poses `a`, `b`, the odometry `u`, the square root of the information matrix. -/
noncomputable def poseError (W : Matrix (Fin 3) (Fin 3) ℝ) (u a b : Fin 3 → ℝ) : Fin 3 → ℝ :=
  let p := (rotation (a 2))ᵀ *ᵥ ![b 0 - a 0, b 1 - a 1]
  W *ᵥ ![p 0 - u 0, p 1 - u 1, normalizeAngle ((b 2 - a 2) - u 2)]

/-- `Observation2dErrorTerm`, src/rfsceresslam2dSim.cpp 123-149: pose `a`, landmark `m`, measured range and bearing `z`. -/
noncomputable def obsError (W : Matrix (Fin 2) (Fin 2) ℝ) (z : Fin 2 → ℝ) (a : Fin 3 → ℝ) (m : Fin 2 → ℝ) : Fin 2 → ℝ :=
  W *ᵥ ![√((a 0 - m 0) * (a 0 - m 0) + (a 1 - m 1) * (a 1 - m 1)) - z 0, normalizeAngle (Meas.atan2 (m 1 - a 1) (m 0 - a 0) - a 2 - z 1)]

/-- The square root of the information matrix given to the terms, src/rfsceresslam2dSim.cpp 746 and 759. -/
noncomputable def infoSqrt {n : Nat} (v : Fin n → ℝ) : Matrix (Fin n) (Fin n) ℝ := Matrix.diagonal fun i => 1 / √(v i)

end BatchSim
end RFS
