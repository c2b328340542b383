import Verif.Model.Sim

/-!
Model of the simulator in space, src/rbphdslam6dSim.cpp.

Exact real arithmetic; `drand48()` is a stream of reals read at a position that is passed along, as in `Verif/Model/Sim.lean`, whose table of false alarm numbers
(`nClutter`), landmark steps (`landmarkSteps`) and dispatch of measurements (`runFrom`) are the same code in this program (src/rbphdslam6dSim.cpp 361-373 and 411-415,
320-345, 699-707). `none` is undefined behaviour or an unfinished loop. Poses, displacements and odometry have seven components `x, y, z, qx, qy, qz, qw`.
Logging, the graphical display and timing are left out.
-/

namespace RFS
namespace Sim6D
open Real Matrix TimeStamp Motion

/-! ### Trajectory -/

/-- Settings of the trajectory: the greatest and the least speed ahead, and the greatest change of every other component. -/
structure TrajCfg where
  nSeg : Nat
  maxDx : ℝ
  minDx : ℝ
  maxDy : ℝ
  maxDz : ℝ
  maxQx : ℝ
  maxQy : ℝ
  maxQz : ℝ
  maxQw : ℝ
  dT : ℝ

/-- The first three components of an input. -/
def posOf (d : Fin 7 → ℝ) : Fin 3 → ℝ := ![d 0, d 1, d 2]

/-- The last four. -/
def rotOf (d : Fin 7 → ℝ) : Fin 4 → ℝ := ![d 3, d 4, d 5, d 6]

/-- The input drawn at the start of a segment, src/rbphdslam6dSim.cpp 232-244. -/
def drawInput (c : TrajCfg) (u : Nat → ℝ) (pos : Nat) : Fin 7 → ℝ :=
  ![u pos * (c.maxDx - c.minDx) * c.dT + c.minDx * c.dT,
    (u (pos + 1) * c.maxDy * 2 - c.maxDy) * c.dT,
    (u (pos + 2) * c.maxDz * 2 - c.maxDz) * c.dT,
    (u (pos + 3) * c.maxQx * 2 - c.maxQx) * c.dT,
    (u (pos + 4) * c.maxQy * 2 - c.maxQy) * c.dT,
    (u (pos + 5) * c.maxQz * 2 - c.maxQz) * c.dT,
    1 + (u (pos + 6) * c.maxQw * 2 - c.maxQw) * c.dT]

/-- The displacement of step `k`, src/rbphdslam6dSim.cpp 216-250: the input kept from the step before, `seg`, and the position in the random stream. -/
def nextInput (c : TrajCfg) (u : Nat → ℝ) (kMax k : Nat) (st : (Fin 7 → ℝ) × Nat × Nat) : Option ((Fin 7 → ℝ) × Nat × Nat) :=
  if k ≤ 50 then some (![0, 0, 0, 0, 0, 0, 1], st.2)
  else if c.nSeg = 0 then none
  else if kMax / c.nSeg * st.2.1 ≤ k then some (drawInput c u st.2.2, st.2.1 + 1, st.2.2 + 7)
  else some st

/-- `generateTrajectory` from step `k` on, src/rbphdslam6dSim.cpp 212-261: `n` steps left, `t` the time, `prev` the last pose; the displacements and the poses that
are pushed. -/
noncomputable def trajFrom (c : TrajCfg) (u : Nat → ℝ) (kMax : Nat) (dt : TS) : Nat → Nat → TS → St6 → (Fin 7 → ℝ) × Nat × Nat →
    Option (List ((Fin 7 → ℝ) × TS) × List St6)
  | 0, _, _, _, _ => some ([], [])
  | n + 1, k, t, prev, st =>
    (addAssign t dt).bind fun t' =>
    (nextInput c u kMax k st).bind fun st' =>
    (step6d prev prev (posOf st'.1) (rotOf st'.1) dt).bind fun x =>
    (trajFrom c u kMax dt n (k + 1) t' { x with t := t' } st').map fun r => ((st'.1, t') :: r.1, { x with t := t' } :: r.2)

/-- The first pose, src/rbphdslam6dSim.cpp 203-204 and 210. -/
def start : St6 := ⟨0, ![0, 0, 0, 1], 0, zero⟩

/-- `generateTrajectory`, src/rbphdslam6dSim.cpp 185-263: the first displacement is the zero vector (209). -/
noncomputable def generateTrajectory (c : TrajCfg) (u : Nat → ℝ) (kMax : Nat) (dt : TS) : Option (List ((Fin 7 → ℝ) × TS) × List St6) :=
  (trajFrom c u kMax dt (kMax - 1) 1 zero start (0, 0, 0)).map fun r => ((0, zero) :: r.1, start :: r.2)

/-! ### Odometry -/

/-- The configured variances. -/
structure Var where
  dx : ℝ
  dy : ℝ
  dz : ℝ
  qx : ℝ
  qy : ℝ
  qz : ℝ
  qw : ℝ

/-- `Q` of `generateOdometry`, src/rbphdslam6dSim.cpp 275-283 (the same in `generateTrajectory`, 192-200). -/
def simQ (v : Var) : Matrix (Fin 7) (Fin 7) ℝ := diagonal ![v.dx, v.dy, v.dz, v.qw, v.qx, v.qy, v.qz]

/-- `Q` of `setupRBPHDFilter`, src/rbphdslam6dSim.cpp 529-539. -/
def filterQ (v : Var) (inflation dt : ℝ) : Matrix (Fin 7) (Fin 7) ℝ :=
  (inflation * dt * dt) • diagonal ![v.dx, v.dy, v.dz, v.qx, v.qy, v.qz, v.qw]

/-- The loop of `generateOdometry`, src/rbphdslam6dSim.cpp 290-308: `disp` are the ground-truth displacements from step `k` on, `noise k` the vector of normal
numbers drawn, `L` the Cholesky factor of `Q dt²`. A sampled input keeps the time stamp of the displacement (include/RandomVec.hpp). -/
noncomputable def odoFrom (L : Matrix (Fin 7) (Fin 7) ℝ) (noise : Nat → Fin 7 → ℝ) (dt : TS) : Nat → TS → St6 → List ((Fin 7 → ℝ) × TS) →
    Option (List ((Fin 7 → ℝ) × TS) × List St6)
  | _, _, _, [] => some ([], [])
  | k, t, prev, d :: ds =>
    (addAssign t dt).bind fun t' =>
    (step6d prev prev (posOf (d.1 + L *ᵥ noise k)) (rotOf (d.1 + L *ᵥ noise k)) dt).bind fun x =>
    (odoFrom L noise dt (k + 1) t' { x with t := t' } ds).map fun r => ((d.1 + L *ᵥ noise k, d.2) :: r.1, { x with t := t' } :: r.2)

/-- `generateOdometry`, src/rbphdslam6dSim.cpp 266-310: `odometry_` and `deadReckoning_pose_`. `chol` is the Cholesky factorisation, `dtSec` is
`dTimeStamp_.getTimeAsDouble()`. -/
noncomputable def generateOdometry (chol : Matrix (Fin 7) (Fin 7) ℝ → Matrix (Fin 7) (Fin 7) ℝ) (v : Var) (dtSec : ℝ) (noise : Nat → Fin 7 → ℝ) (dt : TS)
    (disp : List ((Fin 7 → ℝ) × TS)) (poses : List St6) : Option (List ((Fin 7 → ℝ) × TS) × List St6) :=
  match disp, poses with
  | _ :: ds, x0 :: _ => (odoFrom (chol ((dtSec * dtSec) • simQ v)) noise dt 1 zero x0 ds).map fun r => ((0, zero) :: r.1, x0 :: r.2)
  | _, _ => none

/-! ### Landmarks -/

/-- The three random numbers of a point in the cube, src/rbphdslam6dSim.cpp 329-330 and 421-422. -/
def cube (rMax : ℝ) (u : Nat → ℝ) (pos : Nat) : Fin 3 → ℝ :=
  ![u pos * 2 * rMax - rMax, u (pos + 1) * 2 * rMax - rMax, u (pos + 2) * 2 * rMax - rMax]

/-- `do … while (z.norm() > rangeLimitMax_);`, src/rbphdslam6dSim.cpp 328-331. -/
noncomputable def drawLandmark (rMax : ℝ) (u : Nat → ℝ) : Nat → Nat → Option ((Fin 3 → ℝ) × Nat)
  | 0, _ => none
  | fuel + 1, pos => if rMax < Meas.norm3 (cube rMax u pos) then drawLandmark rMax u fuel (pos + 3) else some (cube rMax u pos, pos + 3)

/-- The landmarks of the steps `ks`, src/rbphdslam6dSim.cpp 325-341: the drawn point is seen from the pose of the step. `R` is the noise of the measurement model. -/
noncomputable def landmarksAt (rMax : ℝ) (R : Matrix (Fin 3) (Fin 3) ℝ) (u : Nat → ℝ) (fuel : Nat) (poses : List St6) : List Nat → Nat →
    Option (List (Fin 3 → ℝ) × Nat)
  | [], pos => some ([], pos)
  | k :: ks, pos =>
    (drawLandmark rMax u fuel pos).bind fun z =>
    (poses[k]?).bind fun x =>
    (landmarksAt rMax R u fuel poses ks z.2).map fun r => ((Meas.m6dInv R ⟨x.p, x.q⟩ z.1).1 :: r.1, r.2)

/-- `generateLandmarks`, src/rbphdslam6dSim.cpp 313-347. -/
noncomputable def generateLandmarks (rMax : ℝ) (R : Matrix (Fin 3) (Fin 3) ℝ) (u : Nat → ℝ) (fuel kMax nLandmarks : Nat) (poses : List St6) (pos : Nat) :
    Option (List (Fin 3 → ℝ) × Nat) :=
  (Sim.landmarkSteps kMax nLandmarks).bind fun ks => landmarksAt rMax R u fuel poses ks pos

/-! ### Measurements -/

/-- `measurementModel.sample(pose, landmark, z)`, src/rbphdslam6dSim.cpp 393-394 with include/MeasurementModel.hpp 129-158: `none` if `measure` returns false. -/
noncomputable def sample (cfg : Meas.Cfg) (chol : Matrix (Fin 3) (Fin 3) ℝ → Matrix (Fin 3) (Fin 3) ℝ) (R : Matrix (Fin 3) (Fin 3) ℝ) (x : St6) (m w : Fin 3 → ℝ) :
    Option (Fin 3 → ℝ) :=
  Sim.sampleWith chol R (Meas.m6d cfg R ⟨x.p, x.q⟩ x.S m 0).ok (Meas.m6d cfg R ⟨x.p, x.q⟩ x.S m 0).z w

/-- State of `generateMeasurements`: `measurements_` of the step, `lmkFirstObsTime_`, position in the random stream. -/
structure GenSt where
  out : List (Fin 3 → ℝ)
  first : List ℝ
  pos : Nat

/-- One landmark in one step, src/rbphdslam6dSim.cpp 391-406: `ms` is the index of the landmark and what `sample` returned, `t` the time. -/
noncomputable def detect (pd : ℝ) (u : Nat → ℝ) (t : ℝ) (g : GenSt) (ms : Nat × Option (Fin 3 → ℝ)) : GenSt :=
  match ms.2 with
  | none => g
  | some z =>
    ⟨if u g.pos ≤ pd then g.out ++ [z] else g.out, if g.first.getD ms.1 0 = -1 then g.first.set ms.1 t else g.first, g.pos + 1⟩

/-- `do … while (z.norm() < rangeLimitMax_ && z.norm() > rangeLimitMin_);`, src/rbphdslam6dSim.cpp 420-423. -/
noncomputable def drawAlarm (c : Sim.Cfg) (u : Nat → ℝ) : Nat → Nat → Option ((Fin 3 → ℝ) × Nat)
  | 0, _ => none
  | fuel + 1, pos =>
    if Meas.norm3 (cube c.rMax u pos) < c.rMax ∧ c.rMin < Meas.norm3 (cube c.rMax u pos) then drawAlarm c u fuel (pos + 3)
    else some (cube c.rMax u pos, pos + 3)

/-- The loop over the false alarms, src/rbphdslam6dSim.cpp 416-428. -/
noncomputable def alarms (c : Sim.Cfg) (u : Nat → ℝ) (fuel : Nat) : Nat → Nat → Option (List (Fin 3 → ℝ) × Nat)
  | 0, pos => some ([], pos)
  | n + 1, pos => (drawAlarm c u fuel pos).bind fun z => (alarms c u fuel n z.2).map fun l => (z.1 :: l.1, l.2)

/-- The detections of one time step, src/rbphdslam6dSim.cpp 389-408. -/
noncomputable def detections (pd : ℝ) (u : Nat → ℝ) (t : ℝ) (samples : List (Option (Fin 3 → ℝ))) (first : List ℝ) (pos : Nat) : GenSt :=
  ((List.range samples.length).zip samples).foldl (detect pd u t) ⟨[], first, pos⟩

/-- One time step of `generateMeasurements`, src/rbphdslam6dSim.cpp 384-430. -/
noncomputable def genStep (c : Sim.Cfg) (u : Nat → ℝ) (fuel : Nat) (t : ℝ) (samples : List (Option (Fin 3 → ℝ))) (first : List ℝ) (pos : Nat) : Option GenSt :=
  let g := detections c.pd u t samples first pos
  (Sim.nClutter c.mean (u g.pos)).bind fun n => (alarms c u fuel n (g.pos + 1)).map fun l => ⟨g.out ++ l.1, g.first, l.2⟩

/-- All the steps: `times` are the times of the steps 1 .. kMax - 1, `samples` the samples of each. Every measurement gets the time of its step. -/
noncomputable def genAll (c : Sim.Cfg) (u : Nat → ℝ) (fuel : Nat) : List ℝ → List (List (Option (Fin 3 → ℝ))) → List ℝ → Nat →
    Option (List (ℝ × (Fin 3 → ℝ)) × List ℝ)
  | t :: ts, s :: ss, first, pos =>
    (genStep c u fuel t s first pos).bind fun g =>
      (genAll c u fuel ts ss g.first g.pos).map fun r => (g.out.map (fun z => (t, z)) ++ r.1, r.2)
  | _, _, first, _ => some ([], first)

/-- `generateMeasurements`, src/rbphdslam6dSim.cpp 350-432, with `lmkFirstObsTime_` set to -1 first (375-378). -/
noncomputable def generateMeasurements (c : Sim.Cfg) (u : Nat → ℝ) (fuel nLmk : Nat) (ts : List ℝ) (ss : List (List (Option (Fin 3 → ℝ)))) (pos : Nat) :
    Option (List (ℝ × (Fin 3 → ℝ)) × List ℝ) := genAll c u fuel ts ss (List.replicate nLmk (-1)) pos

end Sim6D
end RFS
