import Verif.Model.MeasModels
import Verif.Model.Motion
import Mathlib.Analysis.SpecialFunctions.Exp

/-!
Model of the simulators and data readers around the filters: `RBPHDSLAM_2D` (include/RBPHDSLAM_2D.hpp), `RBLMBSLAM_2D`
(include/RBLMBSLAM_2D.hpp), the Victoria Park program (src/rbphdslam_VictoriaPark.cpp) and the random generators
(src/GaussianGenerators.cpp).

Exact real arithmetic. `drand48()` is a stream of reals `u : Nat → ℝ`, read at a position that is passed along; theorems assume the values
to be in `[0, 1)` where they need it. A loop that draws until a value is large enough takes fuel. `none` is undefined behaviour (an array read out of range,
a division by zero), or an unfinished loop where a definition takes fuel. Logging, progress bars, profiling and timing are left out.
-/

namespace RFS
namespace Sim
open Real Matrix TimeStamp Motion

/-! ### Handing the measurements to the filter -/

/-- The `while` loop that collects the measurements of a step, include/RBPHDSLAM_2D.hpp 801-806: `rest` is `measurements_` from `zIdx` on. -/
def collect {T Z : Type} [DecidableEq T] (time : T) : List (T × Z) → List Z × List (T × Z)
  | [] => ([], [])
  | (t, z) :: r => if t = time then (z :: (collect time r).1, (collect time r).2) else ([], (t, z) :: r)

/-- The steps `k .. kMax - 1` of `run`, include/RBPHDSLAM_2D.hpp 743-810, include/RBLMBSLAM_2D.hpp 744-811 and, with other names, src/rblmbslam2dSim.cpp 583-590,
src/rbcbmemberslam2dSim.cpp 585-592, src/fastslam2dSim.cpp 587-594, src/rbphdslam2dSim_amplitude.cpp 566-573: the measurements that `update` gets in each step.
`n` is the number of steps left, `odo` are the time stamps of `odometry_`. Both `odometry_[k]` (745) and `measurements_[zIdx]` (800) are read unchecked. -/
def runFrom {T Z : Type} [DecidableEq T] (odo : List T) : Nat → Nat → List (T × Z) → Option (List (List Z))
  | 0, _, _ => some []
  | n + 1, k, rest =>
    match odo[k]?, rest with
    | none, _ => none
    | _, [] => none
    | some time, r :: rs => (runFrom odo n (k + 1) (collect time (r :: rs)).2).map fun out => (collect time (r :: rs)).1 :: out

/-- `run` from the first step, `kMax` steps. -/
def run {T Z : Type} [DecidableEq T] (odo : List T) (kMax : Nat) (ms : List (T × Z)) : Option (List (List Z)) := runFrom odo kMax 0 ms

/-- The lidar messages of the Victoria Park program, src/rbphdslam_VictoriaPark.cpp 549-553 and src/fastslam_VictoriaPark.cpp 540-544: the index is checked. -/
def runVP {T Z : Type} [DecidableEq T] : List T → List (T × Z) → List (List Z)
  | [], _ => []
  | t :: ts, rest => (collect t rest).1 :: runVP ts (collect t rest).2

/-! ### Number of false alarms -/

/-- The running values of the loop that fills the tables, include/RBPHDSLAM_2D.hpp 486-497: `mean_pow_i`, `i_factorial`, `poissonCmf[i]`. -/
noncomputable def table (mean : ℝ) : Nat → ℝ × ℝ × ℝ
  | 0 => (1, 1, exp (-mean))
  | i + 1 =>
    let p := (table mean i).1 * mean
    let f := (table mean i).2.1 * (i + 1 : ℕ)
    (p, f, (table mean i).2.2 + p / f * exp (-mean))

/-- `poissonCmf[i]`. -/
noncomputable def cmf (mean : ℝ) (i : Nat) : ℝ := (table mean i).2.2

/-- `while( randomNum > poissonCmf[ nClutterToGen ] ) nClutterToGen++;`, include/RBPHDSLAM_2D.hpp 541-545; the array has 100 entries. -/
noncomputable def countFrom (mean u : ℝ) (n : Nat) : Option Nat :=
  if n < 100 then if cmf mean n < u then countFrom mean u (n + 1) else some n else none
termination_by 100 - n

/-- `nClutterToGen` after the loop. -/
noncomputable def nClutter (mean u : ℝ) : Option Nat := countFrom mean u 0

/-! ### Generated measurements -/

/-- The measurement model that the simulator is instantiated with. -/
inductive Kind
  | rngBrg
  | xy
deriving DecidableEq

/-- Settings read from the configuration file. -/
structure Cfg where
  rMax : ℝ
  rMin : ℝ
  pd : ℝ
  mean : ℝ

/-- The range that is compared with the limits, include/RBPHDSLAM_2D.hpp 521-526. -/
noncomputable def rangeOf : Kind → (Fin 2 → ℝ) → ℝ
  | .rngBrg, z => z 0
  | .xy, z => √(z 0 * z 0 + z 1 * z 1)

/-- State of `generateMeasurements`: `measurements_` of the step, `lmkFirstObsTime_`, position in the random stream. -/
structure GenSt where
  out : List (Fin 2 → ℝ)
  first : List ℝ
  pos : Nat

/-- One landmark in one step, include/RBPHDSLAM_2D.hpp 512-536: `s` is what `measurementModel.sample` returned, `none` if it failed; `t` the time.
`&&` evaluates `drand48()` only if the range is within the limits. -/
noncomputable def detect (kind : Kind) (c : Cfg) (u : Nat → ℝ) (t : ℝ) (g : GenSt) (ms : Nat × Option (Fin 2 → ℝ)) : GenSt :=
  match ms.2 with
  | none => g
  | some z =>
    let first := if g.first.getD ms.1 0 = -1 then g.first.set ms.1 t else g.first
    if rangeOf kind z ≤ c.rMax ∧ c.rMin ≤ rangeOf kind z then
      if u g.pos ≤ c.pd then ⟨g.out ++ [z], first, g.pos + 1⟩ else ⟨g.out, first, g.pos + 1⟩
    else ⟨g.out, first, g.pos⟩

/-- `double r = drand48() * rangeLimitMax_; while(r < rangeLimitMin_) r = drand48() * rangeLimitMax_;`, include/RBPHDSLAM_2D.hpp 548-550. -/
noncomputable def clutterRange (c : Cfg) (u : Nat → ℝ) : Nat → Nat → Option (ℝ × Nat)
  | 0, _ => none
  | fuel + 1, pos => if u pos * c.rMax < c.rMin then clutterRange c u fuel (pos + 1) else some (u pos * c.rMax, pos + 1)

/-- The loop over the false alarms, include/RBPHDSLAM_2D.hpp 546-558: `z << r, b` whatever the measurement model is. -/
noncomputable def clutterLoop (c : Cfg) (u : Nat → ℝ) (fuel : Nat) : Nat → Nat → Option (List (Fin 2 → ℝ) × Nat)
  | 0, pos => some ([], pos)
  | n + 1, pos =>
    (clutterRange c u fuel pos).bind fun r =>
      (clutterLoop c u fuel n (r.2 + 1)).map fun l => (![r.1, u r.2 * 2 * π - π] :: l.1, l.2)

/-- One time step of `generateMeasurements`, include/RBPHDSLAM_2D.hpp 505-560. `samples` lists, for each landmark, what `sample` gives. -/
noncomputable def genStep (kind : Kind) (c : Cfg) (u : Nat → ℝ) (fuel : Nat) (t : ℝ) (samples : List (Option (Fin 2 → ℝ))) (first : List ℝ) (pos : Nat) :
    Option GenSt :=
  let g := ((List.range samples.length).zip samples).foldl (detect kind c u t) ⟨[], first, pos⟩
  (nClutter c.mean (u g.pos)).bind fun n => (clutterLoop c u fuel n (g.pos + 1)).map fun l => ⟨g.out ++ l.1, g.first, l.2⟩

/-- All the steps: `times` are the time stamps of the steps 1 .. kMax - 1, `samples` the samples of each. Every measurement gets the time of its step. -/
noncomputable def genAll (kind : Kind) (c : Cfg) (u : Nat → ℝ) (fuel : Nat) : List ℝ → List (List (Option (Fin 2 → ℝ))) → List ℝ → Nat →
    Option (List (ℝ × (Fin 2 → ℝ)) × List ℝ)
  | t :: ts, s :: ss, first, pos =>
    (genStep kind c u fuel t s first pos).bind fun g =>
      (genAll kind c u fuel ts ss g.first g.pos).map fun r => (g.out.map (fun z => (t, z)) ++ r.1, r.2)
  | _, _, first, _ => some ([], first)

/-- `generateMeasurements`, with `lmkFirstObsTime_` set to -1 first (499-502). -/
noncomputable def generateMeasurements (kind : Kind) (c : Cfg) (u : Nat → ℝ) (fuel nLmk : Nat) (ts : List ℝ) (ss : List (List (Option (Fin 2 → ℝ)))) :
    Option (List (ℝ × (Fin 2 → ℝ)) × List ℝ) := genAll kind c u fuel ts ss (List.replicate nLmk (-1)) 0

/-- A noise-free or noisy `sample` of the measurement model, include/MeasurementModel.hpp 129-158: `none` if `measure` fails, otherwise its mean plus
the noise `L(R) w`, with `L(R)` the Cholesky factor of the noise covariance `R_` and `w` independent normal numbers. -/
noncomputable def sampleWith {n : Nat} (chol : Matrix (Fin n) (Fin n) ℝ → Matrix (Fin n) (Fin n) ℝ) (R : Matrix (Fin n) (Fin n) ℝ) (ok : Bool)
    (mean w : Fin n → ℝ) : Option (Fin n → ℝ) := if ok then some (mean + chol R *ᵥ w) else none

/-- The noise covariance of the model with which `RBPHDSLAM_2D::generateMeasurements` samples: `R` is set, include/RBPHDSLAM_2D.hpp 471-478. -/
def simNoisePHD (v0 v1 : ℝ) : Matrix (Fin 2) (Fin 2) ℝ := !![v0, 0; 0, v1]

/-- The same for `RBLMBSLAM_2D::generateMeasurements`, include/RBLMBSLAM_2D.hpp 468-477: `covZ` is filled and then dropped, `getNoise(R)` reads the zero matrix that
the default constructor of the model stored (include/MeasurementModel.hpp 69). -/
def simNoiseLMB (_v0 _v1 : ℝ) : Matrix (Fin 2) (Fin 2) ℝ := 0

/-- What `exportSimData` writes for a measurement, include/RBPHDSLAM_2D.hpp 620-623: range and bearing columns. -/
noncomputable def exported (z : Fin 2 → ℝ) : ℝ × ℝ := (√(z 0 * z 0 + z 1 * z 1), Meas.atan2 (z 1) (z 0))

/-- A false alarm of the Victoria Park program, src/rbphdslam_VictoriaPark.cpp 563-568 and src/fastslam_VictoriaPark.cpp 554-559, the limits in degrees. -/
noncomputable def clutterVP (rMax rMin bMax bMin : ℝ) (u v : ℝ) : Fin 3 → ℝ :=
  ![u * (rMax - rMin) + rMin, v * ((bMax - bMin) + bMin) * π / 180, 1]

/-! ### Generated landmarks -/

/-- The steps at which `generateLandmarks` creates a landmark, include/RBPHDSLAM_2D.hpp 441-465: `n` steps from `k` on, `created` so far, `q = kMax_ / nLandmarks_`. -/
def lmkSteps (q : Nat) : Nat → Nat → Nat → List Nat
  | 0, _, _ => []
  | n + 1, k, created => if q * created ≤ k then k :: lmkSteps q n (k + 1) (created + 1) else lmkSteps q n (k + 1) created

/-- All of them: `k` runs from 1 to `kMax_ - 1`; `kMax_ / 0` is undefined (and not evaluated when there is no step). -/
def landmarkSteps (kMax nLandmarks : Nat) : Option (List Nat) :=
  if nLandmarks = 0 ∧ 1 < kMax then none else some (lmkSteps (kMax / nLandmarks) (kMax - 1) 1 0)

/-- The landmark created at a pose, include/RBPHDSLAM_2D.hpp 446-459: `z << r, b` is passed to `inverseMeasure` of the measurement model. -/
noncomputable def newLandmark (kind : Kind) (rMax : ℝ) (x : Fin 3 → ℝ) (u v : ℝ) : Fin 2 → ℝ :=
  match kind with
  | .rngBrg => (Meas.rngBrgInv 0 x ![u * rMax, v * 2 * π]).1
  | .xy => (Meas.xyInv 0 x ![u * rMax, v * 2 * π]).1

/-! ### Trajectory and odometry -/

/-- Settings of the trajectory. -/
structure TrajCfg where
  nSeg : Nat
  maxDx : ℝ
  maxDy : ℝ
  maxDz : ℝ
  minDx : ℝ
  dT : ℝ

/-- `double dx = drand48() * max_dx_ * dT_; while( dx < min_dx_ * dT_ ) …`, include/RBPHDSLAM_2D.hpp 364-367. -/
noncomputable def drawDx (c : TrajCfg) (u : Nat → ℝ) : Nat → Nat → Option (ℝ × Nat)
  | 0, _ => none
  | fuel + 1, pos => if u pos * c.maxDx * c.dT < c.minDx * c.dT then drawDx c u fuel (pos + 1) else some (u pos * c.maxDx * c.dT, pos + 1)

/-- The displacement of step `k`, include/RBPHDSLAM_2D.hpp 353-375: the input kept from the step before, `seg`, and the position in the random stream. -/
noncomputable def nextInput (c : TrajCfg) (u : Nat → ℝ) (fuel kMax k : Nat) (st : (Fin 3 → ℝ) × Nat × Nat) : Option ((Fin 3 → ℝ) × Nat × Nat) :=
  if k ≤ 50 then some (0, st.2)
  else if c.nSeg = 0 then none
  else if kMax / c.nSeg * st.2.1 ≤ k then
    (drawDx c u fuel st.2.2).map fun d =>
      (![d.1, (u d.2 * c.maxDy * 2 - c.maxDy) * c.dT, (u (d.2 + 1) * c.maxDz * 2 - c.maxDz) * c.dT], st.2.1 + 1, d.2 + 2)
  else some st

/-- `generateTrajectory` from step `k` on, include/RBPHDSLAM_2D.hpp 349-385: `n` steps left, `t` the time, `prev` the last pose; the displacements and the
poses that are pushed. `dt` is `dTimeStamp_`. -/
noncomputable def trajFrom (c : TrajCfg) (u : Nat → ℝ) (fuel kMax : Nat) (dt : TS) : Nat → Nat → TS → St 3 → (Fin 3 → ℝ) × Nat × Nat →
    Option (List ((Fin 3 → ℝ) × TS) × List (St 3))
  | 0, _, _, _, _ => some ([], [])
  | n + 1, k, t, prev, st =>
    (addAssign t dt).bind fun t' =>
    (nextInput c u fuel kMax k st).bind fun st' =>
    (step2d prev prev st'.1 dt).bind fun x =>
    (trajFrom c u fuel kMax dt n (k + 1) t' { x with t := t' } st').map fun r => ((st'.1, t') :: r.1, { x with t := t' } :: r.2)

/-- `generateTrajectory`: the first displacement and pose are zero at time zero (347-348). -/
noncomputable def generateTrajectory (c : TrajCfg) (u : Nat → ℝ) (fuel kMax : Nat) (dt : TS) : Option (List ((Fin 3 → ℝ) × TS) × List (St 3)) :=
  (trajFrom c u fuel kMax dt (kMax - 1) 1 zero ⟨0, 0, zero⟩ (0, 0, 0)).map fun r => ((0, zero) :: r.1, ⟨0, 0, zero⟩ :: r.2)

/-- The loop of `generateOdometry`, include/RBPHDSLAM_2D.hpp 404-424: `disp` are the ground-truth displacements from step `k` on, `noise k` the vector of
normal numbers drawn, `L` the Cholesky factor of `Q dt²`. A sampled input keeps the time stamp of the displacement. -/
noncomputable def odoFrom (L : Matrix (Fin 3) (Fin 3) ℝ) (noise : Nat → Fin 3 → ℝ) (dt : TS) : Nat → TS → St 3 → List ((Fin 3 → ℝ) × TS) →
    Option (List ((Fin 3 → ℝ) × TS) × List (St 3))
  | _, _, _, [] => some ([], [])
  | k, t, prev, d :: ds =>
    (addAssign t dt).bind fun t' =>
    (step2d prev prev (d.1 + L *ᵥ noise k) dt).bind fun x =>
    (odoFrom L noise dt (k + 1) t' { x with t := t' } ds).map fun r => ((d.1 + L *ᵥ noise k, d.2) :: r.1, { x with t := t' } :: r.2)

/-- `generateOdometry`: `odometry_` and `deadReckoning_pose_`, given the displacements and the first pose of the ground truth (`none` if there is none). -/
noncomputable def generateOdometry (L : Matrix (Fin 3) (Fin 3) ℝ) (noise : Nat → Fin 3 → ℝ) (dt : TS) (disp : List ((Fin 3 → ℝ) × TS)) (poses : List (St 3)) :
    Option (List ((Fin 3 → ℝ) × TS) × List (St 3)) :=
  match disp, poses with
  | _ :: ds, x0 :: _ => (odoFrom L noise dt 1 zero x0 ds).map fun r => ((0, zero) :: r.1, x0 :: r.2)
  | _, _ => none

/-! ### Reading a data set -/

/-- A line of an iSAM file as `parseISAMLine` sees it (include/RBPHDSLAM_2D.hpp 224-327): the result of the `sscanf` calls. -/
inductive Line
  /-- no token: `sscanf` leaves `linestart` and `linestartLength` unwritten, which are then read -/
  | blank
  /-- another keyword -/
  | other
  /-- ODOMETRY, EDGE2, Constraint2 with the two indices, the displacement and the upper triangle of the square root of the information matrix -/
  | odometry (i0 i1 : Nat) (d : Fin 3 → ℝ) (s : Fin 6 → ℝ)
  /-- LANDMARK with the index of the pose, of the landmark, the measurement and the upper triangle -/
  | landmark (i id : Nat) (z : Fin 2 → ℝ) (s : Fin 3 → ℝ)
  /-- a line with too few numbers: `exit(1)` -/
  | bad

/-- `information_sqrt` of an odometry line, include/RBPHDSLAM_2D.hpp 254-257. -/
def sqrtInfo3 (s : Fin 6 → ℝ) : Matrix (Fin 3) (Fin 3) ℝ := !![s 0, s 1, s 2; 0, s 3, s 4; 0, 0, s 5]

/-- `information_sqrt` of a landmark line, include/RBPHDSLAM_2D.hpp 304-306. -/
def sqrtInfo2 (s : Fin 3 → ℝ) : Matrix (Fin 2) (Fin 2) ℝ := !![s 0, s 1; 0, s 2]

/-- `covariance`, include/RBPHDSLAM_2D.hpp 258-259 and 307-308. -/
noncomputable def covOf {n : Nat} (S : Matrix (Fin n) (Fin n) ℝ) : Matrix (Fin n) (Fin n) ℝ := (Sᵀ * S)⁻¹

/-- What the reader has stored. -/
structure Data where
  odo : List ((Fin 3 → ℝ) × Matrix (Fin 3) (Fin 3) ℝ × TS)
  dead : List (St 3)
  meas : List ((Fin 2 → ℝ) × Matrix (Fin 2) (Fin 2) ℝ × TS)

/-- Outcomes of reading. -/
inductive Read
  | ok (d : Data)
  /-- the program ended -/
  | exit
  /-- undefined behaviour -/
  | ub

/-- `parseISAMLine` for a data file (not ground truth), include/RBPHDSLAM_2D.hpp 224-327. `cont` is the answer to the question that is asked when the indices are not
consecutive (238-246): on `true` the line is processed like any other. `dt` is `dTimeStamp_`; the time stamp of an entry is the index of its pose. -/
noncomputable def parseLine (cont : Bool) (dt : TS) (d : Data) : Line → Read
  | .blank => .ub
  | .other => .ok d
  | .bad => .exit
  | .odometry i0 i1 v s =>
    if i1 ≠ i0 + 1 ∧ cont = false then .exit
    else match d.dead.getLast?, setTimeD i1 with
      | some x, some t =>
        match step2d x x v dt with
        | some x' => .ok { d with odo := d.odo ++ [(v, covOf (sqrtInfo3 s), t)], dead := d.dead ++ [{ x' with t := t }] }
        | none => .ub
      | _, _ => .ub
  | .landmark i _ z s =>
    match setTimeD i with
    | some t => .ok { d with meas := d.meas ++ [(z, covOf (sqrtInfo2 s), t)] }
    | none => .ub

/-- Reads the lines one after the other. -/
noncomputable def readLines (cont : Bool) (dt : TS) : Data → List Line → Read
  | d, [] => .ok d
  | d, l :: ls =>
    match parseLine cont dt d l with
    | .ok d' => readLines cont dt d' ls
    | r => r

/-- `readISAMFile`, include/RBPHDSLAM_2D.hpp 163-183: dead reckoning starts at the origin at time zero. -/
noncomputable def readISAM (cont : Bool) (dt : TS) (ls : List Line) : Read := readLines cont dt ⟨[], [⟨0, 0, zero⟩], []⟩ ls

/-! ### Random generators -/

/-- `randomGenerators_` and the size of `gaussianGenerators_`, src/GaussianGenerators.cpp 37-40. `G` is the state of a `boost::mt19937`. -/
structure Gens (G : Type) where
  engines : List G
  normals : Nat

/-- `initializeGaussianGenerators`, src/GaussianGenerators.cpp 41-55: `gaussianGenerators_` is cleared, `randomGenerators_` is not. `lrand i` is the `i`-th value of `lrand48()`
after `srand48`, `seed` the constructor of the engine. -/
def initGens {G : Type} (seed : Nat → G) (lrand : Nat → Nat) (nThreads : Nat) (g : Gens G) : Gens G :=
  ⟨g.engines ++ (List.range nThreads).map (fun i => seed (lrand i)), nThreads⟩

/-- The engine that `RandomVec::sample` uses in thread `i`, include/RandomVec.hpp 607 and 640 (`none`: out of range). -/
def engineOf {G : Type} (g : Gens G) (i : Nat) : Option G := if i < g.normals then g.engines[i]? else none

end Sim
end RFS
