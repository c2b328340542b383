import Verif.Model.MeasModels
import Verif.Model.Kalman
import Verif.Model.TimeStamp
import Mathlib.Analysis.SpecialFunctions.Trigonometric.Basic

/-!
Model of the motion models `MotionModel_Odometry1d`, `_Odometry2d`, `_Odometry6d`, `_Ackerman2d` (src/ProcessModel_*.cpp) and of
`StaticProcessModel` and `ProcessModel` (include/ProcessModel.hpp).

Exact real arithmetic, `atan2` as in `Verif/Model/MeasModels.lean`. Time stamps are those of `Verif/Model/TimeStamp.lean`; `none` is signed overflow in
the addition of time stamps (undefined behaviour).
-/

namespace RFS
namespace Motion
open Real Matrix TimeStamp

/-- A state: vector, covariance, time stamp (`RandomVec`). -/
@[ext] structure St (n : Nat) where
  x : Fin n → ℝ
  S : Matrix (Fin n) (Fin n) ℝ
  t : TS

/-- `MotionModel_Odometry1d::step`, src/ProcessModel_Odometry1D.cpp 37-63: `set(x, zero)` does not touch the time stamp of `s_k`. -/
noncomputable def step1d (sk skm : St 1) (u : Fin 1 → ℝ) (_dT : TS) : Option (St 1) := some { sk with x := skm.x + u, S := 0 }

/-- Rotation matrix `C` of src/ProcessModel_Odometry2D.cpp 72 and 80. -/
noncomputable def rotC (a : ℝ) : Matrix (Fin 2) (Fin 2) ℝ := !![cos a, sin a; -sin a, cos a]

/-- `MotionModel_Odometry2d::step`, src/ProcessModel_Odometry2D.cpp 41-96. -/
noncomputable def step2d (_sk skm : St 3) (u : Fin 3 → ℝ) (dT : TS) : Option (St 3) :=
  let Ckm := rotC (skm.x 2)
  let Ck := rotC (u 2) * Ckm
  let p := ![skm.x 0, skm.x 1] + Ckmᵀ *ᵥ ![u 0, u 1]
  (add skm.t dT).map fun tk => ⟨![p 0, p 1, Meas.atan2 (Ck 0 1) (Ck 0 0)], 0, tk⟩

/-- The Jacobian that `MotionModel_Odometry2d::step` returns, src/ProcessModel_Odometry2D.cpp 93-95. -/
def jac2d : Matrix (Fin 3) (Fin 3) ℝ := 1

/-- `normalize()` of an Eigen quaternion: divides by the length unless that is zero. -/
noncomputable def normalizeQ (q : Fin 4 → ℝ) : Fin 4 → ℝ :=
  let z := q 0 ^ 2 + q 1 ^ 2 + q 2 ^ 2 + q 3 ^ 2
  if 0 < z then fun i => q i / √z else q

/-- Eigen's quaternion product, coefficients `x, y, z, w`. -/
def mulQ (a b : Fin 4 → ℝ) : Fin 4 → ℝ :=
  ![a 3 * b 0 + a 0 * b 3 + a 1 * b 2 - a 2 * b 1,
    a 3 * b 1 + a 1 * b 3 + a 2 * b 0 - a 0 * b 2,
    a 3 * b 2 + a 2 * b 3 + a 0 * b 1 - a 1 * b 0,
    a 3 * b 3 - a 0 * b 0 - a 1 * b 1 - a 2 * b 2]

/-- Cross product. -/
def cross (a b : Fin 3 → ℝ) : Fin 3 → ℝ := ![a 1 * b 2 - a 2 * b 1, a 2 * b 0 - a 0 * b 2, a 0 * b 1 - a 1 * b 0]

/-- Eigen's `_transformVector`: `uv = 2 (vec × v)`, result `v + w uv + vec × uv`. -/
def transformVector (q : Fin 4 → ℝ) (v : Fin 3 → ℝ) : Fin 3 → ℝ :=
  let vec : Fin 3 → ℝ := ![q 0, q 1, q 2]
  let uv := cross vec v + cross vec v
  v + q 3 • uv + cross vec uv

/-- A 6-D state: position, quaternion, covariance, time stamp. -/
structure St6 where
  p : Fin 3 → ℝ
  q : Fin 4 → ℝ
  S : Matrix (Fin 7) (Fin 7) ℝ
  t : TS

/-- `MotionModel_Odometry6d::step`, src/ProcessModel_Odometry6D.cpp 41-84 (called without Jacobian; with one the program exits). -/
noncomputable def step6d (_sk skm : St6) (dp : Fin 3 → ℝ) (qin : Fin 4 → ℝ) (dT : TS) : Option St6 :=
  (add skm.t dT).map fun tk => ⟨skm.p + transformVector skm.q dp, mulQ skm.q (normalizeQ qin), 0, tk⟩

/-- Parameters of the Ackerman model, include/ProcessModel_Ackerman2D.hpp. -/
structure AckCfg where
  h : ℝ
  l : ℝ
  dx : ℝ
  dy : ℝ

/-- The heading correction, src/ProcessModel_Ackerman2D.cpp 74-78. -/
noncomputable def wrapOnce (a : ℝ) : ℝ := if π < a then a - 2 * π else if a < -π then a + 2 * π else a

/-- Change of heading in one Ackerman step, src/ProcessModel_Ackerman2D.cpp 60 and 70 (a quotient by zero is 0 here and inf in C++). -/
noncomputable def ackTurn (c : AckCfg) (v r dt : ℝ) : ℝ := dt * (v / (1 - tan r * c.h / c.l)) / c.l * tan r

/-- `MotionModel_Ackerman2d::step`, src/ProcessModel_Ackerman2D.cpp 49-82; `set(x, t)` leaves the covariance of `s_k`. -/
noncomputable def stepAck (c : AckCfg) (sk skm : St 3) (v r : ℝ) (dT : TS) : Option (St 3) :=
  let dt : ℝ := (getTimeAsDouble dT : ℚ)
  let uv := v / (1 - tan r * c.h / c.l)
  let θ := skm.x 2
  let d0 := dt * (uv * cos θ - uv / c.l * tan r * (c.dx * sin θ + c.dy * cos θ))
  let d1 := dt * (uv * sin θ + uv / c.l * tan r * (c.dx * cos θ - c.dy * sin θ))
  let d2 := dt * uv / c.l * tan r
  (add skm.t dT).map fun tk => { sk with x := ![skm.x 0 + d0, skm.x 1 + d1, wrapOnce (θ + d2)], t := tk }

/-- `StaticProcessModel::step`, include/ProcessModel.hpp 314-327. `Q` is `none` if no noise was defined. -/
noncomputable def stepStatic {n : Nat} (Q : Option (Matrix (Fin n) (Fin n) ℝ)) (_sk skm : St n) (dT : TS) : Option (St n) :=
  match Q with
  | some Q => (addAssign skm.t dT).map fun t => ⟨skm.x, skm.S + Q, t⟩
  | none => some skm

/-! ### Sampling and likelihood -/

/-- Outcome of a call that may read memory that was never written. -/
inductive Outcome (α : Type)
  /-- an uninitialised matrix was read -/
  | uninit
  | ok (a : α)

/-- `ProcessModel::sample`, include/ProcessModel.hpp 125-153, without input noise. `Q` is the member `Q_`: `none` until `setNoise` or the constructor with
an argument is called (the default constructor, 64-66, leaves the matrix uninitialised). `stepped` is the state after `step`, `draw m Q` the sample that
`RandomVec::sample` draws around `m`. -/
noncomputable def sample {n : Nat} (Q : Option (Matrix (Fin n) (Fin n) ℝ)) (stepped : St n)
    (draw : (Fin n → ℝ) → Matrix (Fin n) (Fin n) ℝ → (Fin n → ℝ)) (useNoise : Bool) : Outcome (St n) :=
  if useNoise then
    match Q with
    | none => .uninit
    | some Q => open Classical in if Q ≠ 0 then .ok { stepped with x := draw stepped.x Q, S := Q } else .ok stepped
  else .ok stepped

/-- `ProcessModel::likelihood` with gradient, include/ProcessModel.hpp 205-227: value and `pose_grad`. `pred` is the mean of the predicted state. -/
noncomputable def likelihood {n : Nat} (Q : Matrix (Fin n) (Fin n) ℝ) (pred sk : Fin n → ℝ) : ℝ × (Fin n → ℝ) :=
  (Kalman.gaussian Q (sk - pred), -(Q⁻¹ *ᵥ (sk - pred)))

/-- `ProcessModel::logLikelihood`, include/ProcessModel.hpp 247-269: value and `pose_grad`. -/
noncomputable def logLikelihood {n : Nat} (Q : Matrix (Fin n) (Fin n) ℝ) (pred sk : Fin n → ℝ) : ℝ × (Fin n → ℝ) :=
  (Kalman.gaussianLog Q (sk - pred), -(Q⁻¹ *ᵥ (sk - pred)))

end Motion
end RFS
