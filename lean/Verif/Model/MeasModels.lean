import Mathlib.Analysis.SpecialFunctions.Complex.Arg
import Mathlib.Data.Matrix.Mul
import Mathlib.LinearAlgebra.Matrix.Notation

/-!
Model of the measurement models `MeasurementModel_RngBrg`, `_XY`, `_Rng1D`, `_6D` and `_VictoriaPark` (src/MeasurementModel_*.cpp) and of the
bearing innovation of src/KalmanFilter.cpp.

Exact real arithmetic. `PI` is `π`. `atan2(y, x)` is the argument of `x + iy` (0 at the origin; signed zeros are not distinguished). Division by
zero gives 0 here and inf/NaN in C++: no theorem about a quotient is stated where the divisor is zero. The `while` loops that wrap an angle take
fuel; `none` is an unfinished loop. Quaternions are stored in Eigen's order `x, y, z, w`. `MeasurementModel_RngBrg_amplitude` has the same code as
`MeasurementModel_RngBrg` for these functions (src/MeasurementModel_RngBrg_amplitude.cpp 70-167).
-/

namespace RFS
namespace Meas
open Real Matrix

/-- `config` of the models, e.g. include/MeasurementModel_RngBrg.hpp 65-71. -/
structure Cfg where
  pd : ℝ
  clutter : ℝ
  rMax : ℝ
  rMin : ℝ
  buf : ℝ

/-- `atan2`. -/
noncomputable def atan2 (y x : ℝ) : ℝ := Complex.arg ⟨x, y⟩

/-- `while(b > PI) b -= 2*PI;`, src/MeasurementModel_RngBrg.cpp 91, src/KalmanFilter.cpp 34-35. -/
noncomputable def wrapDown : Nat → ℝ → Option ℝ
  | 0, _ => none
  | fuel + 1, b => if π < b then wrapDown fuel (b - 2 * π) else some b

/-- `while(b < -PI) b += 2*PI;`, src/MeasurementModel_RngBrg.cpp 92, src/KalmanFilter.cpp 36-37. -/
noncomputable def wrapUp : Nat → ℝ → Option ℝ
  | 0, _ => none
  | fuel + 1, b => if b < -π then wrapUp fuel (b + 2 * π) else some b

/-- Both loops. -/
noncomputable def wrap (fuel : Nat) (b : ℝ) : Option ℝ := (wrapDown fuel b).bind (wrapUp fuel)

/-- What `measure` produces: mean and covariance of the measurement, the two Jacobians, and the value returned. -/
structure Out (n m p : Nat) where
  z : Fin n → ℝ
  S : Matrix (Fin n) (Fin n) ℝ
  Hl : Matrix (Fin n) (Fin m) ℝ
  Hp : Matrix (Fin n) (Fin p) ℝ
  ok : Bool

/-- The covariance of a predicted measurement, e.g. src/MeasurementModel_RngBrg.cpp 102. -/
def cov {n m p : Nat} (Hl : Matrix (Fin n) (Fin m) ℝ) (Hp : Matrix (Fin n) (Fin p) ℝ) (Sm : Matrix (Fin m) (Fin m) ℝ)
    (Sx : Matrix (Fin p) (Fin p) ℝ) (R : Matrix (Fin n) (Fin n) ℝ) : Matrix (Fin n) (Fin n) ℝ :=
  Hl * Sm * Hlᵀ + Hp * Sx * Hpᵀ + R

/-- The test at the end of `measure`, e.g. src/MeasurementModel_RngBrg.cpp 111-114. -/
noncomputable def inRange (cfg : Cfg) (r : ℝ) : Bool := if cfg.rMax < r ∨ r < cfg.rMin then false else true

/-- `probabilityOfDetection` as a function of the range, with the flag: src/MeasurementModel_RngBrg.cpp 155-166, src/MeasurementModel_XY.cpp 161-172,
src/MeasurementModel_6D.cpp 169-180. -/
noncomputable def pdOf (cfg : Cfg) (r : ℝ) : ℝ × Bool :=
  if r ≤ cfg.rMax ∧ cfg.rMin ≤ r then
    (cfg.pd, if cfg.rMax - cfg.buf ≤ r ∨ r ≤ cfg.rMin + cfg.buf then true else false)
  else (0, if r ≤ cfg.rMax + cfg.buf ∧ cfg.rMin - cfg.buf ≤ r then true else false)

/-! ### Range and bearing -/

/-- Distance between the robot (first two components of the pose) and the landmark. -/
noncomputable def range2d (x : Fin 3 → ℝ) (m : Fin 2 → ℝ) : ℝ := √((m 0 - x 0) ^ 2 + (m 1 - x 1) ^ 2)

/-- `MeasurementModel_RngBrg::measure`, src/MeasurementModel_RngBrg.cpp 70-115. -/
noncomputable def rngBrg (cfg : Cfg) (R : Matrix (Fin 2) (Fin 2) ℝ) (fuel : Nat) (x : Fin 3 → ℝ) (Sx : Matrix (Fin 3) (Fin 3) ℝ)
    (m : Fin 2 → ℝ) (Sm : Matrix (Fin 2) (Fin 2) ℝ) : Option (Out 2 2 3) :=
  let range2 := (m 0 - x 0) ^ 2 + (m 1 - x 1) ^ 2
  let range := √range2
  (wrap fuel (atan2 (m 1 - x 1) (m 0 - x 0) - x 2)).map fun bearing =>
    let Hl : Matrix (Fin 2) (Fin 2) ℝ := !![(m 0 - x 0) / range, (m 1 - x 1) / range; -(m 1 - x 1) / range2, (m 0 - x 0) / range2]
    let Hp : Matrix (Fin 2) (Fin 3) ℝ :=
      !![-(m 0 - x 0) / range, -(m 1 - x 1) / range, 0; (m 1 - x 1) / range2, -(m 0 - x 0) / range2, -1]
    ⟨![range, bearing], cov Hl Hp Sm Sx R, Hl, Hp, inRange cfg range⟩

/-- `MeasurementModel_RngBrg::inverseMeasure`, src/MeasurementModel_RngBrg.cpp 117-136: mean, covariance and the matrix `Hinv`. -/
noncomputable def rngBrgInv (R : Matrix (Fin 2) (Fin 2) ℝ) (x : Fin 3 → ℝ) (z : Fin 2 → ℝ) :
    (Fin 2 → ℝ) × Matrix (Fin 2) (Fin 2) ℝ × Matrix (Fin 2) (Fin 2) ℝ :=
  let Hinv : Matrix (Fin 2) (Fin 2) ℝ := !![cos (x 2 + z 1), -z 0 * sin (x 2 + z 1); sin (x 2 + z 1), z 0 * cos (x 2 + z 1)]
  (![x 0 + z 0 * cos (x 2 + z 1), x 1 + z 0 * sin (x 2 + z 1)], Hinv * R * Hinvᵀ, Hinv)

/-- `MeasurementModel_RngBrg::probabilityOfDetection`, src/MeasurementModel_RngBrg.cpp 138-167, and `MeasurementModel_XY::probabilityOfDetection`,
src/MeasurementModel_XY.cpp 144-173. -/
noncomputable def pd2d (cfg : Cfg) (x : Fin 3 → ℝ) (m : Fin 2 → ℝ) : ℝ × Bool := pdOf cfg (range2d x m)

/-- `MeasurementModel_RngBrg::clutterIntensityIntegral`, src/MeasurementModel_RngBrg.cpp 175-178. -/
noncomputable def rngBrgIntegral (cfg : Cfg) : ℝ := cfg.clutter * (2 * π * (cfg.rMax - cfg.rMin))

/-! ### Relative position in the plane -/

/-- `MeasurementModel_XY::measure`, src/MeasurementModel_XY.cpp 70-117. -/
noncomputable def xy (cfg : Cfg) (R : Matrix (Fin 2) (Fin 2) ℝ) (x : Fin 3 → ℝ) (Sx : Matrix (Fin 3) (Fin 3) ℝ) (m : Fin 2 → ℝ)
    (Sm : Matrix (Fin 2) (Fin 2) ℝ) : Out 2 2 3 :=
  let dx := m 0 - x 0
  let dy := m 1 - x 1
  let c := cos (x 2)
  let s := sin (x 2)
  let range := √(dx ^ 2 + dy ^ 2)
  let Hl : Matrix (Fin 2) (Fin 2) ℝ := !![c, s; -s, c]
  let Hp : Matrix (Fin 2) (Fin 3) ℝ := !![-c, -s, -dx * s + dy * c; s, -c, -dx * c - dy * s]
  ⟨![c * dx + s * dy, -s * dx + c * dy], cov Hl Hp Sm Sx R, Hl, Hp, inRange cfg range⟩

/-- `MeasurementModel_XY::inverseMeasure`, src/MeasurementModel_XY.cpp 119-142. -/
noncomputable def xyInv (R : Matrix (Fin 2) (Fin 2) ℝ) (x : Fin 3 → ℝ) (z : Fin 2 → ℝ) :
    (Fin 2 → ℝ) × Matrix (Fin 2) (Fin 2) ℝ × Matrix (Fin 2) (Fin 2) ℝ :=
  let c := cos (x 2)
  let s := sin (x 2)
  let Hinv : Matrix (Fin 2) (Fin 2) ℝ := !![c, -s; s, c]
  (![x 0 + c * z 0 - s * z 1, x 1 + s * z 0 + c * z 1], Hinv * R * Hinvᵀ, Hinv)

/-- `MeasurementModel_XY::clutterIntensityIntegral`, src/MeasurementModel_XY.cpp 181-184. -/
noncomputable def xyIntegral (cfg : Cfg) : ℝ := cfg.clutter * (2 * π * (cfg.rMax - cfg.rMin))

/-! ### Relative position on a line -/

/-- `MeasurementModel_Rng1D::measure`, src/MeasurementModel_Rng1D.cpp 67-102 (`var` is the sum of the three variances). -/
noncomputable def rng1d (cfg : Cfg) (R Sx Sm x m : ℝ) : Out 1 1 1 :=
  ⟨![m - x], !![Sm + Sx + R], !![1], !![-1], inRange cfg |m - x|⟩

/-- `MeasurementModel_Rng1D::inverseMeasure`, src/MeasurementModel_Rng1D.cpp 104-119: mean and variance. -/
def rng1dInv (R x z : ℝ) : ℝ × ℝ := (x + z, R)

/-- `MeasurementModel_Rng1D::probabilityOfDetection`, src/MeasurementModel_Rng1D.cpp 121-148. -/
noncomputable def pd1d (cfg : Cfg) (x m : ℝ) : ℝ × Bool :=
  let r := |m - x|
  (if r ≤ cfg.rMax ∧ cfg.rMin ≤ r then cfg.pd else 0,
    if (cfg.rMax - cfg.buf ≤ r ∧ r ≤ cfg.rMax + cfg.buf) ∨ (cfg.rMin - cfg.buf ≤ r ∧ r ≤ cfg.rMin + cfg.buf) then true else false)

/-- `MeasurementModel_Rng1D::clutterIntensityIntegral`, src/MeasurementModel_Rng1D.cpp 156-159. -/
def rng1dIntegral (cfg : Cfg) : ℝ := cfg.clutter * (cfg.rMax - cfg.rMin)

/-! ### Relative position in space -/

/-- A pose in space: position and quaternion coefficients `x, y, z, w` (`Pose6d`, include/Pose.hpp: the last four components). -/
structure Pose6 where
  p : Fin 3 → ℝ
  q : Fin 4 → ℝ

/-- `Quaternion::conjugate` of Eigen. -/
def conj (q : Fin 4 → ℝ) : Fin 4 → ℝ := ![-q 0, -q 1, -q 2, q 3]

/-- `QuaternionBase::toRotationMatrix` of Eigen. -/
def rotMat (q : Fin 4 → ℝ) : Matrix (Fin 3) (Fin 3) ℝ :=
  !![1 - (2 * q 1 * q 1 + 2 * q 2 * q 2), 2 * q 1 * q 0 - 2 * q 2 * q 3, 2 * q 2 * q 0 + 2 * q 1 * q 3;
     2 * q 1 * q 0 + 2 * q 2 * q 3, 1 - (2 * q 0 * q 0 + 2 * q 2 * q 2), 2 * q 2 * q 1 - 2 * q 0 * q 3;
     2 * q 2 * q 0 - 2 * q 1 * q 3, 2 * q 2 * q 1 + 2 * q 0 * q 3, 1 - (2 * q 0 * q 0 + 2 * q 1 * q 1)]

/-- `norm()` of a vector of three components. -/
noncomputable def norm3 (v : Fin 3 → ℝ) : ℝ := √(v 0 ^ 2 + v 1 ^ 2 + v 2 ^ 2)

/-- `MeasurementModel_6D::measure`, src/MeasurementModel_6D.cpp 72-126. -/
noncomputable def m6d (cfg : Cfg) (R : Matrix (Fin 3) (Fin 3) ℝ) (x : Pose6) (Sx : Matrix (Fin 7) (Fin 7) ℝ) (m : Fin 3 → ℝ)
    (Sm : Matrix (Fin 3) (Fin 3) ℝ) : Out 3 3 7 :=
  let Hl := rotMat (conj x.q)
  let mean := Hl *ᵥ (m - x.p)
  let Hp : Matrix (Fin 3) (Fin 7) ℝ :=
    !![-Hl 0 0, -Hl 0 1, -Hl 0 2, 0, 2 * mean 2, -2 * mean 1, 0;
       -Hl 1 0, -Hl 1 1, -Hl 1 2, -2 * mean 2, 0, 2 * mean 0, 0;
       -Hl 2 0, -Hl 2 1, -Hl 2 2, 2 * mean 1, -2 * mean 0, 0, 0]
  ⟨mean, cov Hl Hp Sm Sx R, Hl, Hp, inRange cfg (norm3 mean)⟩

/-- `MeasurementModel_6D::inverseMeasure`, src/MeasurementModel_6D.cpp 128-151. -/
def m6dInv (R : Matrix (Fin 3) (Fin 3) ℝ) (x : Pose6) (z : Fin 3 → ℝ) :
    (Fin 3 → ℝ) × Matrix (Fin 3) (Fin 3) ℝ × Matrix (Fin 3) (Fin 3) ℝ :=
  let Hinv := rotMat x.q
  (Hinv *ᵥ z + x.p, Hinv * R * Hinvᵀ, Hinv)

/-- `MeasurementModel_6D::probabilityOfDetection`, src/MeasurementModel_6D.cpp 153-182. -/
noncomputable def pd6d (cfg : Cfg) (x : Pose6) (m : Fin 3 → ℝ) : ℝ × Bool := pdOf cfg (norm3 (m - x.p))

/-- `MeasurementModel_6D::clutterIntensityIntegral`, src/MeasurementModel_6D.cpp 190-193. -/
noncomputable def m6dIntegral (cfg : Cfg) : ℝ := cfg.clutter * (4 / 3 * π * (cfg.rMax ^ 3 - cfg.rMin ^ 3))

/-! ### Range, bearing and diameter (Victoria Park) -/

/-- `poseMean[2] - PI/2`, src/MeasurementModel_VictoriaPark.cpp 81-83 and 113-115. -/
noncomputable def vpPose (x : Fin 3 → ℝ) : Fin 3 → ℝ := ![x 0, x 1, x 2 - π / 2]

/-- `MeasurementModel_VictoriaPark::measure`, src/MeasurementModel_VictoriaPark.cpp 104-151: mean, covariance, Jacobian with respect to the
landmark; the value returned is always `true`. The pose handed to the range-bearing model has zero covariance. -/
noncomputable def vp (cfg : Cfg) (R : Matrix (Fin 3) (Fin 3) ℝ) (slb : ℝ) (fuel : Nat) (x : Fin 3 → ℝ) (m : Fin 3 → ℝ)
    (Sm : Matrix (Fin 3) (Fin 3) ℝ) : Option ((Fin 3 → ℝ) × Matrix (Fin 3) (Fin 3) ℝ × Matrix (Fin 3) (Fin 3) ℝ) :=
  (rngBrg cfg !![R 0 0, R 0 1; R 1 0, R 1 1] fuel (vpPose x) 0 ![m 0, m 1] !![Sm 0 0, Sm 0 1; Sm 1 0, Sm 1 1]).map fun o =>
    (![o.z 0, o.z 1, m 2],
      !![o.S 0 0, o.S 0 1, 0; o.S 1 0, o.S 1 1, 0; 0, 0, Sm 2 2 + R 2 2 + o.z 0 ^ 2 * slb],
      !![o.Hl 0 0, o.Hl 0 1, 0; o.Hl 1 0, o.Hl 1 1, 0; 0, 0, 1])

/-- `MeasurementModel_VictoriaPark::inverseMeasure`, src/MeasurementModel_VictoriaPark.cpp 75-103. -/
noncomputable def vpInv (R : Matrix (Fin 3) (Fin 3) ℝ) (x : Fin 3 → ℝ) (z : Fin 3 → ℝ) : (Fin 3 → ℝ) × Matrix (Fin 3) (Fin 3) ℝ :=
  let o := rngBrgInv !![R 0 0, R 0 1; R 1 0, R 1 1] (vpPose x) ![z 0, z 1]
  (![o.1 0, o.1 1, z 2], !![o.2.1 0 0, o.2.1 0 1, 0; o.2.1 1 0, o.2.1 1 1, 0; 0, 0, R 2 2])

/-! ### Innovation -/

/-- Thresholds of the range-bearing Kalman filter; not positive means that the test is off (include/KalmanFilter.hpp). -/
structure Thr where
  range : ℝ
  bearing : ℝ

/-- `KalmanFilter<..., MeasurementModel_RngBrg>::calculateInnovation`, src/KalmanFilter.cpp 28-41 (and
`KalmanFilter_RngBrg_amplitude::calculateInnovation`, src/KalmanFilter_RngBrg_amplitude.cpp 52-66). The outer `none` is an unfinished loop, the inner
`none` is the return value `false`. -/
noncomputable def innovation (t : Thr) (fuel : Nat) (zexp zact : Fin 2 → ℝ) : Option (Option (Fin 2 → ℝ)) :=
  if 0 < t.range ∧ t.range < |zact 0 - zexp 0| then some none
  else
    (wrap fuel (zact 1 - zexp 1)).map fun b => if 0 < t.bearing ∧ t.bearing < |b| then none else some ![zact 0 - zexp 0, b]

end Meas
end RFS
