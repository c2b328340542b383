import Verif.Model.MeasModels
import Mathlib.LinearAlgebra.Matrix.NonsingularInverse
import Mathlib.Analysis.SpecialFunctions.Log.Basic

/-!
Model of `KalmanFilter::correct` (include/KalmanFilter.hpp), for a single measurement and for a vector of measurements.

Exact real arithmetic; `Sx_.inverse()` is the matrix inverse (the zero matrix for a singular matrix, where Eigen gives inf/NaN: theorems assume an
invertible innovation covariance); NaN does not arise, so that the tests `l != l` disappear. The measurement model and `calculateInnovation` are
arbitrary. The assertion of line 253 is off in the default Release build.
-/

namespace RFS
namespace Kalman
open Real Matrix

/-- A Gaussian random vector: mean and covariance (`RandomVec`). -/
@[ext] structure Gauss (n : Nat) where
  mean : Fin n → ℝ
  cov : Matrix (Fin n) (Fin n) ℝ

/-- `RandomVec::mahalanobisDist2`, include/RandomVec.hpp 428-448, as a function of covariance and difference. -/
noncomputable def md2 {n : Nat} (S : Matrix (Fin n) (Fin n) ℝ) (e : Fin n → ℝ) : ℝ := e ⬝ᵥ (S⁻¹ *ᵥ e)

/-- `RandomVec::evalGaussianLikelihood`, include/RandomVec.hpp 456-470, as a function of covariance and difference. -/
noncomputable def gaussian {n : Nat} (S : Matrix (Fin n) (Fin n) ℝ) (e : Fin n → ℝ) : ℝ :=
  exp (-(1 / 2) * md2 S e) / √((2 * π) ^ n * S.det)

/-- `RandomVec::evalGaussianLogLikelihood`, include/RandomVec.hpp 477-492. -/
noncomputable def gaussianLog {n : Nat} (S : Matrix (Fin n) (Fin n) ℝ) (e : Fin n → ℝ) : ℝ :=
  -(1 / 2) * md2 S e - Real.log √((2 * π) ^ n * S.det)

/-- What `measure` hands to `correct`: expected measurement `z, S`, Jacobian `H` with respect to the landmark, and the value returned. -/
structure Expected (n m : Nat) where
  z : Fin n → ℝ
  S : Matrix (Fin n) (Fin n) ℝ
  H : Matrix (Fin n) (Fin m) ℝ
  ok : Bool

/-- Kalman gain, include/KalmanFilter.hpp 249. -/
noncomputable def gain {n m : Nat} (e : Expected n m) (P : Matrix (Fin m) (Fin m) ℝ) : Matrix (Fin m) (Fin n) ℝ := P * e.Hᵀ * e.S⁻¹

/-- Updated covariance, include/KalmanFilter.hpp 250-251. -/
noncomputable def covUpd {n m : Nat} (e : Expected n m) (P : Matrix (Fin m) (Fin m) ℝ) : Matrix (Fin m) (Fin m) ℝ :=
  let Q := (1 - gain e P * e.H) * P
  (1 / 2 : ℝ) • (Q + Qᵀ)

/-- What `correct` leaves behind: the value returned, the updated landmark, and likelihood and distance if they were written. -/
structure Res (m : Nat) where
  ret : Bool
  upd : Gauss m
  lik : Option (ℝ × ℝ)

/-- `KalmanFilter::correct` for one measurement, include/KalmanFilter.hpp 217-268. `innov` is `calculateInnovation` (`none`: returned `false`), `z` the
measurement, `cur` and `upd` the two landmarks. -/
noncomputable def correct {n m : Nat} (e : Expected n m) (innov : (Fin n → ℝ) → (Fin n → ℝ) → Option (Fin n → ℝ)) (z : Fin n → ℝ)
    (cur upd : Gauss m) : Res m :=
  if e.ok = false then ⟨false, upd, none⟩
  else
    match innov e.z z with
    | none => ⟨false, upd, none⟩
    | some ν => ⟨true, ⟨cur.mean + gain e cur.cov *ᵥ ν, covUpd e cur.cov⟩, some (gaussian e.S (z - e.z), md2 e.S (z - e.z))⟩

/-- One position of the output vectors of the vector version (an array of records instead of three arrays): updated landmark, likelihood and distance;
`none` for a vector that was not supplied. -/
structure Cell (m : Nat) where
  upd : Gauss m
  lik : Option ℝ
  md : Option ℝ

/-- Body of the loop, include/KalmanFilter.hpp 321-345. -/
noncomputable def stepCell {n m : Nat} (e : Expected n m) (innov : (Fin n → ℝ) → (Fin n → ℝ) → Option (Fin n → ℝ)) (cur : Gauss m)
    (z : Fin n → ℝ) (c : Cell m) : Cell m :=
  match innov e.z z with
  | some ν =>
    { upd := ⟨cur.mean + gain e cur.cov *ᵥ ν, covUpd e cur.cov⟩
      lik := c.lik.map fun _ => gaussian e.S (z - e.z)
      md := if c.lik.isSome then c.md.map fun _ => md2 e.S (z - e.z) else c.md }
  | none => { upd := c.upd, lik := c.lik.map fun _ => 0, md := c.md.map fun _ => 0 }

/-- The loop over the measurements, include/KalmanFilter.hpp 320-347. -/
noncomputable def loopV {n m k : Nat} (e : Expected n m) (innov : (Fin n → ℝ) → (Fin n → ℝ) → Option (Fin n → ℝ)) (cur : Gauss m)
    (z : Fin k → Fin n → ℝ) (s : Fin k → Cell m) : Fin k → Cell m :=
  (List.finRange k).foldl (fun s i => Function.update s i (stepCell e innov cur (z i) (s i))) s

/-- `resize(k)` of a vector: keep what is there, fill with the default. -/
def resized {α : Type} (k : Nat) (dflt : α) (l : List α) : Fin k → α := fun i => l.getD i dflt

/-- The loop of lines 295-302: `at(i) = 0` for the first `k` positions; `none` is the exception `std::out_of_range`. -/
def zeroAt (k : Nat) (l : List ℝ) : Option (List ℝ) :=
  (List.range k).foldl (fun acc i => acc.bind fun l => if i < l.length then some (l.set i 0) else none) (some l)

/-- Outcome of the vector version. -/
inductive VRes (m k : Nat)
  /-- `std::out_of_range` -/
  | threw
  /-- returned `false`: landmarks untouched, the two supplied vectors as given -/
  | invalid (upd : List (Gauss m)) (lik md : Option (List ℝ))
  /-- returned `true` -/
  | done (c : Fin k → Cell m)

/-- `KalmanFilter::correct` for a vector of measurements, include/KalmanFilter.hpp 271-351. -/
noncomputable def correctV {n m k : Nat} (e : Expected n m) (innov : (Fin n → ℝ) → (Fin n → ℝ) → Option (Fin n → ℝ)) (dflt : Gauss m)
    (z : Fin k → Fin n → ℝ) (cur : Gauss m) (upd : List (Gauss m)) (lik md : Option (List ℝ)) : VRes m k :=
  if e.ok = false then
    match lik.map (zeroAt k), md.map (zeroAt k) with
    | some none, _ => .threw
    | _, some none => .threw
    | l, d => .invalid upd l.join d.join
  else
    .done (loopV e innov cur z fun i => ⟨resized k dflt upd i, lik.map fun l => resized k 0 l i, md.map fun l => resized k 0 l i⟩)

/-- The expected measurement as the range-bearing model produces it. -/
def ofOut {n m p : Nat} (o : Meas.Out n m p) : Expected n m := ⟨o.z, o.S, o.Hl, o.ok⟩

end Kalman
end RFS
