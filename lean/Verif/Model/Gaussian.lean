import Mathlib.Data.Matrix.Mul
import Mathlib.LinearAlgebra.Matrix.NonsingularInverse
import Mathlib.Analysis.SpecialFunctions.Log.Basic
import Mathlib.Analysis.SpecialFunctions.Trigonometric.Basic
import Mathlib.Analysis.Real.Sqrt

/-!
Model of the formulas of `RandomVec` (include/RandomVec.hpp) and of `RandomVecMathTools` (include/RandomVecMathTools.hpp): distances, Gaussian likelihood, sampling.
(Which cached values they use is the subject of `Verif.Model.RandomVec`.)

Exact real arithmetic. For a covariance with negative determinant the code computes the square root of a negative number, finds the result to be NaN and returns 0
(include/RandomVec.hpp 465-466); the square root is 0 here and so is the quotient. A singular covariance, for which the code divides by zero, is not modelled faithfully; theorems are about
regular ones.
-/

namespace RFS
namespace Gauss
open Real Matrix

variable {n : Nat}

/-- `mahalanobisDist2`, include/RandomVec.hpp 428-448 and include/RandomVecMathTools.hpp 66-97. -/
noncomputable def mahal2 (x : Fin n → ℝ) (S : Matrix (Fin n) (Fin n) ℝ) (y : Fin n → ℝ) : ℝ := (y - x) ⬝ᵥ (S⁻¹ *ᵥ (y - x))

/-- `gaussian_pdf_factor_`, include/RandomVec.hpp 460 (also 481, 506, 534, 561, 583); include/RandomVecMathTools.hpp 139. -/
noncomputable def factor (S : Matrix (Fin n) (Fin n) ℝ) : ℝ := √((2 * π) ^ n * S.det)

/-- `evalGaussianLikelihood`, include/RandomVec.hpp 456-471 and 557-571, include/RandomVecMathTools.hpp 133-171. -/
noncomputable def lik (x : Fin n → ℝ) (S : Matrix (Fin n) (Fin n) ℝ) (y : Fin n → ℝ) : ℝ := exp (-(1 / 2) * mahal2 x S y) / factor S

/-- `evalGaussianLogLikelihood`, include/RandomVec.hpp 477-494 and 579-592. -/
noncomputable def logLik (x : Fin n → ℝ) (S : Matrix (Fin n) (Fin n) ℝ) (y : Fin n → ℝ) : ℝ := -(1 / 2) * mahal2 x S y - log (factor S)

/-- `n_error` of the overloads with gradient, include/RandomVec.hpp 514 and 542. -/
noncomputable def nError (x : Fin n → ℝ) (S : Matrix (Fin n) (Fin n) ℝ) (y : Fin n → ℝ) : Fin n → ℝ := S⁻¹ *ᵥ (y - x)

/-- `evalGaussianLikelihood` with `n_error`, include/RandomVec.hpp 502-522: likelihood, `n_error`, `mDist2`. -/
noncomputable def likGrad (x : Fin n → ℝ) (S : Matrix (Fin n) (Fin n) ℝ) (y : Fin n → ℝ) : ℝ × (Fin n → ℝ) × ℝ :=
  let e := y - x
  let ne := S⁻¹ *ᵥ e
  let md2 := e ⬝ᵥ ne
  (exp (-(1 / 2) * md2) / factor S, ne, md2)

/-- `evalGaussianLogLikelihood` with `n_error`, include/RandomVec.hpp 530-549. -/
noncomputable def logLikGrad (x : Fin n → ℝ) (S : Matrix (Fin n) (Fin n) ℝ) (y : Fin n → ℝ) : ℝ × (Fin n → ℝ) × ℝ :=
  let e := y - x
  let ne := S⁻¹ *ᵥ e
  let md2 := e ⬝ᵥ ne
  (-(1 / 2) * md2 - log (factor S), ne, md2)

/-- `sample(s_sample)` and `sample()`, include/RandomVec.hpp 598-644: `L` is the Cholesky factor, `w` the independent normal numbers. -/
def sample (x : Fin n → ℝ) (L : Matrix (Fin n) (Fin n) ℝ) (w : Fin n → ℝ) : Fin n → ℝ := x + L *ᵥ w

/-- `RandomVecMathTools::sample(x, Sx, Sx_L, t, s_sample)`, include/RandomVecMathTools.hpp 214-237: `x += e` changes the caller's mean. The new `x` and the sample. -/
def sampleMT (x : Fin n → ℝ) (L : Matrix (Fin n) (Fin n) ℝ) (w : Fin n → ℝ) : (Fin n → ℝ) × (Fin n → ℝ) := (x + L *ᵥ w, x + L *ᵥ w)

/-- `k` samples in a row from the same variables, with the numbers `w 0`, …, `w (k - 1)`: `x` afterwards, the samples. -/
def samplesMT (x : Fin n → ℝ) (L : Matrix (Fin n) (Fin n) ℝ) (w : Nat → Fin n → ℝ) : Nat → (Fin n → ℝ) × List (Fin n → ℝ)
  | 0 => (x, [])
  | k + 1 =>
    let s := samplesMT x L w k
    ((sampleMT s.1 L (w k)).1, s.2 ++ [(sampleMT s.1 L (w k)).2])

/-- `euclidianDist`, include/RandomVecMathTools.hpp 73-80. -/
noncomputable def euclid (x y : Fin n → ℝ) : ℝ := √(∑ i, (y i - x i) ^ 2)

end Gauss
end RFS
