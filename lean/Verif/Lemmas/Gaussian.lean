import Verif.Model.Gaussian
import Mathlib.Probability.Distributions.Gaussian.Multivariate
import Mathlib.MeasureTheory.Integral.Pi
import Mathlib.MeasureTheory.Measure.Lebesgue.Basic
import Mathlib.LinearAlgebra.Matrix.PosDef
import Mathlib.Algebra.Order.Star.Real

/-! Lemmas on the Gaussian density. -/

set_option linter.unusedSectionVars false

namespace RFS
namespace Gauss
open Real Matrix MeasureTheory ProbabilityTheory

variable {n : Nat}

/-- Density of `n` independent standard normal numbers. -/
noncomputable def stdDens (w : Fin n → ℝ) : ℝ := ∏ i, gaussianPDFReal 0 1 (w i)

theorem pi_gaussian : Measure.pi (fun _ : Fin n => gaussianReal 0 1) = (volume : Measure (Fin n → ℝ)).withDensity (fun w => ENNReal.ofReal (stdDens w)) := by
  refine Measure.pi_eq fun s hs => ?_
  rw [withDensity_apply _ (MeasurableSet.univ_pi hs)]
  have hm : volume.restrict (Set.univ.pi s) = Measure.pi (fun i => (volume : Measure ℝ).restrict (s i)) := by
    rw [volume_pi, Measure.restrict_pi_pi]
  have hint : Integrable (stdDens (n := n)) (volume.restrict (Set.univ.pi s)) := by
    rw [hm]
    exact Integrable.fintype_prod (fun i => (integrable_gaussianPDFReal 0 1).restrict)
  rw [← ofReal_integral_eq_lintegral_ofReal hint (Filter.Eventually.of_forall fun w => Finset.prod_nonneg fun i _ => gaussianPDFReal_nonneg _ _ _), hm]
  unfold stdDens
  rw [integral_fintype_prod_eq_prod, ENNReal.ofReal_prod_of_nonneg]
  · refine Finset.prod_congr rfl fun i _ => ?_
    rw [gaussianReal_apply_eq_integral 0 one_ne_zero]
  · exact fun i _ => integral_nonneg fun x => gaussianPDFReal_nonneg _ _ _

theorem stdDens_eq (w : Fin n → ℝ) : stdDens w = exp (-(1 / 2) * (w ⬝ᵥ w)) / √((2 * π) ^ n) := by
  unfold stdDens
  simp only [gaussianPDFReal, NNReal.coe_one, mul_one, sub_zero]
  rw [Finset.prod_mul_distrib, Finset.prod_const, Finset.card_univ, Fintype.card_fin, ← exp_sum, div_eq_inv_mul, inv_pow]
  congr 2
  · symm
    rw [Real.sqrt_eq_iff_mul_self_eq (by positivity) (by positivity), ← mul_pow, Real.mul_self_sqrt (by positivity)]
  · rw [dotProduct, Finset.mul_sum]
    exact Finset.sum_congr rfl fun i _ => by ring

theorem mahal2_sample {x w : Fin n → ℝ} {L S : Matrix (Fin n) (Fin n) ℝ} (hL : L.det ≠ 0) (hS : L * Lᵀ = S) : mahal2 x S (sample x L w) = w ⬝ᵥ w := by
  have hu : IsUnit L.det := isUnit_iff_ne_zero.2 hL
  have hut : IsUnit Lᵀ.det := by rwa [det_transpose]
  unfold mahal2 sample
  rw [add_sub_cancel_left, ← hS, Matrix.mul_inv_rev, mulVec_mulVec, mul_assoc, nonsing_inv_mul _ hu, mul_one, ← vecMul_transpose, dotProduct_mulVec, ← dotProduct_mulVec,
    ← dotProduct_mulVec, mulVec_mulVec, mul_nonsing_inv _ hut, one_mulVec]

theorem factor_chol {L S : Matrix (Fin n) (Fin n) ℝ} (hS : L * Lᵀ = S) : factor S = √((2 * π) ^ n) * |L.det| := by
  unfold factor
  rw [← hS, det_mul, det_transpose, Real.sqrt_mul (by positivity), Real.sqrt_mul_self_eq_abs]

theorem stdDens_lik {x w : Fin n → ℝ} {L S : Matrix (Fin n) (Fin n) ℝ} (hL : L.det ≠ 0) (hS : L * Lᵀ = S) :
    stdDens w = |L.det| * lik x S (sample x L w) := by
  have h1 : (0 : ℝ) < √((2 * π) ^ n) := Real.sqrt_pos.2 (by positivity)
  have h2 : |L.det| ≠ 0 := abs_ne_zero.2 hL
  rw [stdDens_eq, lik, mahal2_sample hL hS, factor_chol hS]
  field_simp

theorem continuous_lik (x : Fin n → ℝ) (S : Matrix (Fin n) (Fin n) ℝ) : Continuous (lik x S) := by
  unfold lik mahal2
  refine Continuous.div_const ?_ _
  refine Real.continuous_exp.comp (continuous_const.mul ?_)
  refine Continuous.dotProduct (by fun_prop) ?_
  exact Continuous.matrix_mulVec continuous_const (by fun_prop)

theorem continuous_sample (x : Fin n → ℝ) (L : Matrix (Fin n) (Fin n) ℝ) : Continuous (sample x L) := by
  unfold sample
  exact continuous_const.add (Continuous.matrix_mulVec continuous_const continuous_id)

theorem map_volume {x : Fin n → ℝ} {L : Matrix (Fin n) (Fin n) ℝ} (hL : L.det ≠ 0) :
    (volume : Measure (Fin n → ℝ)).map (sample x L) = ENNReal.ofReal |L.det⁻¹| • volume := by
  have h1 : sample x L = (fun y => x + y) ∘ (toLin' L) := by
    funext w
    simp [sample, toLin'_apply]
  rw [h1, ← Measure.map_map (by fun_prop) (LinearMap.continuous_of_finiteDimensional _).measurable, Real.map_matrix_volume_pi_eq_smul_volume_pi hL,
    Measure.map_smul, map_add_left_eq_self]

/-- The law of a sample has the likelihood as its density. -/
theorem sample_density {x : Fin n → ℝ} {L S : Matrix (Fin n) (Fin n) ℝ} (hL : L.det ≠ 0) (hS : L * Lᵀ = S) :
    (Measure.pi fun _ : Fin n => gaussianReal 0 1).map (sample x L) = (volume : Measure (Fin n → ℝ)).withDensity (fun y => ENNReal.ofReal (lik x S y)) := by
  have hm := (continuous_sample x L).measurable
  have hl : Measurable fun y => ENNReal.ofReal (lik x S y) := (continuous_lik x S).measurable.ennreal_ofReal
  have hc : ENNReal.ofReal |L.det| * ENNReal.ofReal |L.det⁻¹| = 1 := by
    rw [← ENNReal.ofReal_mul (abs_nonneg _), ← abs_mul, mul_inv_cancel₀ hL, abs_one, ENNReal.ofReal_one]
  ext s hs
  rw [Measure.map_apply hm hs, pi_gaussian, withDensity_apply _ (hm hs), withDensity_apply _ hs]
  have h1 : ∀ w, ENNReal.ofReal (stdDens w) = ENNReal.ofReal |L.det| * ENNReal.ofReal (lik x S (sample x L w)) := by
    intro w
    rw [stdDens_lik hL hS, ENNReal.ofReal_mul (abs_nonneg _)]
  simp_rw [h1]
  rw [lintegral_const_mul (f := fun w => ENNReal.ofReal (lik x S (sample x L w))) _ (hl.comp hm), ← setLIntegral_map hs hl hm, map_volume hL, Measure.restrict_smul, lintegral_smul_measure, smul_eq_mul, ← mul_assoc, hc, one_mul]

end Gauss
end RFS
