import Verif.Lemmas.Gaussian
import Mathlib.Analysis.Matrix.PosDef
import Mathlib.Analysis.Calculus.Deriv.Pow
import Mathlib.Analysis.Calculus.Deriv.Mul
import Mathlib.Analysis.Calculus.Deriv.Add
import Mathlib.Analysis.SpecialFunctions.ExpDeriv

/-! C149-C152: Gaussian likelihood, its gradient, and samples. -/

set_option linter.unusedSectionVars false

namespace RFS
namespace GaussProps
open Real Matrix MeasureTheory ProbabilityTheory Gauss
open scoped RealInnerProductSpace

variable {n : Nat}

/-! ### C149: the likelihood is the Gaussian density -/

theorem factor_pos {S : Matrix (Fin n) (Fin n) ℝ} (hS : S.PosDef) : 0 < factor S := by
  have := hS.det_pos
  exact Real.sqrt_pos.2 (by positivity)

theorem mahal2_nonneg {S : Matrix (Fin n) (Fin n) ℝ} (hS : S.PosDef) (x y : Fin n → ℝ) : 0 ≤ mahal2 x S y := by
  have := hS.inv.posSemidef.dotProduct_mulVec_nonneg (y - x)
  rwa [star_trivial] at this

open scoped MatrixOrder in
/-- A symmetric square root of a positive definite matrix. -/
theorem exists_root {S : Matrix (Fin n) (Fin n) ℝ} (hS : S.PosDef) : ∃ L : Matrix (Fin n) (Fin n) ℝ, L * Lᵀ = S ∧ L.det ≠ 0 := by
  have h1 : CFC.sqrt S * (CFC.sqrt S)ᵀ = S := by
    have hs : (CFC.sqrt S)ᵀ = CFC.sqrt S := by
      have := (CFC.sqrt_nonneg S).isSelfAdjoint
      simpa [IsSelfAdjoint, star_eq_conjTranspose] using this
    rw [hs, CFC.sqrt_mul_sqrt_self _ hS.posSemidef.nonneg]
  refine ⟨CFC.sqrt S, h1, fun h0 => ?_⟩
  have := hS.det_pos
  rw [← h1, det_mul, h0, zero_mul] at this
  exact lt_irrefl _ this

/-- **C149**: for every positive definite covariance the likelihood integrates to one over all points, is positive, and is greatest at the mean. -/
theorem C149_density (x : Fin n → ℝ) (S : Matrix (Fin n) (Fin n) ℝ) (hS : S.PosDef) :
    ∫ y, lik x S y = 1 ∧ (∀ y, 0 < lik x S y) ∧ (∀ y, lik x S y ≤ lik x S x) ∧ ∀ y, lik x S y = lik x S x → y = x := by
  obtain ⟨L, hL, hd⟩ := exists_root hS
  have hf := factor_pos hS
  have hpos : ∀ y, 0 < lik x S y := fun y => div_pos (exp_pos _) hf
  have h0 : mahal2 x S x = 0 := by simp [mahal2]
  refine ⟨?_, hpos, ?_, ?_⟩
  · have h1 := sample_density (x := x) hd hL
    have h2 : ∫⁻ y, ENNReal.ofReal (lik x S y) = 1 := by
      have h3 : ((Measure.pi fun _ : Fin n => gaussianReal 0 1).map (sample x L)) Set.univ = 1 := by
        rw [Measure.map_apply (continuous_sample x L).measurable MeasurableSet.univ]
        simp
      rw [h1, withDensity_apply _ MeasurableSet.univ, Measure.restrict_univ] at h3
      exact h3
    rw [integral_eq_lintegral_of_nonneg_ae (Filter.Eventually.of_forall fun y => (hpos y).le) (continuous_lik x S).aestronglyMeasurable, h2]
    rfl
  · intro y
    unfold lik
    rw [h0]
    refine div_le_div_of_nonneg_right (exp_le_exp.2 ?_) hf.le
    have := mahal2_nonneg hS x y
    linarith
  · intro y hy
    unfold lik at hy
    rw [h0, div_left_inj' hf.ne', exp_eq_exp] at hy
    by_contra hne
    have := hS.inv.dotProduct_mulVec_pos (sub_ne_zero.2 hne)
    simp only [star_trivial] at this
    unfold mahal2 at hy
    linarith

/-- The overloads agree with each other, and the log-likelihood is the logarithm of the likelihood. -/
theorem C149_agree (x : Fin n → ℝ) (S : Matrix (Fin n) (Fin n) ℝ) (hS : S.PosDef) (y : Fin n → ℝ) :
    logLik x S y = log (lik x S y) ∧ likGrad x S y = (lik x S y, nError x S y, mahal2 x S y) ∧ logLikGrad x S y = (log (lik x S y), nError x S y, mahal2 x S y) := by
  have h : logLik x S y = log (lik x S y) := by
    unfold logLik lik
    rw [log_div (exp_pos _).ne' (factor_pos hS).ne', log_exp]
  refine ⟨h, rfl, ?_⟩
  rw [← h]
  rfl

/-- In one dimension it is the density of the normal distribution. -/
theorem C149_normal (m v y : ℝ) (hv : 0 < v) : lik ![m] !![v] ![y] = gaussianPDFReal m ⟨v, hv.le⟩ y := by
  have h1 : mahal2 ![m] !![v] ![y] = (y - m) ^ 2 / v := by
    unfold mahal2
    simp [Matrix.inv_def, Ring.inverse_eq_inv']
    field_simp
  unfold lik factor gaussianPDFReal
  rw [h1, det_fin_one]
  simp only [of_apply, cons_val', cons_val_fin_one, pow_one]
  rw [div_eq_inv_mul]
  congr 2
  change -(1 / 2) * ((y - m) ^ 2 / v) = -(y - m) ^ 2 / (2 * v)
  field_simp

/-- A covariance with negative determinant makes the likelihood zero. -/
theorem C149_indefinite (x : Fin n → ℝ) (S : Matrix (Fin n) (Fin n) ℝ) (h : S.det < 0) (y : Fin n → ℝ) : lik x S y = 0 := by
  unfold lik factor
  rw [Real.sqrt_eq_zero_of_nonpos, div_zero]
  exact mul_nonpos_of_nonneg_of_nonpos (by positivity) h.le

/-! ### C150: samples -/

/-- **C150**: with independent standard normal numbers a sample is distributed as the Gaussian with the mean and the covariance of the random vector, whatever factor
of the covariance is used; in particular its mean and covariance are these. -/
theorem C150_law (x : Fin n → ℝ) (L S : Matrix (Fin n) (Fin n) ℝ) (hS : L * Lᵀ = S) :
    ((Measure.pi fun _ : Fin n => gaussianReal 0 1).map (sample x L)).map (WithLp.toLp 2) = multivariateGaussian (WithLp.toLp 2 x) S := by
  have hpsd : S.PosSemidef := by
    rw [← hS]
    exact posSemidef_self_mul_conjTranspose L
  have hmap : ((Measure.pi fun _ : Fin n => gaussianReal 0 1).map (sample x L)).map (WithLp.toLp 2) =
      ((stdGaussian (EuclideanSpace ℝ (Fin n))).map (toEuclideanCLM (𝕜 := ℝ) L)).map (fun z => WithLp.toLp 2 x + z) := by
    rw [← map_pi_eq_stdGaussian, Measure.map_map (by fun_prop) (continuous_sample x L).measurable, Measure.map_map (by fun_prop) (by fun_prop),
      Measure.map_map (by fun_prop) (by fun_prop)]
    rfl
  rw [hmap]
  apply IsGaussian.ext
  · rw [integral_id_multivariateGaussian', integral_map (by fun_prop) (by fun_prop)]
    simp only [id]
    rw [integral_add (integrable_const _) IsGaussian.integrable_fun_id, integral_const, integral_map (by fun_prop) (by fun_prop),
      ContinuousLinearMap.integral_comp_comm _ IsGaussian.integrable_fun_id]
    simp
  · ext u v
    rw [covarianceBilin_multivariateGaussian hpsd, covarianceBilin_map_const_add, covarianceBilin_map IsGaussian.memLp_two_id, covarianceBilin_stdGaussian, innerSL_apply_apply,
      ContinuousLinearMap.adjoint_inner_left, ← ContinuousLinearMap.star_eq_adjoint, ← map_star, ← ContinuousLinearMap.comp_apply, ← ContinuousLinearMap.mul_def,
      ← map_mul, inner_toEuclideanCLM, ← hS]
    rfl

/-- Mean and covariance of the entries of a sample. -/
theorem C150_moments (x : Fin n → ℝ) (L S : Matrix (Fin n) (Fin n) ℝ) (hS : L * Lᵀ = S) (i j : Fin n) :
    ∫ w, sample x L w i ∂(Measure.pi fun _ : Fin n => gaussianReal 0 1) = x i ∧
      cov[fun w => sample x L w i, fun w => sample x L w j; Measure.pi fun _ : Fin n => gaussianReal 0 1] = S i j := by
  have hpsd : S.PosSemidef := by
    rw [← hS]
    exact posSemidef_self_mul_conjTranspose L
  have hl := C150_law x L S hS
  have hm : Measurable fun w : Fin n → ℝ => WithLp.toLp 2 (sample x L w) := by
    have := (continuous_sample x L).measurable
    fun_prop
  have hc : (Measure.pi fun _ : Fin n => gaussianReal 0 1).map (fun w => WithLp.toLp 2 (sample x L w)) = multivariateGaussian (WithLp.toLp 2 x) S := by
    rw [← hl, Measure.map_map (by fun_prop) (continuous_sample x L).measurable]
    rfl
  constructor
  · have h1 : ∫ z : EuclideanSpace ℝ (Fin n), z i ∂(multivariateGaussian (WithLp.toLp 2 x) S) = x i := by
      have := ContinuousLinearMap.integral_comp_id_comm (μ := multivariateGaussian (WithLp.toLp 2 x) S) IsGaussian.integrable_id (EuclideanSpace.proj (𝕜 := ℝ) i)
      simp only [EuclideanSpace.coe_proj] at this
      rw [this]
      simp
    rw [← hc, integral_map hm.aemeasurable (by fun_prop)] at h1
    exact h1
  · have h2 := covariance_eval_multivariateGaussian (μ := WithLp.toLp 2 x) hpsd i j
    rw [← hc, covariance_map (by fun_prop) (by fun_prop) hm.aemeasurable] at h2
    exact h2

/-- The samples are drawn from the density that the likelihood evaluates. -/
theorem C150_density (x : Fin n → ℝ) (L S : Matrix (Fin n) (Fin n) ℝ) (hS : L * Lᵀ = S) (hL : L.det ≠ 0) (s : Set (Fin n → ℝ)) (hs : MeasurableSet s) :
    (Measure.pi fun _ : Fin n => gaussianReal 0 1) {w | sample x L w ∈ s} = ∫⁻ y in s, ENNReal.ofReal (lik x S y) := by
  have h := congrArg (fun μ => μ s) (sample_density (x := x) hL hS)
  rw [Measure.map_apply (continuous_sample x L).measurable hs, withDensity_apply _ hs] at h
  exact h

/-! ### C151: the gradient -/

theorem mahal2_line {S : Matrix (Fin n) (Fin n) ℝ} (hS : Sᵀ = S) (x y v : Fin n → ℝ) (t : ℝ) :
    mahal2 (x + t • v) S y = mahal2 x S y - 2 * t * (nError x S y ⬝ᵥ v) + t ^ 2 * (v ⬝ᵥ (S⁻¹ *ᵥ v)) := by
  have hsym : (S⁻¹)ᵀ = S⁻¹ := by rw [transpose_nonsing_inv, hS]
  have hc : ∀ a b : Fin n → ℝ, a ⬝ᵥ (S⁻¹ *ᵥ b) = (S⁻¹ *ᵥ a) ⬝ᵥ b := by
    intro a b
    rw [dotProduct_mulVec, ← mulVec_transpose, hsym]
  unfold mahal2 nError
  have e : y - (x + t • v) = (y - x) - t • v := by abel
  rw [e, mulVec_sub, mulVec_smul, sub_dotProduct, dotProduct_sub, dotProduct_sub, dotProduct_smul, smul_dotProduct, smul_dotProduct, dotProduct_smul, hc (y - x) v,
    dotProduct_comm v (S⁻¹ *ᵥ (y - x))]
  simp only [smul_eq_mul]
  ring

/-- **C151**: for a symmetric covariance, `n_error` is the gradient of the log-likelihood by the mean, and the likelihood times it that of the likelihood: along every direction `v` the derivative is the product with `v`. -/
theorem C151_mean (x y v : Fin n → ℝ) (S : Matrix (Fin n) (Fin n) ℝ) (hS : Sᵀ = S) :
    HasDerivAt (fun t : ℝ => logLik (x + t • v) S y) ((logLikGrad x S y).2.1 ⬝ᵥ v) 0 ∧
      HasDerivAt (fun t : ℝ => lik (x + t • v) S y) ((likGrad x S y).1 * ((likGrad x S y).2.1 ⬝ᵥ v)) 0 := by
  have hq : HasDerivAt (fun t : ℝ => -(1 / 2) * mahal2 (x + t • v) S y) (nError x S y ⬝ᵥ v) 0 := by
    have h1 : (fun t : ℝ => -(1 / 2) * mahal2 (x + t • v) S y) =
        fun t : ℝ => -(1 / 2) * mahal2 x S y + t * (nError x S y ⬝ᵥ v) + t ^ 2 * (-(1 / 2) * (v ⬝ᵥ (S⁻¹ *ᵥ v))) := by
      funext t
      rw [mahal2_line hS]
      ring
    rw [h1]
    have h2 := (((hasDerivAt_id (0 : ℝ)).mul_const (nError x S y ⬝ᵥ v)).const_add (-(1 / 2) * mahal2 x S y)).add
      (((hasDerivAt_id (0 : ℝ)).pow 2).mul_const (-(1 / 2) * (v ⬝ᵥ (S⁻¹ *ᵥ v))))
    refine h2.congr_deriv ?_
    simp
  constructor
  · exact hq.sub_const _
  · have := (hq.exp).div_const (factor S)
    refine this.congr_deriv ?_
    simp only [zero_smul, add_zero, likGrad, nError, mahal2]
    ring

/-- The gradient by the evaluation point is the negative one. -/
theorem C151_point (x y v : Fin n → ℝ) (S : Matrix (Fin n) (Fin n) ℝ) (hS : Sᵀ = S) :
    HasDerivAt (fun t : ℝ => logLik x S (y + t • v)) (-((logLikGrad x S y).2.1 ⬝ᵥ v)) 0 := by
  have h := (C151_mean x y (-v) S hS).1
  have e : (fun t : ℝ => logLik x S (y + t • v)) = fun t : ℝ => logLik (x + t • -v) S y := by
    funext t
    unfold logLik mahal2
    have : y + t • v - x = y - (x + t • -v) := by rw [smul_neg]; abel
    rw [this]
  rw [e]
  refine h.congr_deriv ?_
  rw [dotProduct_neg]

/-- The squared distance that is reported is the product of the error and `n_error`. -/
theorem C151_distance (x y : Fin n → ℝ) (S : Matrix (Fin n) (Fin n) ℝ) :
    (likGrad x S y).2.2 = (y - x) ⬝ᵥ (likGrad x S y).2.1 ∧ (logLikGrad x S y).2.2 = (y - x) ⬝ᵥ (logLikGrad x S y).2.1 := ⟨rfl, rfl⟩

/-- For a covariance that is not symmetric `n_error` is not the gradient. -/
theorem C151_asymmetric_violated : ∃ (x y v : Fin 2 → ℝ) (S : Matrix (Fin 2) (Fin 2) ℝ), S.det ≠ 0 ∧ (logLikGrad x S y).2.1 ⬝ᵥ v = 0 ∧
    ¬ HasDerivAt (fun t : ℝ => logLik (x + t • v) S y) ((logLikGrad x S y).2.1 ⬝ᵥ v) 0 := by
  have hi : (!![1, 1; 0, 1] : Matrix (Fin 2) (Fin 2) ℝ)⁻¹ = !![1, -1; 0, 1] := by
    rw [Matrix.inv_def, det_fin_two, adjugate_fin_two]
    ext i j
    fin_cases i <;> fin_cases j <;> simp
  have h0 : (logLikGrad (0 : Fin 2 → ℝ) !![1, 1; 0, 1] ![1, 0]).2.1 ⬝ᵥ ![0, 1] = 0 := by
    simp only [logLikGrad, hi]
    simp [mulVec, dotProduct, Fin.sum_univ_two]
  refine ⟨0, ![1, 0], ![0, 1], !![1, 1; 0, 1], by simp [det_fin_two], h0, ?_⟩
  · have e : (fun t : ℝ => logLik ((0 : Fin 2 → ℝ) + t • ![0, 1]) !![1, 1; 0, 1] ![1, 0]) =
        fun t : ℝ => -(1 / 2) * (1 + t + t ^ 2) - log (factor !![1, 1; 0, 1]) := by
      funext t
      unfold logLik mahal2
      rw [hi]
      simp [mulVec, dotProduct, Fin.sum_univ_two]
      ring
    rw [e, h0]
    intro h
    have h2 := ((((hasDerivAt_id (0 : ℝ)).const_add 1).add ((hasDerivAt_id (0 : ℝ)).pow 2)).const_mul (-(1 / 2))).sub_const (log (factor !![1, 1; 0, 1]))
    have := h.unique h2
    norm_num at this

/-! ### C152: the static functions -/

/-- **C152**: `sample` of the static functions gives the same sample as the member function, but it also makes it the mean of the next one: after `k` samples the mean
is off by the sum of all the noise so far. -/
theorem C152_drift_partial (x : Fin n → ℝ) (L : Matrix (Fin n) (Fin n) ℝ) (w : Nat → Fin n → ℝ) (k : Nat) :
    (samplesMT x L w k).1 = x + L *ᵥ (∑ i ∈ Finset.range k, w i) ∧ (samplesMT x L w k).2.length = k ∧
      ∀ i < k, (samplesMT x L w k).2[i]? = some (sample x L (∑ j ∈ Finset.range (i + 1), w j)) := by
  induction k with
  | zero => simp [samplesMT]
  | succ k ih =>
    obtain ⟨h1, h2, h3⟩ := ih
    have hx : (samplesMT x L w k).1 + L *ᵥ w k = x + L *ᵥ (∑ i ∈ Finset.range (k + 1), w i) := by
      rw [h1, Finset.sum_range_succ, mulVec_add, add_assoc]
    refine ⟨?_, ?_, ?_⟩
    · exact hx
    · simp [samplesMT, h2]
    · intro i hi
      simp only [samplesMT, sampleMT]
      rcases Nat.lt_succ_iff_lt_or_eq.1 hi with hlt | rfl
      · rw [List.getElem?_append_left (by omega), h3 i hlt]
      · rw [List.getElem?_append_right (by omega), h2, Nat.sub_self, hx]
        rfl

/-- So the second of two samples of a standard normal number has variance 2. -/
theorem C152_violated : ∃ f : (Fin 2 → ℝ) → Fin 1 → ℝ, (∀ w : Fin 2 → ℝ, (samplesMT ![0] !![1] (fun i => ![if i = 0 then w 0 else w 1]) 2).2[1]? = some (f w)) ∧
    cov[fun w => f w 0, fun w => f w 0; Measure.pi fun _ : Fin 2 => gaussianReal 0 1] = 2 := by
  refine ⟨fun w => ![w 0 + w 1], fun w => ?_, ?_⟩
  · have := (C152_drift_partial ![0] !![1] (fun i => ![if i = 0 then w 0 else w 1]) 2).2.2 1 (by norm_num)
    rw [this, Finset.sum_range_succ, Finset.sum_range_one]
    congr 1
    funext i
    fin_cases i
    simp [sample, mulVec, dotProduct]
  · have h := (C150_moments (0 : Fin 2 → ℝ) !![1, 1; 0, 1] _ rfl 0 0).2
    have e : ∀ w : Fin 2 → ℝ, sample (0 : Fin 2 → ℝ) !![1, 1; 0, 1] w 0 = w 0 + w 1 := by
      intro w
      simp [sample, mulVec, dotProduct, Fin.sum_univ_two]
    simp only [e] at h
    rw [show (2 : ℝ) = ((!![1, 1; 0, 1] : Matrix (Fin 2) (Fin 2) ℝ) * (!![1, 1; 0, 1] : Matrix (Fin 2) (Fin 2) ℝ)ᵀ) 0 0 by
      simp [Matrix.mul_apply, Fin.sum_univ_two]; norm_num]
    exact h

/-- The distance between random vectors is the Euclidean distance of their means. -/
theorem C152_euclid (x y : Fin n → ℝ) : euclid x y = dist (WithLp.toLp 2 x : EuclideanSpace ℝ (Fin n)) (WithLp.toLp 2 y) := by
  rw [EuclideanSpace.dist_eq]
  unfold euclid
  congr 1
  refine Finset.sum_congr rfl fun i _ => ?_
  simp [Real.dist_eq, sq_abs]
  ring

/-- The hypotheses can be met. -/
example : (!![2, 1; 1, 2] : Matrix (Fin 2) (Fin 2) ℝ)ᵀ = !![2, 1; 1, 2] ∧ (!![2, 0; 0, 3] : Matrix (Fin 2) (Fin 2) ℝ).PosDef := by
  constructor
  · ext i j; fin_cases i <;> fin_cases j <;> rfl
  · have : (!![2, 0; 0, 3] : Matrix (Fin 2) (Fin 2) ℝ) = diagonal ![2, 3] := by ext i j; fin_cases i <;> fin_cases j <;> rfl
    rw [this, posDef_diagonal_iff]
    intro i; fin_cases i <;> norm_num

end GaussProps
end RFS
