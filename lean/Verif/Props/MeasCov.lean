import Verif.Props.Jacobians
import Mathlib.Analysis.Matrix.PosDef
import Mathlib.Data.Real.StarOrdered

/-!
C106: the covariance of a predicted measurement. C77: the orientation part of the Jacobian of the space model.

Specification: `Propagated o Sm Sx R` says that the covariance is that of the first-order error `Hl δm + Hp δx + noise` for independent errors of the landmark, the
pose and the measurement; by C77 the two matrices are the derivatives.
-/

namespace RFS
namespace MeasCovProps
open Real Matrix Meas JacProps

/-- Entry by entry: the covariance of `Σ_a Hl i a δm a + Σ_a Hp i a δx a + v i`. -/
def Propagated {n m p : Nat} (o : Out n m p) (Sm : Matrix (Fin m) (Fin m) ℝ) (Sx : Matrix (Fin p) (Fin p) ℝ) (R : Matrix (Fin n) (Fin n) ℝ) : Prop :=
  ∀ i j, o.S i j = (∑ a, ∑ b, o.Hl i a * Sm a b * o.Hl j b) + (∑ a, ∑ b, o.Hp i a * Sx a b * o.Hp j b) + R i j

theorem sandwich {n m : Nat} (H : Matrix (Fin n) (Fin m) ℝ) (S : Matrix (Fin m) (Fin m) ℝ) (i j : Fin n) :
    (H * S * Hᵀ) i j = ∑ a, ∑ b, H i a * S a b * H j b := by
  simp only [Matrix.mul_apply, Matrix.transpose_apply, Finset.sum_mul]
  exact Finset.sum_comm

theorem cov_propagated {n m p : Nat} (z : Fin n → ℝ) (Hl : Matrix (Fin n) (Fin m) ℝ) (Hp : Matrix (Fin n) (Fin p) ℝ) (Sm : Matrix (Fin m) (Fin m) ℝ)
    (Sx : Matrix (Fin p) (Fin p) ℝ) (R : Matrix (Fin n) (Fin n) ℝ) (ok : Bool) : Propagated ⟨z, cov Hl Hp Sm Sx R, Hl, Hp, ok⟩ Sm Sx R := by
  intro i j
  simp only [cov, Matrix.add_apply, sandwich]

/-- **C106**, range and bearing. -/
theorem C106_rngbrg (cfg : Cfg) (R : Matrix (Fin 2) (Fin 2) ℝ) (fuel : Nat) (x : Fin 3 → ℝ) (Sx : Matrix (Fin 3) (Fin 3) ℝ) (m : Fin 2 → ℝ)
    (Sm : Matrix (Fin 2) (Fin 2) ℝ) (o : Out 2 2 3) (h : rngBrg cfg R fuel x Sx m Sm = some o) : Propagated o Sm Sx R := by
  unfold rngBrg at h
  simp only [Option.map_eq_some_iff] at h
  obtain ⟨b, -, rfl⟩ := h
  exact cov_propagated _ _ _ _ _ _ _

/-- **C106**, plane. -/
theorem C106_xy (cfg : Cfg) (R : Matrix (Fin 2) (Fin 2) ℝ) (x : Fin 3 → ℝ) (Sx : Matrix (Fin 3) (Fin 3) ℝ) (m : Fin 2 → ℝ) (Sm : Matrix (Fin 2) (Fin 2) ℝ) :
    Propagated (xy cfg R x Sx m Sm) Sm Sx R := cov_propagated _ _ _ _ _ _ _

/-- **C106**, line. -/
theorem C106_rng1d (cfg : Cfg) (R Sx Sm x m : ℝ) : Propagated (rng1d cfg R Sx Sm x m) !![Sm] !![Sx] !![R] := by
  intro i j
  fin_cases i; fin_cases j
  simp [rng1d]

/-- **C106**, space. -/
theorem C106_6d (cfg : Cfg) (R : Matrix (Fin 3) (Fin 3) ℝ) (x : Pose6) (Sx : Matrix (Fin 7) (Fin 7) ℝ) (m : Fin 3 → ℝ) (Sm : Matrix (Fin 3) (Fin 3) ℝ) :
    Propagated (m6d cfg R x Sx m Sm) Sm Sx R := cov_propagated _ _ _ _ _ _ _

theorem psd_of {n m p : Nat} (o : Out n m p) (Sm : Matrix (Fin m) (Fin m) ℝ) (Sx : Matrix (Fin p) (Fin p) ℝ) (R : Matrix (Fin n) (Fin n) ℝ)
    (h : Propagated o Sm Sx R) (h1 : Sm.PosSemidef) (h2 : Sx.PosSemidef) (h3 : R.PosSemidef) : o.S.PosSemidef := by
  have e : o.S = o.Hl * Sm * o.Hlᵀ + o.Hp * Sx * o.Hpᵀ + R := by
    ext i j
    rw [h i j]
    simp only [Matrix.add_apply, sandwich]
  rw [e]
  exact ((h1.mul_mul_conjTranspose_same o.Hl).add (h2.mul_mul_conjTranspose_same o.Hp)).add h3

/-- **C106**: so the covariance is one (symmetric, positive semidefinite) whenever the three given ones are, and it is at least the measurement noise. -/
theorem C106_psd {n m p : Nat} (o : Out n m p) (Sm : Matrix (Fin m) (Fin m) ℝ) (Sx : Matrix (Fin p) (Fin p) ℝ) (R : Matrix (Fin n) (Fin n) ℝ)
    (h : Propagated o Sm Sx R) (h1 : Sm.PosSemidef) (h2 : Sx.PosSemidef) (h3 : R.PosSemidef) : o.S.PosSemidef ∧ (o.S - R).PosSemidef := by
  refine ⟨psd_of o Sm Sx R h h1 h2 h3, ?_⟩
  have e : o.S - R = o.Hl * Sm * o.Hlᵀ + o.Hp * Sx * o.Hpᵀ := by
    ext i j
    rw [Matrix.sub_apply, h i j]
    simp only [Matrix.add_apply, sandwich]
    ring
  rw [e]
  exact (h1.mul_mul_conjTranspose_same o.Hl).add (h2.mul_mul_conjTranspose_same o.Hp)

/-- Non-trivial instance: a landmark of variance 1, a pose of variance 4, noise 1 / 4. -/
example : (rng1d ⟨1, 0, 10, 0, 0⟩ (1 / 4) 4 1 3 5).S 0 0 = 21 / 4 := by simp [rng1d]; norm_num

/-- **C77**, space, orientation: the Jacobian is the derivative for a small rotation of the robot by `-δ` in its own frame (`q ⊗ (-t δ, 1)`, whose first-order
change is `-(q ⊗ δ)`), so it is the negative of the derivative for a rotation by `δ`. Missing: the derivative with respect to the quaternion coefficients
themselves, `C77_6d_violated`. -/
theorem C77_6d_orientation_partial (cfg : Cfg) (R : Matrix (Fin 3) (Fin 3) ℝ) (x : Pose6) (Sx : Matrix (Fin 7) (Fin 7) ℝ) (m : Fin 3 → ℝ)
    (Sm : Matrix (Fin 3) (Fin 3) ℝ) (hu : x.q 0 ^ 2 + x.q 1 ^ 2 + x.q 2 ^ 2 + x.q 3 ^ 2 = 1) (δ : Fin 3 → ℝ) (c : ℝ) :
    HasDerivAt (fun t : ℝ => (m6d cfg R ⟨x.p, x.q + t • ![-(x.q 3 * δ 0 + x.q 1 * δ 2 - x.q 2 * δ 1), -(x.q 3 * δ 1 + x.q 2 * δ 0 - x.q 0 * δ 2),
        -(x.q 3 * δ 2 + x.q 0 * δ 1 - x.q 1 * δ 0), x.q 0 * δ 0 + x.q 1 * δ 1 + x.q 2 * δ 2]⟩ Sx m Sm).z)
      (lin (m6d cfg R x Sx m Sm) 0 ![0, 0, 0, δ 0, δ 1, δ 2, c]) 0 := by
  have quad : ∀ (f : ℝ → ℝ) (B : ℝ), (∀ t, f t = f 0 + t * B + t ^ 2 * ((f 1 + f (-1)) / 2 - f 0)) → HasDerivAt f B 0 := by
    intro f B hf
    have h1 := ((hasDerivAt_id (0 : ℝ)).mul_const B).const_add (f 0)
    have h2 := ((hasDerivAt_id (0 : ℝ)).pow 2).mul_const ((f 1 + f (-1)) / 2 - f 0)
    have h3 : f = fun t => f 0 + t * B + t ^ 2 * ((f 1 + f (-1)) / 2 - f 0) := funext hf
    rw [h3]
    exact (h1.add h2).congr_deriv (by simp)
  obtain ⟨p, q⟩ := x
  simp only at hu
  rw [hasDerivAt_pi]
  intro i
  refine quad _ _ fun t => ?_
  fin_cases i
  · simp [m6d, lin, rotMat, conj, mulVec, dotProduct, Fin.sum_univ_three, Fin.sum_univ_succ]
    linear_combination (t * (2 * δ 1 * (m 2 - p 2) - 2 * δ 2 * (m 1 - p 1))) * hu
  · simp [m6d, lin, rotMat, conj, mulVec, dotProduct, Fin.sum_univ_three, Fin.sum_univ_succ]
    linear_combination (t * (2 * δ 2 * (m 0 - p 0) - 2 * δ 0 * (m 2 - p 2))) * hu
  · simp [m6d, lin, rotMat, conj, mulVec, dotProduct, Fin.sum_univ_three, Fin.sum_univ_succ]
    linear_combination (t * (2 * δ 0 * (m 1 - p 1) - 2 * δ 1 * (m 0 - p 0))) * hu

/-- What C106 says of the Victoria Park model: the noise is that of the sensor, and the diameter's grows with the range. -/
def C106_vp_full : Prop := ∀ (cfg : Cfg) (R : Matrix (Fin 3) (Fin 3) ℝ) (slb : ℝ) (fuel : Nat) (x m : Fin 3 → ℝ) (Sm : Matrix (Fin 3) (Fin 3) ℝ)
  (z : Fin 3 → ℝ) (S H : Matrix (Fin 3) (Fin 3) ℝ), Sm.PosSemidef → R.PosSemidef → vp cfg R slb fuel x m Sm = some (z, S, H) →
  ∀ i j, S i j = (∑ a, ∑ b, H i a * Sm a b * H j b) + R i j + if i = 2 ∧ j = 2 then z 0 ^ 2 * slb else 0

/-- **C106**, Victoria Park, in part: right if the diameter is not correlated with the position, neither in the landmark nor in the noise. Missing: correlated
ones (`C106_vp_violated`), and the pose covariance, which the code does not read at all. -/
theorem C106_vp_partial (cfg : Cfg) (R : Matrix (Fin 3) (Fin 3) ℝ) (slb : ℝ) (fuel : Nat) (x m : Fin 3 → ℝ) (Sm : Matrix (Fin 3) (Fin 3) ℝ)
    (z : Fin 3 → ℝ) (S H : Matrix (Fin 3) (Fin 3) ℝ) (h : vp cfg R slb fuel x m Sm = some (z, S, H))
    (hS : ∀ i : Fin 2, Sm i.castSucc 2 = 0 ∧ Sm 2 i.castSucc = 0) (hR : ∀ i : Fin 2, R i.castSucc 2 = 0 ∧ R 2 i.castSucc = 0) (i j : Fin 3) :
    S i j = (∑ a, ∑ b, H i a * Sm a b * H j b) + R i j + if i = 2 ∧ j = 2 then z 0 ^ 2 * slb else 0 := by
  unfold vp at h
  simp only [Option.map_eq_some_iff] at h
  obtain ⟨o, ho, he⟩ := h
  have hp := C106_rngbrg _ _ _ _ _ _ _ _ ho
  cases he
  have s0 := hS 0; have s1 := hS 1; have r0 := hR 0; have r1 := hR 1
  simp only [Fin.castSucc_zero, Fin.isValue, Fin.castSucc_one] at s0 s1 r0 r1
  fin_cases i <;> fin_cases j <;>
    simp [hp 0 0, hp 0 1, hp 1 0, hp 1 1, Fin.sum_univ_three, Fin.sum_univ_two, s0, s1, r0, r1] <;> ring

/-- **C106** fails for the Victoria Park model when the noise of the diameter is correlated with that of the range. -/
theorem C106_vp_violated : ¬ C106_vp_full := by
  intro h
  obtain ⟨c, N, hc, -⟩ := wrap_spec (atan2 ((0 : ℝ) - 0) (1 - 0) - (0 - π / 2))
  have hR : (Matrix.of fun _ _ => 1 : Matrix (Fin 3) (Fin 3) ℝ).PosSemidef := by
    have := Matrix.posSemidef_vecMulVec_self_star (fun _ => 1 : Fin 3 → ℝ)
    convert this using 1
    ext i j
    simp [vecMulVec]
  have hv : ∃ o, vp ⟨0, 0, 0, 0, 0⟩ (Matrix.of fun _ _ => 1) 0 N 0 ![1, 0, 0] 0 = some o ∧ o.2.1 0 2 = 0 := by
    have e := hc N le_rfl
    refine ⟨_, by simp only [vp, rngBrg, vpPose]; simp only [Pi.zero_apply, cons_val_zero, cons_val_one, cons_val]; rw [e]; rfl, ?_⟩
    simp
  obtain ⟨⟨z, S, H⟩, h1, h2⟩ := hv
  have := h _ _ _ _ _ _ _ _ _ _ Matrix.PosSemidef.zero hR h1 0 2
  rw [show S 0 2 = 0 from h2] at this
  simp at this

end MeasCovProps
end RFS
