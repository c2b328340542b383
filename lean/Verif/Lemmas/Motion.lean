import Verif.Model.Motion
import Verif.Lemmas.MeasModels
import Verif.Lemmas.Kalman
import Verif.Props.TimeStamp
import Mathlib.Analysis.SpecialFunctions.ExpDeriv
import Mathlib.Analysis.Calculus.Deriv.Pow
import Mathlib.Tactic.LinearCombination

set_option linter.unusedSectionVars false

namespace RFS
namespace Motion
open Real Matrix TimeStamp TimeStampProps

/-- Adding a duration to a time does not overflow. -/
def NoOverflow (t dT : TS) : Prop := InI32 (t.sec + dT.sec) ∧ InI32 ((instant t + instant dT) / 1000000000)

theorem add_ok {t dT : TS} (ht : Normalised t) (hd : Normalised dT) (h : NoOverflow t dT) :
    ∃ r, add t dT = some r ∧ addAssign t dT = some r ∧ instant r = instant t + instant dT := by
  obtain ⟨r, h1, h2, -, h3⟩ := (binop_exact t dT ht hd).1 h.1 h.2
  exact ⟨r, h1, h2, h3⟩

theorem transformVector_eq (q : Fin 4 → ℝ) (v : Fin 3 → ℝ) : transformVector q v = Meas.rotMat q *ᵥ v := by
  funext i
  fin_cases i <;>
    simp [transformVector, cross, Meas.rotMat, mulVec, dotProduct, Fin.sum_univ_three, vecHead, vecTail] <;> ring

theorem unit_mulQ {a b : Fin 4 → ℝ} (ha : Meas.Unit4 a) (hb : Meas.Unit4 b) : Meas.Unit4 (mulQ a b) := by
  unfold Meas.Unit4 at *
  simp only [mulQ, cons_val]
  have : (a 0 ^ 2 + a 1 ^ 2 + a 2 ^ 2 + a 3 ^ 2) * (b 0 ^ 2 + b 1 ^ 2 + b 2 ^ 2 + b 3 ^ 2) = 1 := by rw [ha, hb, one_mul]
  rw [← this]; ring

/-- Homogeneous form of the rotation matrix. -/
def rotH (q : Fin 4 → ℝ) : Matrix (Fin 3) (Fin 3) ℝ :=
  !![q 3 ^ 2 + q 0 ^ 2 - q 1 ^ 2 - q 2 ^ 2, 2 * q 1 * q 0 - 2 * q 2 * q 3, 2 * q 2 * q 0 + 2 * q 1 * q 3;
     2 * q 1 * q 0 + 2 * q 2 * q 3, q 3 ^ 2 - q 0 ^ 2 + q 1 ^ 2 - q 2 ^ 2, 2 * q 2 * q 1 - 2 * q 0 * q 3;
     2 * q 2 * q 0 - 2 * q 1 * q 3, 2 * q 2 * q 1 + 2 * q 0 * q 3, q 3 ^ 2 - q 0 ^ 2 - q 1 ^ 2 + q 2 ^ 2]

theorem rotMat_eq_rotH {q : Fin 4 → ℝ} (h : Meas.Unit4 q) : Meas.rotMat q = rotH q := by
  unfold Meas.Unit4 at h
  ext i j
  fin_cases i <;> fin_cases j <;> simp [Meas.rotMat, rotH] <;> linarith

theorem rotH_mulQ (a b : Fin 4 → ℝ) : rotH (mulQ a b) = rotH a * rotH b := by
  ext i j
  fin_cases i <;> fin_cases j <;> simp [rotH, mulQ, Matrix.mul_apply, Fin.sum_univ_three] <;> ring

theorem rotMat_mulQ {a b : Fin 4 → ℝ} (ha : Meas.Unit4 a) (hb : Meas.Unit4 b) : Meas.rotMat (mulQ a b) = Meas.rotMat a * Meas.rotMat b := by
  rw [rotMat_eq_rotH ha, rotMat_eq_rotH hb, rotMat_eq_rotH (unit_mulQ ha hb), rotH_mulQ]

theorem unit_normalizeQ {q : Fin 4 → ℝ} (h : q ≠ 0) : Meas.Unit4 (normalizeQ q) := by
  have hz : 0 < q 0 ^ 2 + q 1 ^ 2 + q 2 ^ 2 + q 3 ^ 2 := by
    by_contra hc
    apply h
    funext i
    fin_cases i <;> simp <;> nlinarith [sq_nonneg (q 0), sq_nonneg (q 1), sq_nonneg (q 2), sq_nonneg (q 3)]
  unfold Meas.Unit4 normalizeQ
  simp only [hz, if_true, div_pow, sq_sqrt hz.le]
  field_simp

/-! ### Derivative of the Gaussian -/

variable {n : Nat} (Q : Matrix (Fin n) (Fin n) ℝ)

theorem md2_line (hQ : Qᵀ = Q) (e v : Fin n → ℝ) (t : ℝ) :
    Kalman.md2 Q (e + t • v) = Kalman.md2 Q e + t * (2 * ((Q⁻¹ *ᵥ e) ⬝ᵥ v)) + t ^ 2 * Kalman.md2 Q v := by
  have hs : (Q⁻¹)ᵀ = Q⁻¹ := by rw [transpose_nonsing_inv, hQ]
  have hx : e ⬝ᵥ (Q⁻¹ *ᵥ v) = (Q⁻¹ *ᵥ e) ⬝ᵥ v := by
    rw [dotProduct_mulVec, ← mulVec_transpose, hs]
  unfold Kalman.md2
  simp only [mulVec_add, mulVec_smul, dotProduct_add, add_dotProduct, dotProduct_smul, smul_dotProduct, smul_eq_mul, hx]
  rw [dotProduct_comm v (Q⁻¹ *ᵥ e)]
  ring

theorem hasDerivAt_md2 (hQ : Qᵀ = Q) (e v : Fin n → ℝ) :
    HasDerivAt (fun t : ℝ => Kalman.md2 Q (e + t • v)) (2 * ((Q⁻¹ *ᵥ e) ⬝ᵥ v)) 0 := by
  have h : (fun t : ℝ => Kalman.md2 Q (e + t • v)) =
      fun t => Kalman.md2 Q e + t * (2 * ((Q⁻¹ *ᵥ e) ⬝ᵥ v)) + t ^ 2 * Kalman.md2 Q v := by
    funext t; exact md2_line Q hQ e v t
  rw [h]
  have h1 : HasDerivAt (fun t : ℝ => t * (2 * ((Q⁻¹ *ᵥ e) ⬝ᵥ v))) (1 * (2 * ((Q⁻¹ *ᵥ e) ⬝ᵥ v))) 0 := (hasDerivAt_id' (0 : ℝ)).mul_const _
  have h2 : HasDerivAt (fun t : ℝ => t ^ 2 * Kalman.md2 Q v) ((2 * (0 : ℝ) ^ 1 * 1) * Kalman.md2 Q v) 0 := ((hasDerivAt_id' (0 : ℝ)).fun_pow 2).mul_const _
  exact ((h1.const_add _).fun_add h2).congr_deriv (by ring)

theorem hasDerivAt_log (hQ : Qᵀ = Q) (e v : Fin n → ℝ) :
    HasDerivAt (fun t : ℝ => Kalman.gaussianLog Q (e + t • v)) (-(Q⁻¹ *ᵥ e) ⬝ᵥ v) 0 := by
  unfold Kalman.gaussianLog
  exact (((hasDerivAt_md2 Q hQ e v).const_mul (-(1 / 2))).sub_const _).congr_deriv (by rw [neg_dotProduct]; ring)

theorem hasDerivAt_gaussian (hQ : Qᵀ = Q) (e v : Fin n → ℝ) :
    HasDerivAt (fun t : ℝ => Kalman.gaussian Q (e + t • v)) (Kalman.gaussian Q e * (-(Q⁻¹ *ᵥ e) ⬝ᵥ v)) 0 := by
  unfold Kalman.gaussian
  have h := ((hasDerivAt_md2 Q hQ e v).const_mul (-(1 / 2))).exp
  exact (h.div_const _).congr_deriv (by simp only [zero_smul, add_zero, neg_dotProduct]; ring)

end Motion
end RFS
