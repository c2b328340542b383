import Verif.Model.Kalman
import Mathlib.LinearAlgebra.Matrix.PosDef
import Mathlib.Analysis.Matrix.PosDef
import Mathlib.LinearAlgebra.Matrix.SchurComplement
import Mathlib.Tactic.NoncommRing
import Mathlib.Tactic.Module
import Mathlib.Tactic.Linarith
import Mathlib.Tactic.Ring
import Mathlib.Tactic.FieldSimp
import Mathlib.Tactic.NormNum

set_option linter.unusedSectionVars false

namespace RFS
namespace Kalman
open Real Matrix

variable {n m : Nat} {H : Matrix (Fin n) (Fin m) ℝ} {P : Matrix (Fin m) (Fin m) ℝ} {N S : Matrix (Fin n) (Fin n) ℝ}

theorem ctr {a b : Type} (A : Matrix a b ℝ) : Aᴴ = Aᵀ := conjTranspose_eq_transpose_of_trivial A

theorem psd_conj {a b : Nat} {Q : Matrix (Fin a) (Fin a) ℝ} (h : Q.PosSemidef) (A : Matrix (Fin b) (Fin a) ℝ) : (A * Q * Aᵀ).PosSemidef := by
  have := h.mul_mul_conjTranspose_same A
  rwa [ctr] at this

theorem psd_symm {a : Nat} {Q : Matrix (Fin a) (Fin a) ℝ} (h : Q.PosSemidef) : Qᵀ = Q := by
  have := h.1.eq
  rwa [ctr] at this

/-- `K S = P Hᵀ`. -/
theorem gain_mul (e : Expected n m) (h : IsUnit e.S.det) : gain e P * e.S = P * e.Hᵀ := by
  rw [gain, Matrix.mul_assoc, nonsing_inv_mul _ h, Matrix.mul_one]

/-- The unsymmetrised covariance is `P - P Hᵀ S⁻¹ H P`. -/
theorem cov_raw (e : Expected n m) : (1 - gain e P * e.H) * P = P - P * e.Hᵀ * e.S⁻¹ * e.H * P := by
  rw [gain, Matrix.sub_mul, Matrix.one_mul]

theorem cov_raw_symm (e : Expected n m) (hP : Pᵀ = P) (hS : e.Sᵀ = e.S) :
    ((1 - gain e P * e.H) * P)ᵀ = (1 - gain e P * e.H) * P := by
  rw [cov_raw]
  simp only [transpose_sub, transpose_mul, transpose_transpose, hP, transpose_nonsing_inv, hS, Matrix.mul_assoc]

/-- Symmetrising changes nothing in exact arithmetic. -/
theorem covUpd_eq (e : Expected n m) (hP : Pᵀ = P) (hS : e.Sᵀ = e.S) : covUpd e P = (1 - gain e P * e.H) * P := by
  unfold covUpd
  simp only [cov_raw_symm e hP hS]
  rw [← two_smul ℝ, smul_smul]
  norm_num

theorem covUpd_symm (e : Expected n m) : (covUpd e P)ᵀ = covUpd e P := by
  unfold covUpd
  simp only [transpose_smul, transpose_add, transpose_transpose]
  rw [add_comm]

/-- Joseph form. -/
theorem joseph (e : Expected n m) (hP : Pᵀ = P) (hS : e.S = e.H * P * e.Hᵀ + N) (hdet : IsUnit e.S.det) :
    (1 - gain e P * e.H) * P = (1 - gain e P * e.H) * P * (1 - gain e P * e.H)ᵀ + gain e P * N * (gain e P)ᵀ := by
  have hK := gain_mul (P := P) e hdet
  generalize gain e P = K at hK ⊢
  have hN : K * N = P * e.Hᵀ - K * (e.H * P * e.Hᵀ) := by
    rw [← hK, hS]
    rw [Matrix.mul_add]
    abel
  rw [hN]
  simp only [transpose_sub, transpose_one, transpose_mul, Matrix.mul_sub, Matrix.sub_mul, Matrix.one_mul, Matrix.mul_one, Matrix.mul_assoc]
  abel

theorem sub_psd (e : Expected n m) (hP : Pᵀ = P) (hS : e.S.PosSemidef) : (P - (1 - gain e P * e.H) * P).PosSemidef := by
  have h1 : P - (1 - gain e P * e.H) * P = (P * e.Hᵀ) * e.S⁻¹ * (P * e.Hᵀ)ᵀ := by
    rw [cov_raw, transpose_mul, transpose_transpose, hP]
    simp only [Matrix.mul_assoc]
    abel
  rw [h1]
  exact psd_conj hS.inv _

/-! ### The posterior -/

section Posterior

variable (e : Expected n m) (hP : P.PosDef) (hN : N.PosDef) (hS : e.S = e.H * P * e.Hᵀ + N)
include hP hN hS

theorem S_posDef : e.S.PosDef := by
  rw [hS]
  exact Matrix.PosDef.posSemidef_add (psd_conj hP.posSemidef e.H) hN

theorem gain_N : gain e P * N = (1 - gain e P * e.H) * P * e.Hᵀ := by
  have hK := gain_mul (P := P) e ((isUnit_iff_isUnit_det _).1 (S_posDef e hP hN hS).isUnit)
  rw [Matrix.sub_mul, Matrix.one_mul, Matrix.sub_mul, ← hK]
  rw [show gain e P * e.S = gain e P * (e.H * P * e.Hᵀ + N) by rw [← hS], Matrix.mul_add]
  simp only [Matrix.mul_assoc]
  abel

/-- `P⁺ (P⁻¹ + Hᵀ N⁻¹ H) = 1`. -/
theorem info_form : ((1 - gain e P * e.H) * P) * (P⁻¹ + e.Hᵀ * N⁻¹ * e.H) = 1 := by
  have uP := (isUnit_iff_isUnit_det _).1 hP.isUnit
  have uN := (isUnit_iff_isUnit_det _).1 hN.isUnit
  rw [Matrix.mul_add, Matrix.mul_assoc, mul_nonsing_inv _ uP, Matrix.mul_one]
  rw [← Matrix.mul_assoc, ← Matrix.mul_assoc, ← gain_N e hP hN hS, Matrix.mul_assoc (gain e P) N, mul_nonsing_inv _ uN, Matrix.mul_one]
  abel

theorem inv_eq : ((1 - gain e P * e.H) * P)⁻¹ = P⁻¹ + e.Hᵀ * N⁻¹ * e.H := inv_eq_right_inv (info_form e hP hN hS)

/-- `P⁺⁻¹ K = Hᵀ N⁻¹`. -/
theorem inv_gain : ((1 - gain e P * e.H) * P)⁻¹ * gain e P = e.Hᵀ * N⁻¹ := by
  have uN := (isUnit_iff_isUnit_det _).1 hN.isUnit
  have uQ : IsUnit ((1 - gain e P * e.H) * P).det := by
    have := info_form e hP hN hS
    exact (isUnit_iff_isUnit_det _).1 (IsUnit.of_mul_eq_one _ this)
  have h := gain_N e hP hN hS
  have h2 : gain e P = ((1 - gain e P * e.H) * P) * (e.Hᵀ * N⁻¹) := by
    rw [← Matrix.mul_assoc, ← h, Matrix.mul_assoc, mul_nonsing_inv _ uN, Matrix.mul_one]
  conv_lhs => rw [h2]
  rw [← Matrix.mul_assoc, ← h2]
  rw [nonsing_inv_mul _ uQ, Matrix.one_mul]

/-- `N⁻¹ = Kᵀ Hᵀ N⁻¹ + S⁻¹`. -/
theorem inv_noise : N⁻¹ = (gain e P)ᵀ * (e.Hᵀ * N⁻¹) + e.S⁻¹ := by
  have hSp := S_posDef e hP hN hS
  have uN := (isUnit_iff_isUnit_det _).1 hN.isUnit
  have uS := (isUnit_iff_isUnit_det _).1 hSp.isUnit
  have hKt : (gain e P)ᵀ = e.S⁻¹ * (e.H * P) := by
    rw [gain, transpose_mul, transpose_mul, transpose_transpose, psd_symm hP.posSemidef, transpose_nonsing_inv, psd_symm hSp.posSemidef]
  rw [hKt]
  have h1 : e.S⁻¹ * e.S * N⁻¹ = N⁻¹ := by rw [nonsing_inv_mul _ uS, Matrix.one_mul]
  conv_lhs => rw [← h1]
  rw [show e.S⁻¹ * e.S = e.S⁻¹ * (e.H * P * e.Hᵀ + N) by rw [← hS]]
  rw [Matrix.mul_add, Matrix.add_mul, Matrix.mul_assoc e.S⁻¹ N, mul_nonsing_inv _ uN, Matrix.mul_one]
  simp only [Matrix.mul_assoc]

theorem det_eq : ((1 - gain e P * e.H) * P).det * e.S.det = P.det * N.det := by
  have hSp := S_posDef e hP hN hS
  have uS := (isUnit_iff_isUnit_det _).1 hSp.isUnit
  have h1 : (1 - gain e P * e.H).det = (1 - e.H * gain e P).det := det_one_sub_mul_comm _ _
  have h2 : (1 - e.H * gain e P) * e.S = N := by
    rw [Matrix.sub_mul, Matrix.one_mul, Matrix.mul_assoc, gain_mul e uS]
    rw [← Matrix.mul_assoc]
    conv_lhs => rw [hS]
    abel
  rw [det_mul, h1, mul_comm (det (1 - e.H * gain e P)), mul_assoc, ← det_mul, h2]

theorem quad_eq (d : Fin m → ℝ) (ν : Fin n → ℝ) :
    md2 P d + md2 N (ν - e.H *ᵥ d) = md2 ((1 - gain e P * e.H) * P) (d - gain e P *ᵥ ν) + md2 e.S ν := by
  have hSp := S_posDef e hP hN hS
  have symN : (N⁻¹)ᵀ = N⁻¹ := by rw [transpose_nonsing_inv, psd_symm hN.posSemidef]
  have h1 := inv_eq e hP hN hS
  have h2 := inv_gain e hP hN hS
  have h3 := inv_noise e hP hN hS
  have symQ : (((1 - gain e P * e.H) * P)⁻¹)ᵀ = ((1 - gain e P * e.H) * P)⁻¹ := by
    rw [transpose_nonsing_inv, cov_raw_symm e (psd_symm hP.posSemidef) (psd_symm hSp.posSemidef)]
  generalize hQ : ((1 - gain e P * e.H) * P) = Q at h1 h2 symQ ⊢
  generalize gain e P = K at h2 h3 hQ ⊢
  unfold md2
  simp only [mulVec_sub, sub_dotProduct, dotProduct_sub, mulVec_mulVec]
  -- bring everything to the form `vector ⬝ᵥ (matrix *ᵥ vector)`
  have a1 : (e.H *ᵥ d) ⬝ᵥ (N⁻¹ *ᵥ ν) = d ⬝ᵥ ((e.Hᵀ * N⁻¹) *ᵥ ν) := by
    rw [dotProduct_comm, dotProduct_mulVec, dotProduct_comm, ← mulVec_transpose, mulVec_mulVec]
  have a2 : ν ⬝ᵥ ((N⁻¹ * e.H) *ᵥ d) = d ⬝ᵥ ((e.Hᵀ * N⁻¹) *ᵥ ν) := by
    rw [dotProduct_mulVec, dotProduct_comm, ← mulVec_transpose, transpose_mul, symN]
  have a3 : (e.H *ᵥ d) ⬝ᵥ ((N⁻¹ * e.H) *ᵥ d) = d ⬝ᵥ ((e.Hᵀ * N⁻¹ * e.H) *ᵥ d) := by
    rw [dotProduct_comm, dotProduct_mulVec, dotProduct_comm, ← mulVec_transpose, mulVec_mulVec, Matrix.mul_assoc]
  have b1 : (K *ᵥ ν) ⬝ᵥ (Q⁻¹ *ᵥ d) = d ⬝ᵥ ((Q⁻¹ * K) *ᵥ ν) := by
    rw [dotProduct_mulVec, dotProduct_comm, ← mulVec_transpose, symQ, mulVec_mulVec]
  have b2 : (K *ᵥ ν) ⬝ᵥ ((Q⁻¹ * K) *ᵥ ν) = ν ⬝ᵥ ((Kᵀ * (Q⁻¹ * K)) *ᵥ ν) := by
    rw [dotProduct_comm, dotProduct_mulVec, dotProduct_comm, ← mulVec_transpose, mulVec_mulVec]
  have c1 : d ⬝ᵥ (Q⁻¹ *ᵥ d) = d ⬝ᵥ (P⁻¹ *ᵥ d) + d ⬝ᵥ ((e.Hᵀ * N⁻¹ * e.H) *ᵥ d) := by
    rw [h1, add_mulVec, dotProduct_add]
  have c2 : ν ⬝ᵥ (N⁻¹ *ᵥ ν) = ν ⬝ᵥ ((Kᵀ * (e.Hᵀ * N⁻¹)) *ᵥ ν) + ν ⬝ᵥ (e.S⁻¹ *ᵥ ν) := by
    conv_lhs => rw [h3]
    rw [add_mulVec, dotProduct_add]
  rw [a1, a2, a3, b1, b2, c1, c2, h2]
  ring

end Posterior

/-! ### The loop of the vector version -/

theorem foldl_update {ι α : Type} [DecidableEq ι] (f : ι → α → α) : ∀ (l : List ι) (s : ι → α), l.Nodup → ∀ j,
    l.foldl (fun s i => Function.update s i (f i (s i))) s j = if j ∈ l then f j (s j) else s j := by
  intro l
  induction l with
  | nil => intro s _ j; simp
  | cons i l ih =>
    intro s hnd j
    have hi : i ∉ l := (List.nodup_cons.1 hnd).1
    rw [List.foldl_cons, ih _ (List.nodup_cons.1 hnd).2]
    by_cases hj : j = i
    · subst hj
      simp [hi]
    · simp [hj, Function.update_of_ne hj]

theorem loopV_apply {k : Nat} (e : Expected n m) (innov : (Fin n → ℝ) → (Fin n → ℝ) → Option (Fin n → ℝ)) (cur : Gauss m)
    (z : Fin k → Fin n → ℝ) (s : Fin k → Cell m) (i : Fin k) : loopV e innov cur z s i = stepCell e innov cur (z i) (s i) := by
  unfold loopV
  rw [foldl_update (fun i c => stepCell e innov cur (z i) c) _ _ (List.nodup_finRange k)]
  simp

theorem zeroAt_spec (k : Nat) (l : List ℝ) : (k ≤ l.length → zeroAt k l = some (List.replicate k 0 ++ l.drop k)) ∧ (l.length < k → zeroAt k l = none) := by
  induction k with
  | zero => simp [zeroAt]
  | succ k ih =>
    have hs : zeroAt (k + 1) l = (zeroAt k l).bind fun l => if k < l.length then some (l.set k 0) else none := by
      simp only [zeroAt, List.range_succ, List.foldl_append, List.foldl_cons, List.foldl_nil]
    constructor
    · intro h
      rw [hs, ih.1 (by omega)]
      have hl : k < (List.replicate k (0 : ℝ) ++ l.drop k).length := by simp; omega
      simp only [Option.bind_some, if_pos hl]
      congr 1
      rw [List.set_append_right _ _ (by simp)]
      rw [List.length_replicate, Nat.sub_self, List.drop_eq_getElem_cons (by omega : k < l.length), List.set_cons_zero]
      rw [List.replicate_succ', List.append_assoc]
      rfl
    · intro h
      rw [hs]
      by_cases h2 : l.length < k
      · rw [ih.2 h2]; rfl
      · have : l.length = k := by omega
        rw [ih.1 (by omega)]
        simp [this]

end Kalman
end RFS
