import Verif.Model.MeasModels
import Mathlib.LinearAlgebra.Matrix.NonsingularInverse
import Mathlib.Tactic.Linarith
import Mathlib.Tactic.Ring
import Mathlib.Tactic.FieldSimp
import Mathlib.Tactic.NormNum
import Mathlib.Tactic.Positivity
import Mathlib.Tactic.FinCases
import Mathlib.Tactic.LinearCombination
import Mathlib.Algebra.Order.Archimedean.Basic

set_option linter.unusedSectionVars false

namespace RFS
namespace Meas
open Real Matrix

/-! ### The wrapping loops -/

theorem wrapDown_spec (n : Nat) : ∀ b : ℝ, b ≤ π + n * (2 * π) →
    ∃ c, (∀ fuel, n < fuel → wrapDown fuel b = some c) ∧ c ≤ π ∧ (b ≤ π → c = b) ∧ (π < b → -π < c) ∧ ∃ k : ℤ, c = b + k * (2 * π) := by
  induction n with
  | zero =>
    intro b hb
    have hb' : b ≤ π := by simpa using hb
    refine ⟨b, ?_, hb', fun _ => rfl, fun h => absurd h (not_lt.2 hb'), 0, by simp⟩
    intro fuel hf
    obtain ⟨f, rfl⟩ : ∃ f, fuel = f + 1 := ⟨fuel - 1, by omega⟩
    simp [wrapDown, not_lt.2 hb']
  | succ n ih =>
    intro b hb
    by_cases h : π < b
    · have h2 : b - 2 * π ≤ π + n * (2 * π) := by push_cast at hb; linarith
      obtain ⟨c, hc, hcp, hsame, hlow, k, hk⟩ := ih _ h2
      refine ⟨c, ?_, hcp, fun h' => absurd h (not_lt.2 h'), ?_, k - 1, by rw [hk]; push_cast; ring⟩
      · intro fuel hf
        obtain ⟨f, rfl⟩ : ∃ f, fuel = f + 1 := ⟨fuel - 1, by omega⟩
        simp only [wrapDown, if_pos h]
        exact hc f (by omega)
      · intro _
        by_cases h3 : π < b - 2 * π
        · exact hlow h3
        · rw [hsame (not_lt.1 h3)]; linarith
    · refine ⟨b, ?_, not_lt.1 h, fun _ => rfl, fun h' => absurd h' h, 0, by simp⟩
      intro fuel hf
      obtain ⟨f, rfl⟩ : ∃ f, fuel = f + 1 := ⟨fuel - 1, by omega⟩
      simp [wrapDown, h]

theorem wrapUp_spec (n : Nat) : ∀ b : ℝ, -π - n * (2 * π) ≤ b → b ≤ π →
    ∃ c, (∀ fuel, n < fuel → wrapUp fuel b = some c) ∧ c ≤ π ∧ -π ≤ c ∧ (-π ≤ b → c = b) ∧ ∃ k : ℤ, c = b + k * (2 * π) := by
  induction n with
  | zero =>
    intro b hb hb1
    have hb' : -π ≤ b := by simpa using hb
    refine ⟨b, ?_, hb1, hb', fun _ => rfl, 0, by simp⟩
    intro fuel hf
    obtain ⟨f, rfl⟩ : ∃ f, fuel = f + 1 := ⟨fuel - 1, by omega⟩
    simp [wrapUp, not_lt.2 hb']
  | succ n ih =>
    intro b hb hb1
    by_cases h : b < -π
    · have h2 : -π - n * (2 * π) ≤ b + 2 * π := by push_cast at hb; linarith
      obtain ⟨c, hc, hcp, hcm, hsame, k, hk⟩ := ih _ h2 (by linarith)
      refine ⟨c, ?_, hcp, hcm, fun h' => absurd h (not_lt.2 h'), k + 1, by rw [hk]; push_cast; ring⟩
      intro fuel hf
      obtain ⟨f, rfl⟩ : ∃ f, fuel = f + 1 := ⟨fuel - 1, by omega⟩
      simp only [wrapUp, if_pos h]
      exact hc f (by omega)
    · refine ⟨b, ?_, hb1, not_lt.1 h, fun _ => rfl, 0, by simp⟩
      intro fuel hf
      obtain ⟨f, rfl⟩ : ∃ f, fuel = f + 1 := ⟨fuel - 1, by omega⟩
      simp [wrapUp, h]

/-- The loops end, with an angle in `[-π, π]` that differs from the given one by a multiple of `2π`. -/
theorem wrap_spec (b : ℝ) : ∃ c N, (∀ fuel, N ≤ fuel → wrap fuel b = some c) ∧ c ≤ π ∧ -π ≤ c ∧ (-π ≤ b → b ≤ π → c = b) ∧
    ∃ k : ℤ, c = b + k * (2 * π) := by
  have hp : 0 < 2 * π := by positivity
  obtain ⟨n, hn⟩ := exists_nat_ge (b / (2 * π))
  have hn' : b ≤ π + n * (2 * π) := by
    rw [div_le_iff₀ hp] at hn
    have := Real.pi_pos; linarith
  obtain ⟨c, hc, hcp, hsame, -, k, hk⟩ := wrapDown_spec n b hn'
  obtain ⟨n', hn2⟩ := exists_nat_ge (-c / (2 * π))
  have hn2' : -π - n' * (2 * π) ≤ c := by
    rw [div_le_iff₀ hp] at hn2
    have := Real.pi_pos; linarith
  obtain ⟨d, hd, hdp, hdm, hsame', k', hk'⟩ := wrapUp_spec n' c hn2' hcp
  refine ⟨d, n + n' + 1, ?_, hdp, hdm, ?_, k + k', by rw [hk', hk]; push_cast; ring⟩
  · intro fuel hf
    simp only [wrap, hc fuel (by omega), Option.bind_some]
    exact hd fuel (by omega)
  · intro h1 h2
    rw [hsame' (by rw [hsame h2]; exact h1), hsame h2]

theorem wrapDown_mono {f b c} (h : wrapDown f b = some c) : ∀ g, f ≤ g → wrapDown g b = some c := by
  induction f generalizing b with
  | zero => simp [wrapDown] at h
  | succ f ih =>
    intro g hg
    obtain ⟨g, rfl⟩ : ∃ k, g = k + 1 := ⟨g - 1, by omega⟩
    simp only [wrapDown] at h ⊢
    split_ifs at h ⊢ with h1
    · exact ih h g (by omega)
    · exact h

theorem wrapUp_mono {f b c} (h : wrapUp f b = some c) : ∀ g, f ≤ g → wrapUp g b = some c := by
  induction f generalizing b with
  | zero => simp [wrapUp] at h
  | succ f ih =>
    intro g hg
    obtain ⟨g, rfl⟩ : ∃ k, g = k + 1 := ⟨g - 1, by omega⟩
    simp only [wrapUp] at h ⊢
    split_ifs at h ⊢ with h1
    · exact ih h g (by omega)
    · exact h

theorem wrap_mono {f b c} (h : wrap f b = some c) : ∀ g, f ≤ g → wrap g b = some c := by
  intro g hg
  obtain ⟨d, hd, hc⟩ := Option.bind_eq_some_iff.1 h
  simp only [wrap, wrapDown_mono hd g hg, Option.bind_some]
  exact wrapUp_mono hc g hg

/-- Whatever fuel gave a result, the result is in range and congruent. -/
theorem wrap_some {f b c} (h : wrap f b = some c) : c ≤ π ∧ -π ≤ c ∧ (-π ≤ b → b ≤ π → c = b) ∧ ∃ k : ℤ, c = b + k * (2 * π) := by
  obtain ⟨d, N, hd, h1⟩ := wrap_spec b
  have e1 := wrap_mono h (max f N) (le_max_left _ _)
  have e2 := hd (max f N) (le_max_right _ _)
  rw [e1] at e2
  cases Option.some.inj e2
  exact h1

theorem wrap_cos {f b c} (h : wrap f b = some c) : cos c = cos b := by
  obtain ⟨-, -, -, k, hk⟩ := wrap_some h
  rw [hk]
  exact Real.cos_add_int_mul_two_pi b k

theorem wrap_sin {f b c} (h : wrap f b = some c) : sin c = sin b := by
  obtain ⟨-, -, -, k, hk⟩ := wrap_some h
  rw [hk]
  exact Real.sin_add_int_mul_two_pi b k

theorem rngBrg_total (cfg : Cfg) (R : Matrix (Fin 2) (Fin 2) ℝ) (x : Fin 3 → ℝ) (Sx : Matrix (Fin 3) (Fin 3) ℝ) (m : Fin 2 → ℝ)
    (Sm : Matrix (Fin 2) (Fin 2) ℝ) : ∃ o N, ∀ fuel, N ≤ fuel → rngBrg cfg R fuel x Sx m Sm = some o := by
  obtain ⟨c, N, hN, -⟩ := wrap_spec (atan2 (m 1 - x 1) (m 0 - x 0) - x 2)
  have hs : (rngBrg cfg R N x Sx m Sm).isSome := by simp [rngBrg, hN N le_rfl]
  obtain ⟨o, ho⟩ := Option.isSome_iff_exists.1 hs
  refine ⟨o, N, fun fuel hf => ?_⟩
  rw [← ho]
  unfold rngBrg
  simp only [hN fuel hf, hN N le_rfl]

/-! ### Polar coordinates -/

theorem norm_mk (x y : ℝ) : ‖(⟨x, y⟩ : ℂ)‖ = √(x ^ 2 + y ^ 2) := by
  rw [Complex.norm_eq_sqrt_sq_add_sq]

theorem sqrt_mul_cos_atan2 (x y : ℝ) : √(x ^ 2 + y ^ 2) * cos (atan2 y x) = x := by
  rw [← norm_mk, atan2]
  exact Complex.norm_mul_cos_arg ⟨x, y⟩

theorem sqrt_mul_sin_atan2 (x y : ℝ) : √(x ^ 2 + y ^ 2) * sin (atan2 y x) = y := by
  rw [← norm_mk, atan2]
  exact Complex.norm_mul_sin_arg ⟨x, y⟩

theorem atan2_polar {r θ : ℝ} (hr : 0 < r) (h1 : -π < θ) (h2 : θ ≤ π) : atan2 (r * sin θ) (r * cos θ) = θ := by
  have := Complex.arg_mul_cos_add_sin_mul_I hr (θ := θ) ⟨h1, h2⟩
  rw [atan2]
  convert this using 2
  apply Complex.ext <;> simp [Complex.cos_ofReal_re, Complex.sin_ofReal_re, Complex.cos_ofReal_im, Complex.sin_ofReal_im]

/-- For an arbitrary angle, `atan2` recovers it up to a multiple of `2π`. -/
theorem atan2_polar_mod {r : ℝ} (hr : 0 < r) (θ : ℝ) : ∃ k : ℤ, atan2 (r * sin θ) (r * cos θ) = θ + k * (2 * π) := by
  have hx : √((r * cos θ) ^ 2 + (r * sin θ) ^ 2) = r := by
    rw [show (r * cos θ) ^ 2 + (r * sin θ) ^ 2 = r ^ 2 * (cos θ ^ 2 + sin θ ^ 2) by ring, cos_sq_add_sin_sq, mul_one, Real.sqrt_sq hr.le]
  have hc := sqrt_mul_cos_atan2 (r * cos θ) (r * sin θ)
  have hs := sqrt_mul_sin_atan2 (r * cos θ) (r * sin θ)
  rw [hx] at hc hs
  have hc' := mul_left_cancel₀ hr.ne' hc
  have hs' := mul_left_cancel₀ hr.ne' hs
  set a := atan2 (r * sin θ) (r * cos θ)
  have hco : cos (a - θ) = 1 := by rw [cos_sub, hc', hs', ← sq, ← sq, cos_sq_add_sin_sq]
  obtain ⟨k, hk⟩ := (Real.cos_eq_one_iff _).1 hco
  exact ⟨k, by linarith⟩

/-! ### Rotation matrices of unit quaternions -/

/-- The quaternion has length one. -/
def Unit4 (q : Fin 4 → ℝ) : Prop := q 0 ^ 2 + q 1 ^ 2 + q 2 ^ 2 + q 3 ^ 2 = 1

theorem rotMat_conj_transpose (q : Fin 4 → ℝ) : rotMat (conj q) = (rotMat q)ᵀ := by
  ext i j
  fin_cases i <;> fin_cases j <;> simp [rotMat, conj] <;> ring

theorem rotMat_mul_transpose {q : Fin 4 → ℝ} (h : Unit4 q) : rotMat q * (rotMat q)ᵀ = 1 := by
  unfold Unit4 at h
  have h' : q 3 ^ 2 = 1 - q 0 ^ 2 - q 1 ^ 2 - q 2 ^ 2 := by linarith
  ext i j
  fin_cases i <;> fin_cases j <;> simp [rotMat, Matrix.mul_apply, Fin.sum_univ_three] <;> ring_nf <;> simp only [h'] <;> ring

theorem rotMat_transpose_mul {q : Fin 4 → ℝ} (h : Unit4 q) : (rotMat q)ᵀ * rotMat q = 1 :=
  mul_eq_one_comm.1 (rotMat_mul_transpose h)

theorem norm3_eq (v : Fin 3 → ℝ) : norm3 v = √(v ⬝ᵥ v) := by
  unfold norm3
  congr 1
  simp [dotProduct, Fin.sum_univ_three]
  ring

theorem norm3_rot {q : Fin 4 → ℝ} (h : Unit4 q) (v : Fin 3 → ℝ) : norm3 (rotMat (conj q) *ᵥ v) = norm3 v := by
  rw [norm3_eq, norm3_eq, rotMat_conj_transpose]
  congr 1
  rw [dotProduct_mulVec, vecMul_transpose, mulVec_mulVec, rotMat_mul_transpose h, one_mulVec]

end Meas
end RFS
