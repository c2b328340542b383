import Verif.Model.BoundingBox
import Mathlib.LinearAlgebra.Matrix.PosDef
import Mathlib.Tactic.Linarith
import Mathlib.Tactic.FieldSimp
import Mathlib.Tactic.Ring
import Mathlib.Tactic.FinCases

/-!
Property C74: the bounding box contains the covariance ellipsoid.
-/

namespace RFS
namespace BoundingBoxProps
open BoundingBox Matrix

variable {n : Nat}

/-- A positive semidefinite quadratic form, written out. -/
def quad (S : Matrix (Fin (n + 1)) (Fin (n + 1)) ℝ) (w : Fin (n + 1) → ℝ) : ℝ := w ⬝ᵥ (S *ᵥ w)

/-- Symmetric positive semidefinite. -/
def IsCov (S : Matrix (Fin (n + 1)) (Fin (n + 1)) ℝ) : Prop := S.transpose = S ∧ ∀ w, 0 ≤ quad S w

/-- A displacement from the mean of squared Mahalanobis distance at most `m²`: `e = S w` with `w' S w ≤ m²` (for invertible `S`,
`w = S⁻¹ e` and `w' S w = e' S⁻¹ e`). -/
def InEllipsoid (S : Matrix (Fin (n + 1)) (Fin (n + 1)) ℝ) (m : ℝ) (e : Fin (n + 1) → ℝ) : Prop :=
  ∃ w, e = S *ᵥ w ∧ quad S w ≤ m ^ 2

theorem quad_add (S : Matrix (Fin (n + 1)) (Fin (n + 1)) ℝ) (hS : S.transpose = S) (w : Fin (n + 1) → ℝ) (i : Fin (n + 1)) (t : ℝ) :
    quad S (w + t • Pi.single i 1) = quad S w + 2 * t * (S *ᵥ w) i + t ^ 2 * S i i := by
  unfold quad
  rw [Matrix.mulVec_add, Matrix.mulVec_smul, dotProduct_add, add_dotProduct, add_dotProduct, smul_dotProduct, dotProduct_smul, smul_dotProduct,
    dotProduct_smul]
  have h1 : w ⬝ᵥ (S *ᵥ Pi.single i 1) = (S *ᵥ w) i := by
    rw [Matrix.dotProduct_mulVec, ← Matrix.mulVec_transpose, hS, dotProduct_single, mul_one]
  have h2 : (Pi.single i 1 : Fin (n + 1) → ℝ) ⬝ᵥ (S *ᵥ w) = (S *ᵥ w) i := by
    rw [single_dotProduct, one_mul]
  have h3 : (Pi.single i 1 : Fin (n + 1) → ℝ) ⬝ᵥ (S *ᵥ Pi.single i 1) = S i i := by
    rw [single_dotProduct, one_mul, Matrix.mulVec_single_one]
    rfl
  rw [h1, h2, h3]
  simp only [smul_eq_mul]
  ring

/-- Cauchy-Schwarz for one coordinate. -/
theorem coord_sq (S : Matrix (Fin (n + 1)) (Fin (n + 1)) ℝ) (hS : IsCov S) (w : Fin (n + 1) → ℝ) (i : Fin (n + 1)) :
    (S *ᵥ w) i ^ 2 ≤ S i i * quad S w := by
  have h := fun t => (quad_add S hS.1 w i t) ▸ hS.2 (w + t • Pi.single i 1)
  have hq := hS.2 w
  set b := (S *ᵥ w) i
  set a := S i i
  set c := quad S w
  have ha : 0 ≤ a := by
    have := hS.2 (Pi.single i 1)
    unfold quad at this
    rw [single_dotProduct, one_mul, Matrix.mulVec_single_one] at this
    exact this
  rcases ha.eq_or_lt with h0 | h0
  · -- a = 0: the form is linear in t
    rw [← h0, zero_mul]
    by_contra hb
    have hb' : b ≠ 0 := fun h => hb (by rw [h]; norm_num)
    have := h (-(c + 1) / (2 * b))
    rw [← h0] at this
    have e : 2 * (-(c + 1) / (2 * b)) * b = -(c + 1) := by field_simp
    rw [e] at this
    linarith
  · have := h (-b / a)
    have e : c + 2 * (-b / a) * b + (-b / a) ^ 2 * a = c - b ^ 2 / a := by field_simp; ring
    rw [e] at this
    have h2 : b ^ 2 / a ≤ c := by linarith
    rw [div_le_iff₀ h0] at h2
    linarith

theorem diag_le_rowSum (S : Matrix (Fin (n + 1)) (Fin (n + 1)) ℝ) (h0 : ∀ i j, 0 ≤ S i j) (pos : Fin (n + 1) → Bool) (i : Fin (n + 1)) (hp : pos i = true) :
    S i i ≤ rowSum pos S i ∧ S i i ≤ colSum pos S i := by
  constructor
  · have := Finset.single_le_sum (f := fun j => if pos i ∧ pos j then S i j else 0) (fun j _ => by split; exact h0 i j; exact le_refl _)
      (Finset.mem_univ i)
    simpa [hp, rowSum] using this
  · have := Finset.single_le_sum (f := fun j => if pos j ∧ pos i then S j i else 0) (fun j _ => by split; exact h0 j i; exact le_refl _)
      (Finset.mem_univ i)
    simpa [hp, colSum] using this

theorem le_maxElem (f : Fin (n + 1) → ℝ) (i : Fin (n + 1)) : f i ≤ maxElem f := Finset.le_sup' f (Finset.mem_univ i)

/-- C74 (partial): for covariances without negative entries every point of the ellipsoid of `multiplier` standard deviations is inside the box in
the position components. Missing: covariances with negative entries (`C74_violated`). -/
theorem C74_contains_partial (S : Matrix (Fin (n + 1)) (Fin (n + 1)) ℝ) (hS : IsCov S) (h0 : ∀ i j, 0 ≤ S i j) (pos : Fin (n + 1) → Bool) (m : ℝ)
    (hm : 0 ≤ m) (e : Fin (n + 1) → ℝ) (he : InEllipsoid S m e) (i : Fin (n + 1)) (hp : pos i = true) : |e i| ≤ size pos S m / 2 := by
  obtain ⟨w, rfl, hw⟩ := he
  have h1 := coord_sq S hS w i
  have hd := diag_le_rowSum S h0 pos i hp
  have h2 : S i i ≤ min (maxElem (rowSum pos S)) (maxElem (colSum pos S)) :=
    le_min (hd.1.trans (le_maxElem _ i)) (hd.2.trans (le_maxElem _ i))
  have h3 : size pos S m / 2 = m * √(min (maxElem (rowSum pos S)) (maxElem (colSum pos S))) := by unfold size; ring
  rw [h3]
  apply abs_le_of_sq_le_sq
  · rw [mul_pow, Real.sq_sqrt ((h0 i i).trans h2)]
    calc (S *ᵥ w) i ^ 2 ≤ S i i * quad S w := h1
      _ ≤ S i i * m ^ 2 := mul_le_mul_of_nonneg_left hw (h0 i i)
      _ ≤ min (maxElem (rowSum pos S)) (maxElem (colSum pos S)) * m ^ 2 := mul_le_mul_of_nonneg_right h2 (sq_nonneg m)
      _ = _ := by ring
  · exact mul_nonneg hm (Real.sqrt_nonneg _)

/-- With a negative correlation the row sums are smaller than the variances: the box (half size 3) misses a point of the ellipsoid at 3 standard
deviations whose first component is 6. -/
theorem C74_violated : ∃ (S : Matrix (Fin 2) (Fin 2) ℝ) (e : Fin 2 → ℝ), IsCov (n := 1) S ∧ InEllipsoid (n := 1) S 3 e ∧
    size (n := 1) (fun _ => true) S 3 / 2 < |e 0| := by
  have hrow : ∀ i, rowSum (n := 1) (fun _ => true) !![4, -3; -3, 4] i = 1 := by
    intro i; fin_cases i <;> simp [rowSum, Fin.sum_univ_succ] <;> norm_num
  have hcol : ∀ i, colSum (n := 1) (fun _ => true) !![4, -3; -3, 4] i = 1 := by
    intro i; fin_cases i <;> simp [colSum, Fin.sum_univ_succ] <;> norm_num
  refine ⟨!![4, -3; -3, 4], ![6, -9/2], ⟨?_, ?_⟩, ⟨![3/2, 0], ?_, ?_⟩, ?_⟩
  · ext i j; fin_cases i <;> fin_cases j <;> rfl
  · intro w
    simp [quad, dotProduct, Matrix.mulVec, Fin.sum_univ_succ]
    nlinarith [sq_nonneg (w 0 - w 1), sq_nonneg (w 0), sq_nonneg (w 1)]
  · ext i; fin_cases i <;> simp [Matrix.mulVec, dotProduct, Fin.sum_univ_succ] <;> norm_num
  · simp [quad, dotProduct, Matrix.mulVec, Fin.sum_univ_succ]; norm_num
  · unfold size
    have h1 : maxElem (rowSum (n := 1) (fun _ => true) !![4, -3; -3, 4]) = 1 := by
      unfold maxElem; apply le_antisymm
      · exact Finset.sup'_le _ _ (fun i _ => (hrow i).le)
      · exact (hrow 0).symm.le.trans (Finset.le_sup' _ (Finset.mem_univ _))
    have h2 : maxElem (colSum (n := 1) (fun _ => true) !![4, -3; -3, 4]) = 1 := by
      unfold maxElem; apply le_antisymm
      · exact Finset.sup'_le _ _ (fun i _ => (hcol i).le)
      · exact (hcol 0).symm.le.trans (Finset.le_sup' _ (Finset.mem_univ _))
    rw [h1, h2]
    simp
    norm_num

/-- The hypotheses of `C74_contains_partial` are met by a correlated covariance. -/
example : IsCov (n := 1) !![4, 3; 3, 4] ∧ InEllipsoid (n := 1) !![4, 3; 3, 4] 3 ![6, 9/2] := by
  refine ⟨⟨?_, ?_⟩, ⟨![3/2, 0], ?_, ?_⟩⟩
  · ext i j; fin_cases i <;> fin_cases j <;> rfl
  · intro w
    simp [quad, dotProduct, Matrix.mulVec, Fin.sum_univ_succ]
    nlinarith [sq_nonneg (w 0 + w 1), sq_nonneg (w 0), sq_nonneg (w 1)]
  · ext i; fin_cases i <;> simp [Matrix.mulVec, dotProduct, Fin.sum_univ_succ] <;> norm_num
  · simp [quad, dotProduct, Matrix.mulVec, Fin.sum_univ_succ]; norm_num

end BoundingBoxProps
end RFS
