import Verif.Lemmas.MatPerm
import Mathlib.Data.Rat.Floor

/-!
Property C17: `MatPerm::calc` computes the permanent. The specification is written out as the sum over all permutations
of the products of the selected entries.
-/

namespace RFS
namespace MatPermProps
open MatPerm

variable {K : Type*} [Field K] [CharZero K]

/-- Specification: the permanent. -/
def permanent {n : Nat} (A : Fin n → Fin n → K) : K := ∑ σ : Equiv.Perm (Fin n), ∏ i, A i (σ i)

theorem permanent_eq {n : Nat} (A : Fin n → Fin n → K) : Matrix.permanent (Matrix.of A) = permanent A := by
  rw [← Matrix.permanent_transpose]; rfl

/-- **C17**: for every `n >= 1` and every matrix, with an unbounded loop counter, the loop stays inside its arrays and the
result is the permanent. -/
theorem C17_permanent {n : Nat} (hn : 0 < n) (A : Fin n → Fin n → K) : core A = some (permanent A) := by
  rw [core_spec hn, permanent_eq]

/-- **C17** for the function itself: up to 31 rows it returns the permanent; from 32 rows on its loop counter overflows;
for non-square matrices it returns the sentinel. -/
theorem C17_calc {r c : Nat} (A : Fin r → Fin c → K) :
    (∀ h : r = c, 0 < r → r ≤ 31 → calcPerm A = .val (permanent fun i j => A i (j.cast h))) ∧
    (r = c → 32 ≤ r → calcPerm A = .ub) ∧ (r ≠ c → calcPerm A = .notSquare) := by
  refine ⟨?_, ?_, ?_⟩
  · intro h h0 h1
    unfold calcPerm
    have : 2 ^ (r - 1) < 2 ^ 31 := (Nat.pow_lt_pow_iff_right (by norm_num)).2 (by omega)
    rw [dif_pos h, if_neg (by omega), C17_permanent h0]
  · intro h h1
    unfold calcPerm
    have : 2 ^ 31 ≤ 2 ^ (r - 1) := Nat.pow_le_pow_right (by norm_num) (by omega)
    rw [dif_pos h, if_pos this]
  · intro h
    unfold calcPerm
    rw [dif_neg h]

/-- The empty matrix is outside **C17**: its permanent is 1 but the function returns -2. -/
theorem C17_empty (A : Fin 0 → Fin 0 → ℚ) : core A = some (-2) ∧ permanent A = 1 := by
  constructor
  · simp [core, init]
  · simp [permanent]

/-- Non-vacuity: a 3x3 matrix with permanent 450. -/
example : core (fun i j : Fin 3 => ((3 * i.val + j.val + 1 : ℤ) : ℚ)) = some 450 := by decide +kernel

end MatPermProps
end RFS
