import Verif.Lemmas.Hungarian
import Mathlib.Data.Rat.Floor
import Mathlib.Tactic.FinCases

/-!
Properties C06 and C07: `HungarianMethod::run` on a plain matrix.

The specification: an assignment of `n` rows to `n` columns is a bijection of `Fin n`; its total is the sum of the
selected entries of the caller's matrix.
-/

set_option linter.unusedSectionVars false

namespace RFS
namespace HungarianProps
open Hungarian

variable {K : Type*} [Field K] [LinearOrder K] [IsStrictOrderedRing K] {n : Nat}

/-- Specification: the total score or cost of an assignment. -/
def total (C : Fin n → Fin n → K) (σ : Fin n → Fin n) : K := ∑ x, C x (σ x)

/-- **C06**: for every matrix and both directions the function terminates (within `n(n+1)+1` passes of its main loop, so
with any larger fuel), never touches memory out of bounds, never gives up, returns `true`, its solution is a
permutation, the reported cost is the total of the solution, and the caller's matrix is back to its original value. -/
theorem C06_terminates_valid (C : Fin n → Fin n → K) (maximize : Bool) (fuel : Nat) (hf : n * (n + 1) < fuel) :
    ∃ soln : Fin n → Fin n,
      run C maximize fuel = .solved soln (total C soln) C ∧ Function.Bijective soln := by
  obtain ⟨soln, h1, h2, -⟩ := run_spec C maximize fuel hf
  exact ⟨soln, h1, h2⟩

/-- A concrete call: a 2 by 2 matrix, and a bound on the rounds above `n (n + 1)`. -/
example : ∃ soln, run (![![1, 2], ![3, 0]] : Fin 2 → Fin 2 → ℚ) true 7 = .solved soln (total ![![1, 2], ![3, 0]] soln) ![![1, 2], ![3, 0]] ∧ Function.Bijective soln :=
  C06_terminates_valid _ true 7 (by norm_num)

/-- **C07**, maximisation: no assignment beats the returned one by more than `n * 1e-12`. -/
theorem C07_maximise_optimal (C : Fin n → Fin n → K) (fuel : Nat) (hf : n * (n + 1) < fuel)
    (soln : Fin n → Fin n) (cost : K) (C' : Fin n → Fin n → K) (h : run C true fuel = .solved soln cost C')
    (σ : Fin n → Fin n) (hσ : Function.Bijective σ) : total C σ ≤ cost + n * (1 / 10 ^ 12) := by
  obtain ⟨s, h1, -, h3, -⟩ := run_spec C true fuel hf
  rw [h1] at h; cases h
  have := h3 σ hσ
  simp only [if_true] at this
  exact this

/-- **C07**, minimisation: no assignment is cheaper than the returned one by more than `n * 1e-12`. -/
theorem C07_minimise_optimal (C : Fin n → Fin n → K) (fuel : Nat) (hf : n * (n + 1) < fuel)
    (soln : Fin n → Fin n) (cost : K) (C' : Fin n → Fin n → K) (h : run C false fuel = .solved soln cost C')
    (σ : Fin n → Fin n) (hσ : Function.Bijective σ) : cost ≤ total C σ + n * (1 / 10 ^ 12) := by
  obtain ⟨s, h1, -, h3, -⟩ := run_spec C false fuel hf
  rw [h1] at h; cases h
  have := h3 σ hσ
  simp only [Bool.false_eq_true, if_false] at this
  exact this

theorem total_grid (C : Fin n → Fin n → K) (g : K) (hg : ∀ x y, ∃ k : ℤ, C x y = k * g) (σ : Fin n → Fin n) :
    ∃ k : ℤ, total C σ = k * g := by
  choose f hf using hg
  refine ⟨∑ x, f x (σ x), ?_⟩
  unfold total
  push_cast
  rw [Finset.sum_mul]
  exact Finset.sum_congr rfl fun x _ => hf x (σ x)

theorem grid_lt {a b g : K} (hg : 0 < g) (ha : ∃ k : ℤ, a = k * g) (hb : ∃ k : ℤ, b = k * g) (h : a < b + g) : a ≤ b := by
  obtain ⟨i, rfl⟩ := ha
  obtain ⟨j, rfl⟩ := hb
  have h1 : (i : K) * g < ((j + 1 : ℤ) : K) * g := by push_cast; linarith
  have h2 : i < j + 1 := by exact_mod_cast (mul_lt_mul_iff_of_pos_right hg).1 h1
  exact mul_le_mul_of_nonneg_right (by exact_mod_cast (by omega : i ≤ j)) (le_of_lt hg)

/-- **C07**, exactness: if the entries are integer multiples of some `g >= n * 1e-12` (e.g. integers with `n <= 10^12`),
the assignment returned is exactly optimal, for maximisation and minimisation. -/
theorem C07_grid_exact (C : Fin n → Fin n → K) (maximize : Bool) (fuel : Nat) (hf : n * (n + 1) < fuel)
    (g : K) (hg : 0 < g) (hgrid : ∀ x y, ∃ k : ℤ, C x y = k * g) (hn : (n : K) * (1 / 10 ^ 12) ≤ g)
    (soln : Fin n → Fin n) (cost : K) (C' : Fin n → Fin n → K) (h : run C maximize fuel = .solved soln cost C')
    (σ : Fin n → Fin n) (hσ : Function.Bijective σ) :
    if maximize then total C σ ≤ cost else cost ≤ total C σ := by
  obtain ⟨s, h1, -, -, h4⟩ := run_spec C maximize fuel hf
  rw [h1] at h; cases h
  rcases Nat.eq_zero_or_pos n with rfl | hpos
  · have : ∀ τ : Fin 0 → Fin 0, total C τ = 0 := fun τ => by simp [total]
    cases maximize <;> simp [this]
  · have h5 := h4 hpos σ hσ
    have hn' : (n : K) * tolE ≤ g := hn
    cases maximize
    · simp only [Bool.false_eq_true, if_false] at h5 ⊢
      exact grid_lt hg (total_grid C g hgrid soln) (total_grid C g hgrid σ) (by unfold total; linarith)
    · simp only [if_true] at h5 ⊢
      exact grid_lt hg (total_grid C g hgrid σ) (total_grid C g hgrid soln) (by unfold total; linarith)

/-- A matrix with near ties below the tolerance. -/
def nearTie : Fin 3 → Fin 3 → ℚ := fun x y =>
  if x = 1 then (if y = 0 then 1 - 1 / 10 ^ 15 else 1) else (if y = 2 then 1 else 0)

/-- The tolerance in **C07** cannot be dropped: in exact arithmetic the code returns a sub-optimal assignment on a matrix
with near ties. -/
theorem C07_tolerance_needed : ∃ (soln : Fin 3 → Fin 3) (cost : ℚ) (C' : Fin 3 → Fin 3 → ℚ) (σ : Fin 3 → Fin 3),
    run nearTie true 13 = .solved soln cost C' ∧ Function.Bijective σ ∧ cost < total nearTie σ := by
  obtain ⟨s, h1, -, -⟩ := run_spec nearTie true 13 (by norm_num)
  refine ⟨s, _, _, fun x => if x = 0 then 2 else if x = 1 then 1 else 0, h1, by decide, ?_⟩
  have h2 : (match run nearTie true 13 with | .solved s _ _ => decide (s 0 = 2 ∧ s 1 = 0 ∧ s 2 = 1) | _ => false) = true := by
    decide +kernel
  rw [h1] at h2
  simp only [decide_eq_true_eq] at h2
  simp only [total, Fin.sum_univ_three, h2.1, h2.2.1, h2.2.2]
  decide +kernel

/-- Non-vacuity of the grid theorem: an integer matrix on which the greedy start has to be repaired. -/
example : ∃ C : Fin 3 → Fin 3 → ℚ, (∀ x y, ∃ k : ℤ, C x y = k * 1) ∧ ((3 : ℕ) : ℚ) * (1 / 10 ^ 12) ≤ 1 ∧
    (match run C false 13 with | .solved s c _ => decide (s 0 = 1 ∧ s 1 = 0 ∧ s 2 = 2 ∧ c = 9) | _ => false) = true := by
  refine ⟨fun x y => ((if x = 0 then (if y = 0 then 1 else if y = 1 then 2 else 9)
    else if x = 1 then (if y = 0 then 2 else if y = 1 then 9 else 9)
    else (if y = 0 then 3 else if y = 1 then 9 else 5) : ℤ) : ℚ), fun x y => ⟨_, (mul_one _).symm⟩, by norm_num,
    by decide +kernel⟩

end HungarianProps
end RFS
