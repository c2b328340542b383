import Verif.Lemmas.HungDblRow
import Verif.Lemmas.DblSample
import Verif.Props.Hungarian

set_option linter.unusedSectionVars false

/-!
Properties C233 and C234: `HungarianMethod::run` in doubles.

`Nearest rd` (Lemmas/DblRound.lean) says that `rd` rounds to a nearest number with 53 significant bits; `Dbl.rnd` is the
rounding of `double`. `Rep x` says that `x` has at most 53 significant bits, i.e. is a double.
-/

namespace RFS
namespace HungDblProps
open Dbl Hungarian

variable {n : Nat}

/-- Specification: the total score or cost of an assignment. -/
def total (C : Fin n → Fin n → ℚ) (σ : Fin n → Fin n) : ℚ := ∑ x, C x (σ x)

/-- Specification: no assignment is better than `soln` by more than `ε`. -/
def Best (C : Fin n → Fin n → ℚ) (maximize : Bool) (ε : ℚ) (soln : Fin n → Fin n) : Prop :=
  Function.Bijective soln ∧ ∀ σ : Fin n → Fin n, Function.Bijective σ →
    if maximize then total C σ ≤ total C soln + ε else total C soln ≤ total C σ + ε

/-- Specification: the sum of the selected entries, added one row after another in doubles. -/
def dsum (rd : ℚ → ℚ) (C : Fin n → Fin n → ℚ) (soln : Fin n → Fin n) : ℚ :=
  (List.finRange n).foldl (fun s x => rd (s + C x (soln x))) 0

/-! ### C233: in doubles the function finds a best assignment -/

/-- **C233**, part: for every matrix, both directions and every rounding to nearest the function ends within `n(n+1)+1`
passes of its loop and never leaves its arrays. It returns `false`, or it returns `true` with a permutation and the sum, in
doubles, of the entries of the matrix it leaves. Missing: that it returns `true`, and that the permutation is best, see
`C233_violated`. -/
theorem C233_safe_partial {rd : ℚ → ℚ} (hrd : Nearest rd) (C : Fin n → Fin n → ℚ) (maximize : Bool) (fuel : Nat)
    (hf : n * (n + 1) < fuel) :
    HungDbl.run rd C maximize fuel = .noPath ∨
    ∃ (soln : Fin n → Fin n) (C' : Fin n → Fin n → ℚ), Function.Bijective soln ∧
      HungDbl.run rd C maximize fuel = .solved soln (dsum rd C' soln) C' := by
  rcases HungDbl.run_safe rd hrd.zero (fun z hz => hrd.nonneg hz) C maximize fuel hf with h | ⟨soln, h1, h2⟩
  · exact Or.inl h
  · exact Or.inr ⟨soln, _, h1, h2⟩

/-- **C233**, part: if the entries are multiples `k * 2^q` of a power of two `2^q` not below `2^-39` (e.g. integers), with
`4 |k| ≤ 2^53` and `n |k| ≤ 2^53`, then the function returns `true`, the assignment is best up to `n * 1e-12`, the reported
cost is its exact total, and the caller's matrix is unchanged. Missing: all other matrices. -/
theorem C233_grid_partial {rd : ℚ → ℚ} (hrd : Nearest rd) (C : Fin n → Fin n → ℚ) (maximize : Bool) (fuel : Nat)
    (hf : n * (n + 1) < fuel) (q : ℤ) (hq : -39 ≤ q) (k : Fin n → Fin n → ℤ) (hC : ∀ x y, C x y = k x y * (2 : ℚ) ^ q)
    (B : ℕ) (hk : ∀ x y, |k x y| ≤ B) (h4 : 4 * B ≤ 2 ^ 53) (hn : n * B ≤ 2 ^ 53) :
    ∃ soln : Fin n → Fin n, HungDbl.run rd C maximize fuel = .solved soln (total C soln) C ∧
      Best C maximize (n * (1 / 10 ^ 12)) soln ∧
      ((n : ℚ) * (1 / 10 ^ 12) ≤ (2 : ℚ) ^ q → Best C maximize 0 soln) := by
  have hg : (0 : ℚ) < (2 : ℚ) ^ q := zpow_pos (by norm_num) _
  have he := HungDbl.run_eq (HungDbl.ok_of hrd hq) C (fun x y => ⟨k x y, hC x y⟩) (M := B * (2 : ℚ) ^ q) (by
      intro x y
      rw [hC, abs_mul, abs_of_pos hg]
      apply mul_le_mul_of_nonneg_right _ hg.le
      exact_mod_cast hk x y) (by
      rw [← mul_assoc]
      apply mul_le_mul_of_nonneg_right _ hg.le
      exact_mod_cast h4) (by
      rw [← mul_assoc]
      apply mul_le_mul_of_nonneg_right _ hg.le
      exact_mod_cast hn) maximize fuel
  obtain ⟨soln, h1, h2, h3, -⟩ := run_spec C maximize fuel hf
  refine ⟨soln, by rw [he]; exact h1, ⟨h2, h3⟩, ?_⟩
  intro hng
  refine ⟨h2, fun σ hσ => ?_⟩
  have := HungarianProps.C07_grid_exact C maximize fuel hf ((2 : ℚ) ^ q) hg (fun x y => ⟨k x y, hC x y⟩) hng soln _ C h1 σ hσ
  cases maximize
  · simp only [Bool.false_eq_true, if_false, add_zero] at this ⊢; exact this
  · simp only [if_true, add_zero] at this ⊢; exact this

/-- The matrix of the examples: `2837.1 845.1 8189.3 / 5653.5 6532.8 2920.2 / 7752.2 9610.1 9996.0` in tenths. -/
def tenths : Fin 3 → Fin 3 → ℚ := fun x y =>
  ([[28371, 8451, 81893], [56535, 65328, 29202], [77522, 96101, 99960]].getD x.val []).getD y.val 0

/-- In tenths, as integers, the hypotheses of `C233_grid_partial` hold: the answer is exactly best. -/
example : ∃ soln : Fin 3 → Fin 3, HungDbl.run rnd tenths true 13 = .solved soln (total tenths soln) tenths ∧
    Best tenths true 0 soln := by
  obtain ⟨s, h1, -, h3⟩ := C233_grid_partial nearest_rnd tenths true 13 (by norm_num) 0 (by norm_num)
    (fun x y => ([[28371, 8451, 81893], [56535, 65328, 29202], [77522, 96101, 99960]].getD x.val []).getD y.val 0)
    (by decide +kernel) 99960 (by decide +kernel) (by norm_num) (by norm_num)
  exact ⟨s, h1, h3 (by norm_num)⟩

/-- The doubles written `2837.1`, `845.1`, … -/
def decimals : Fin 3 → Fin 3 → ℚ := fun x y => rnd (tenths x y / 10)

/-- What a result says: `return true`, `return false`, or something else. -/
def returns : Result ℚ n → Option Bool
  | .solved .. => some true
  | .noPath => some false
  | _ => none

/-- **C233** fails: for the 3 by 3 matrix of doubles `2837.1 845.1 8189.3 / 5653.5 6532.8 2920.2 / 7752.2 9610.1 9996.0`
the function returns `false`. In step 3 a slack becomes zero, so the column counts as reached, but the sum of the updated
labels minus the entry is not zero in doubles, and exceeds the `1e-12` allowed by the search in step 4. -/
theorem C233_violated : (∀ x y, Rep (decimals x y)) ∧ returns (HungDbl.run rnd decimals true 13) = some false := by
  refine ⟨fun x y => rep_rnd _, ?_⟩
  decide +kernel

/-- The same for minimisation: the matrix `1241.3 9235.0 7685.0 / 4084.5 1674.9 39.9 / 1524.3 8889.5 841.2`. -/
def decimals' : Fin 3 → Fin 3 → ℚ := fun x y =>
  rnd (([[12413, 92350, 76850], [40845, 16749, 399], [15243, 88895, 8412]].getD x.val []).getD y.val 0 / 10)

theorem C233_minimise_violated : (∀ x y, Rep (decimals' x y)) ∧ returns (HungDbl.run rnd decimals' false 13) = some false := by
  refine ⟨fun x y => rep_rnd _, ?_⟩
  decide +kernel

/-! ### C234: the function leaves the caller's matrix as it was -/

/-- **C234**, part: when the function returns `true` every entry of the caller's matrix differs from what it was by at most
`M * 2^-51`, where `M` bounds the entries. Missing: that it does not differ, see `C234_violated`. -/
theorem C234_bound_partial {rd : ℚ → ℚ} (hrd : Nearest rd) (C : Fin n → Fin n → ℚ) (hC : ∀ x y, Rep (C x y))
    (maximize : Bool) (fuel : Nat) (hf : n * (n + 1) < fuel) (M : ℚ) (hM : ∀ x y, |C x y| ≤ M)
    (soln : Fin n → Fin n) (cost : ℚ) (C' : Fin n → Fin n → ℚ)
    (h : HungDbl.run rd C maximize fuel = .solved soln cost C') (x y : Fin n) : |C' x y - C x y| ≤ M / 2 ^ 51 := by
  have hM0 : 0 ≤ M := le_trans (abs_nonneg _) (hM x y)
  have key : ∀ D : Fin n → Fin n → ℚ, (∀ x y, |D x y| ≤ M) → (∀ x y, Rep (D x y)) →
      |(if offsetOf D ≠ 0 then rd (rd (D x y - offsetOf D) + offsetOf D) else rd (D x y - offsetOf D)) - D x y| ≤ M / 2 ^ 51 := by
    intro D hD hR
    by_cases h0 : offsetOf D = 0
    · simp only [h0, ne_eq, not_true_eq_false, if_false, sub_zero]
      rw [hrd.fix (hR x y), sub_self, abs_zero]
      positivity
    · rw [if_pos h0]
      have hb : |D x y - offsetOf D| ≤ 2 * M := by
        have a1 := hD x y
        have a2 : |offsetOf D| ≤ M := by
          rcases HungDbl.offsetOf_mem D with e | ⟨x', y', e⟩
          · rw [e, abs_zero]; exact hM0
          · rw [e]; exact hD x' y'
        exact le_trans (abs_sub _ _) (by linarith)
      obtain ⟨w, hw⟩ : ∃ w, w = rd (D x y - offsetOf D) := ⟨_, rfl⟩
      have e1 := hrd.rel (D x y - offsetOf D)
      rw [← hw] at e1 ⊢
      have e2 := hrd.rel (w + offsetOf D)
      have e3 : |D x y - offsetOf D - w| ≤ 2 * M / 2 ^ 53 := le_trans e1 (div_le_div_of_nonneg_right hb (by norm_num))
      have e4 : |w + offsetOf D| ≤ M + 2 * M / 2 ^ 53 := by
        have : w + offsetOf D = D x y - (D x y - offsetOf D - w) := by ring
        rw [this]
        exact le_trans (abs_sub _ _) (add_le_add (hD x y) e3)
      have e5 : |w + offsetOf D - rd (w + offsetOf D)| ≤ (M + 2 * M / 2 ^ 53) / 2 ^ 53 := le_trans e2 (div_le_div_of_nonneg_right e4 (by norm_num))
      have e6 : rd (w + offsetOf D) - D x y = -(D x y - offsetOf D - w) - (w + offsetOf D - rd (w + offsetOf D)) := by ring
      rw [e6]
      refine le_trans (abs_sub _ _) ?_
      rw [abs_neg]
      refine le_trans (add_le_add e3 e5) ?_
      have : (2 * M / 2 ^ 53 + (M + 2 * M / 2 ^ 53) / 2 ^ 53 : ℚ) = M * (2 / 2 ^ 53 + (1 + 2 / 2 ^ 53) / 2 ^ 53) := by ring
      rw [this, show M / 2 ^ 51 = M * (1 / 2 ^ 51) by ring]
      exact mul_le_mul_of_nonneg_left (by norm_num) hM0
  rcases HungDbl.run_safe rd hrd.zero (fun z hz => hrd.nonneg hz) C maximize fuel hf with e | ⟨s, -, e⟩
  · rw [e] at h; cases h
  · rw [e] at h
    cases h
    unfold HungDbl.restore HungDbl.preprocess
    cases maximize
    · have hR : ∀ x y, Rep (C x y * (-1)) := by
        intro x y
        obtain ⟨k, e, h1, h2⟩ := hC x y
        exact ⟨-k, e, by rwa [abs_neg], by rw [h2]; push_cast; ring⟩
      have := key (fun x y => C x y * (-1)) (fun x y => by rw [mul_neg_one, abs_neg]; exact hM x y) hR
      simp only [Bool.false_eq_true, if_false] at this ⊢
      rw [← abs_neg]
      convert this using 2
      split <;> ring
    · have := key C hM hC
      simp only [if_true] at this ⊢
      convert this using 2
      split <;> rfl

/-- **C234**, part: a maximisation without negative entries, and a minimisation without positive entries, leave the caller's
matrix exactly as it was. (All entries multiples of one power of two: `C233_grid_partial`.) -/
theorem C234_same_sign_partial {rd : ℚ → ℚ} (hrd : Nearest rd) (C : Fin n → Fin n → ℚ) (hC : ∀ x y, Rep (C x y))
    (maximize : Bool) (fuel : Nat) (hf : n * (n + 1) < fuel)
    (hs : ∀ x y, if maximize then 0 ≤ C x y else C x y ≤ 0)
    (soln : Fin n → Fin n) (cost : ℚ) (C' : Fin n → Fin n → ℚ)
    (h : HungDbl.run rd C maximize fuel = .solved soln cost C') : C' = C := by
  have h0 : ∀ D : Fin n → Fin n → ℚ, (∀ x y, 0 ≤ D x y) → offsetOf D = 0 := by
    intro D hD
    rcases HungDbl.offsetOf_mem D with e | ⟨x, y, e⟩
    · exact e
    · exact le_antisymm (HungDbl.offsetOf_nonpos D) (by rw [e]; exact hD x y)
  rcases HungDbl.run_safe rd hrd.zero (fun z hz => hrd.nonneg hz) C maximize fuel hf with e | ⟨s, -, e⟩
  · rw [e] at h; cases h
  · rw [e] at h
    cases h
    funext x y
    unfold HungDbl.restore HungDbl.preprocess
    cases maximize
    · have hR : Rep (C x y * (-1)) := by
        obtain ⟨k, e, h1, h2⟩ := hC x y
        exact ⟨-k, e, by rwa [abs_neg], by rw [h2]; push_cast; ring⟩
      have hz := h0 (fun x y => C x y * (-1)) (fun x y => by
        have := hs x y; simp only [Bool.false_eq_true, if_false] at this; linarith)
      simp only [Bool.false_eq_true, if_false, hz, ne_eq, not_true_eq_false, sub_zero, hrd.fix hR]
      ring
    · have hz := h0 C (fun x y => by have := hs x y; simpa using this)
      simp only [if_true, hz, ne_eq, not_true_eq_false, if_false, sub_zero, hrd.fix (hC x y)]

/-- The matrix `0.1 -1000 / -1000 0.3`. -/
def small : Fin 2 → Fin 2 → ℚ := fun x y => if x ≠ y then -1000 else if x = 0 then rnd (1 / 10) else rnd (3 / 10)

/-- The matrix after a call that returns `true`. -/
def left : Result ℚ n → Option (Fin n → Fin n → ℚ)
  | .solved _ _ C => some C
  | _ => none

/-- The cost reported by a call that returns `true`. -/
def costOf : Result ℚ n → Option ℚ
  | .solved _ c _ => some c
  | _ => none

/-- **C234** fails: after a call with the matrix `0.1 -1000 / -1000 0.3` the first entry of the caller's matrix is the double
`0.1 + 2^-45 - 2^-55` (`0.10000000000002274`), and the reported cost is not the sum of the entries `0.1` and `0.3` in
doubles. -/
theorem C234_violated : (∀ x y, Rep (small x y)) ∧
    (left (HungDbl.run rnd small true 7)).map (fun C => C 0 0) = some (rnd (10000000000002274 / 10 ^ 17)) ∧
    rnd (10000000000002274 / 10 ^ 17) ≠ small 0 0 ∧
    (costOf (HungDbl.run rnd small true 7)) ≠ some (rnd (small 0 0 + small 1 1)) := by
  refine ⟨?_, by decide +kernel, by decide +kernel, by decide +kernel⟩
  intro x y
  unfold small
  split
  · exact ⟨-1000, 0, by norm_num, by norm_num⟩
  · split
    · exact rep_rnd _
    · exact rep_rnd _

/-- A call that meets the hypotheses of `C234_bound_partial`, with entries of both signs and a result `true`. -/
example : returns (HungDbl.run rnd small true 7) = some true := by decide +kernel

end HungDblProps
end RFS
