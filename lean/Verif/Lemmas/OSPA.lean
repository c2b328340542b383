import Verif.Model.OSPA
import Verif.Lemmas.Hungarian
import Mathlib.Logic.Equiv.Fintype
import Mathlib.Algebra.Order.BigOperators.Group.Finset
import Mathlib.Tactic.Linarith

set_option linter.unusedSectionVars false

namespace RFS
namespace OSPA
open Hungarian (Mat tolE)

variable {n1 n2 : Nat}

theorem costMat_real (d : Fin n1 → Fin n2 → ℝ) (c : ℝ) (i j : Fin (max n1 n2)) (hi : i.val < n1) (hj : j.val < n2) :
    costMat n1 n2 d c i j = min (d ⟨i.val, hi⟩ ⟨j.val, hj⟩) c := by
  have e : (if c < d ⟨i.val, hi⟩ ⟨j.val, hj⟩ then c else d ⟨i.val, hi⟩ ⟨j.val, hj⟩) = min (d ⟨i.val, hi⟩ ⟨j.val, hj⟩) c := by
    split
    · rename_i h; rw [min_eq_right h.le]
    · rename_i h; rw [min_eq_left (not_lt.1 h)]
  unfold costMat
  simp only [hi, hj, and_self, dif_pos, e]
  rw [if_neg (by omega : ¬ n1 ≤ i.val), if_neg (by omega : ¬ n2 ≤ j.val)]
  split <;> [rfl; split <;> rfl]

theorem costMat_dummy (d : Fin n1 → Fin n2 → ℝ) (c : ℝ) (i j : Fin (max n1 n2)) (h : ¬ (i.val < n1 ∧ j.val < n2)) :
    costMat n1 n2 d c i j = c := by
  unfold costMat
  simp only
  have hi := i.2
  have hj := j.2
  by_cases h1 : n1 < max n1 n2
  · rw [if_pos h1, if_pos]
    by_contra hc
    apply h
    omega
  · rw [if_neg h1]
    by_cases h2 : n2 < max n1 n2
    · rw [if_pos h2, if_pos]
      by_contra hc
      apply h
      omega
    · exfalso
      apply h
      omega

theorem costMat_le (d : Fin n1 → Fin n2 → ℝ) (c : ℝ) (i j : Fin (max n1 n2)) : costMat n1 n2 d c i j ≤ c := by
  by_cases h : i.val < n1 ∧ j.val < n2
  · rw [costMat_real d c i j h.1 h.2]; exact min_le_right _ _
  · rw [costMat_dummy d c i j h]

theorem costMat_nonneg (d : Fin n1 → Fin n2 → ℝ) (c : ℝ) (hd : ∀ i j, 0 ≤ d i j) (hc : 0 ≤ c) (i j : Fin (max n1 n2)) :
    0 ≤ costMat n1 n2 d c i j := by
  by_cases h : i.val < n1 ∧ j.val < n2
  · rw [costMat_real d c i j h.1 h.2]; exact le_min (hd _ _) hc
  · rw [costMat_dummy d c i j h]; exact hc

theorem make_spec (d : Fin n1 → Fin n2 → ℝ) (c p : ℝ) (fuel : Nat) (hf : max n1 n2 * (max n1 n2 + 1) < fuel) :
    ∃ o, make n1 n2 d c p fuel = some o ∧ o.c = c ∧ o.p = p ∧ o.C = costMat n1 n2 d c ∧ o.n1 = n1 ∧ o.n2 = n2 ∧
      Function.Bijective o.soln ∧ ∀ σ : Fin (max n1 n2) → Fin (max n1 n2), Function.Bijective σ →
        ∑ i, costMat n1 n2 d c i (o.soln i) ≤ ∑ i, costMat n1 n2 d c i (σ i) + (max n1 n2 : ℕ) * tolE := by
  obtain ⟨soln, h1, h2, h3, -⟩ := Hungarian.run_spec (costMat n1 n2 d c) false fuel hf
  refine ⟨⟨c, p, costMat n1 n2 d c, n1, n2, soln⟩, ?_, rfl, rfl, rfl, rfl, rfl, h2, ?_⟩
  · unfold make; rw [h1]
  · intro σ hσ
    have := h3 σ hσ
    simpa using this

end OSPA
end RFS
