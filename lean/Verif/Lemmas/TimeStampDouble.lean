import Verif.Lemmas.TimeStamp
import Mathlib.Data.Rat.Floor
import Mathlib.Tactic.Linarith
import Mathlib.Tactic.NormNum

namespace RFS
namespace TimeStamp

theorem truncQ_nonneg {q : Rat} (h : 0 ≤ q) : truncQ q = ⌊q⌋ := by
  unfold truncQ
  rw [Rat.floor_def']
  exact Int.tdiv_eq_ediv_of_nonneg (Rat.num_nonneg.mpr h)

theorem truncQ_neg (q : Rat) : truncQ (-q) = - truncQ q := by
  unfold truncQ
  simp [Int.neg_tdiv]

theorem truncQ_split_nonneg {t : Rat} (h : 0 ≤ t) :
    truncQ t * 1000000000 + truncQ ((t - truncQ t) * 1000000000) = truncQ (t * 1000000000) ∧
    0 ≤ truncQ t ∧ 0 ≤ truncQ ((t - truncQ t) * 1000000000) ∧
    truncQ ((t - truncQ t) * 1000000000) < 1000000000 := by
  have h1 : truncQ t = ⌊t⌋ := truncQ_nonneg h
  have hf : 0 ≤ t - (⌊t⌋ : Int) := by have := Int.floor_le t; linarith
  have hf1 : t - (⌊t⌋ : Int) < 1 := by have := Int.lt_floor_add_one t; linarith
  rw [h1, truncQ_nonneg (by positivity : 0 ≤ t * 1000000000),
    truncQ_nonneg (by positivity : 0 ≤ (t - (⌊t⌋ : Int)) * 1000000000)]
  refine ⟨?_, Int.floor_nonneg.mpr h, Int.floor_nonneg.mpr (by positivity), ?_⟩
  · have : t * 1000000000 = ((⌊t⌋ * 1000000000 : Int) : Rat) + (t - (⌊t⌋ : Int)) * 1000000000 := by
      push_cast; ring
    rw [this, Int.floor_intCast_add]
  · rw [Int.floor_lt]; push_cast; linarith

theorem truncQ_split (t : Rat) :
    truncQ t * 1000000000 + truncQ ((t - truncQ t) * 1000000000) = truncQ (t * 1000000000) ∧
    -1000000000 < truncQ ((t - truncQ t) * 1000000000) ∧
    truncQ ((t - truncQ t) * 1000000000) < 1000000000 ∧
    ((0 ≤ truncQ t ∧ 0 ≤ truncQ ((t - truncQ t) * 1000000000)) ∨
     (truncQ t ≤ 0 ∧ truncQ ((t - truncQ t) * 1000000000) ≤ 0)) := by
  rcases le_total 0 t with h | h
  · obtain ⟨a, b, c, d⟩ := truncQ_split_nonneg h
    exact ⟨a, by omega, d, Or.inl ⟨b, c⟩⟩
  · obtain ⟨a, b, c, d⟩ := truncQ_split_nonneg (t := -t) (by linarith)
    have e1 : (-t - ((truncQ (-t) : Int) : Rat)) * 1000000000 = -((t - truncQ t) * 1000000000) := by
      rw [truncQ_neg]; push_cast; ring
    have e2 : -t * 1000000000 = -(t * 1000000000) := by ring
    rw [e1, e2, truncQ_neg, truncQ_neg, truncQ_neg] at a
    rw [e1, truncQ_neg] at c d
    rw [truncQ_neg] at b
    exact ⟨by omega, by omega, by omega, Or.inr ⟨by omega, by omega⟩⟩

end TimeStamp
end RFS
