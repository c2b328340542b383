import Verif.Model.ORB
import Mathlib.Data.Fintype.Card
import Mathlib.Data.Real.Basic
import Mathlib.Algebra.Order.Field.Power
import Mathlib.Tactic.NormNum
import Mathlib.Tactic.Positivity

/-!
Properties C41 and C72: ORB descriptors.
-/

namespace RFS
namespace ORBProps
open ORB

/-- Positions where the descriptors differ. -/
def diff (a b : Desc) : Finset (Fin 256) := Finset.univ.filter fun i => a i ≠ b i

theorem distance_eq (a b : Desc) : distance a b = (diff a b).card := by
  unfold distance count diff
  congr 1
  ext i
  have h : ∀ u v : Bool, (xor u v = true) ↔ u ≠ v := by decide
  refine Finset.mem_filter.trans (Iff.trans ?_ Finset.mem_filter.symm)
  exact and_congr_right fun _ => h _ _

theorem C41_zero (a b : Desc) : distance a b = 0 ↔ a = b := by
  rw [distance_eq, Finset.card_eq_zero, diff, Finset.filter_eq_empty_iff]
  constructor
  · intro h
    funext i
    by_contra hne
    exact h (Finset.mem_univ i) hne
  · rintro rfl i _
    simp

theorem C41_symm (a b : Desc) : distance a b = distance b a := by
  rw [distance_eq, distance_eq, diff, diff]
  simp only [ne_comm]

theorem C41_triangle (a b c : Desc) : distance a c ≤ distance a b + distance b c := by
  rw [distance_eq, distance_eq, distance_eq]
  refine le_trans (Finset.card_le_card ?_) (Finset.card_union_le _ _)
  intro i hi
  simp only [diff, Finset.mem_union, Finset.mem_filter, Finset.mem_univ, true_and] at hi ⊢
  by_contra h
  push Not at h
  exact hi (h.1.trans h.2)

theorem C41_bound (a b : Desc) : distance a b ≤ 256 := by
  rw [distance_eq]
  exact le_trans (Finset.card_le_univ _) (by simp)

/-- All values up to 256 occur: a descriptor differing in the first `k` bits. -/
theorem C41_attained (k : Nat) (hk : k ≤ 256) : ∃ a b : Desc, distance a b = k := by
  refine ⟨fun i => decide (i.val < k), fun _ => false, ?_⟩
  rw [distance_eq]
  have : diff (fun i => decide (i.val < k)) (fun _ => false) = Finset.univ.filter fun i : Fin 256 => i.val < k := by
    ext i; simp [diff]
  rw [this]
  have h2 : (Finset.univ.filter fun i : Fin 256 => i.val < k).card = ((Finset.range 256).filter fun i => i < k).card := by
    refine Finset.card_bij (fun i _ => i.val) ?_ ?_ ?_
    · intro i hi
      simp only [Finset.mem_filter, Finset.mem_univ, true_and, Finset.mem_range] at hi ⊢
      exact ⟨i.isLt, hi⟩
    · intro i _ j _ h; exact Fin.ext h
    · intro i hi
      simp only [Finset.mem_filter, Finset.mem_range] at hi
      exact ⟨⟨i, hi.1⟩, by simpa using hi.2, rfl⟩
  rw [h2]
  have h3 : ((Finset.range 256).filter fun i => i < k) = Finset.range k := by
    ext i; simp only [Finset.mem_filter, Finset.mem_range]; omega
  rw [h3, Finset.card_range]

/-- The bits flipped by `sample` number at most those set in each random descriptor. -/
theorem C41_sample (d r0 r1 r2 : Desc) : distance d (sample d r0 r1 r2) = count (band (band r0 r1) r2) := by
  unfold distance sample
  congr 1
  funext i
  simp only [bxor, band]
  generalize d i = u
  generalize ((r0 i && r1 i) && r2 i) = v
  cases u <;> cases v <;> rfl

/-- Two descriptors that differ in three bits. -/
example : distance (fun _ => false) (fun i => decide (i.val < 3)) = 3 := by decide +kernel

/-- C72: likelihoods rank descriptors by distance: the nearer descriptor is the likelier one, equal distances give equal likelihoods, and the
likelihood is largest (and larger than the false alarm likelihood) exactly at the descriptor itself. -/
theorem C72_rank {K : Type*} [Field K] [LinearOrder K] [IsStrictOrderedRing K] (d a b : Desc) :
    (likelihood d a : K) ≤ likelihood d b ↔ distance d b ≤ distance d a := by
  unfold likelihood
  have hq : ((1 / (21 / 10)) / (1 - 1 / (21 / 10)) : K) = 10 / 11 := by norm_num
  rw [hq, mul_le_mul_iff_left₀ (by positivity)]
  exact pow_le_pow_iff_right_of_lt_one₀ (by norm_num) (by norm_num)

theorem C72_symm {K : Type*} [Field K] (a b : Desc) : (likelihood a b : K) = likelihood b a := by
  unfold likelihood
  rw [C41_symm]

theorem C72_pos {K : Type*} [Field K] [LinearOrder K] [IsStrictOrderedRing K] (a b : Desc) : (0 : K) < likelihood a b := by
  unfold likelihood
  have hq : ((1 / (21 / 10)) / (1 - 1 / (21 / 10)) : K) = 10 / 11 := by norm_num
  rw [hq]
  positivity

theorem C72_self {K : Type*} [Field K] [LinearOrder K] [IsStrictOrderedRing K] (d a : Desc) : (likelihood d d : K) ≤ likelihood d a ↔ d = a := by
  rw [C72_rank, (C41_zero d d).2 rfl, Nat.le_zero, C41_zero]

/-- The threshold against false alarms, as the code has it: below distance 125 the match is likelier than a false alarm, from 125 on it is not. -/
theorem C72_false_alarm {K : Type*} [Field K] [LinearOrder K] [IsStrictOrderedRing K] (d a : Desc) :
    falseAlarmLikelihood K < likelihood d a ↔ distance d a < 125 := by
  unfold likelihood falseAlarmLikelihood
  have hq : ((1 / (21 / 10)) / (1 - 1 / (21 / 10)) : K) = 10 / 11 := by norm_num
  have hf : (1 / 2 / (1 - 1 / (21 / 10)) : K) = 21 / 22 := by norm_num
  rw [hq, hf, mul_lt_mul_iff_left₀ (by positivity)]
  constructor
  · intro h
    by_contra hge
    have h1 : (10 / 11 : K) ^ distance d a ≤ (10 / 11) ^ 125 := pow_le_pow_of_le_one (by norm_num) (by norm_num) (by omega)
    have h2 : (10 / 11 : K) ^ 125 ≤ (21 / 22) ^ 256 := by norm_num
    exact absurd (lt_of_lt_of_le h (h1.trans h2)) (lt_irrefl _)
  · intro h
    have h1 : (10 / 11 : K) ^ 124 ≤ (10 / 11) ^ distance d a := pow_le_pow_of_le_one (by norm_num) (by norm_num) (by omega)
    have h2 : (21 / 22 : K) ^ 256 < (10 / 11) ^ 124 := by norm_num
    exact lt_of_lt_of_le h2 h1

/-- A descriptor that differs in three bits beats a false alarm. -/
example : falseAlarmLikelihood ℚ < likelihood (fun _ => false) (fun i => decide (i.val < 3)) :=
  (C72_false_alarm _ _).2 (by decide +kernel)

end ORBProps
end RFS
