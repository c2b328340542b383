import Verif.Lemmas.AssocSum
import Mathlib.Algebra.BigOperators.Ring.Finset
import Mathlib.Algebra.BigOperators.Pi
import Mathlib.Data.Real.Basic

/-!
Sums over hypotheses in which tracks may not exist, and their relation to sums over associations.
-/

namespace RFS
namespace Assoc

variable {n nZ : Nat}

/-- A hypothesis: `none`: the track does not exist; `some none`: it exists and was missed; `some (some z)`: it exists and caused measurement `z`. -/
abbrev Hyp (n nZ : Nat) := Fin n → Option (Option (Fin nZ))

/-- A measurement has at most one cause. -/
def Hyp.Valid (h : Hyp n nZ) : Prop := ∀ m m' z, h m = some (some z) → h m' = some (some z) → m = m'

/-- Contribution of one track. -/
def hypRow (L : Fin n → Fin nZ → ℝ) (a b : Fin n → ℝ) (m : Fin n) : Option (Option (Fin nZ)) → ℝ
  | none => a m
  | some none => b m
  | some (some z) => L m z

open Classical in
/-- General sum over hypotheses: `a`: absent, `b`: missed, `L`: seen, `c`: clutter. -/
noncomputable def hypSum (L : Fin n → Fin nZ → ℝ) (a b : Fin n → ℝ) (c : Fin nZ → ℝ) : ℝ :=
  ∑ h ∈ (Finset.univ : Finset (Hyp n nZ)).filter Hyp.Valid, (∏ m, hypRow L a b m (h m)) * ∏ z, if ∃ m, h m = some (some z) then 1 else c z

theorem hypSum_eq (L : Fin n → Fin nZ → ℝ) (a b : Fin n → ℝ) (c : Fin nZ → ℝ) : hypSum L a b c = total L (fun m => a m + b m) c := by
  classical
  unfold hypSum total
  rw [← Finset.sum_fiberwise_of_maps_to (t := (Finset.univ : Finset (Fin n → Option (Fin nZ))).filter OneToOne) (g := fun h : Hyp n nZ => fun m => (h m).join)]
  · refine Finset.sum_congr rfl fun f hf => ?_
    have hf1 : OneToOne f := (Finset.mem_filter.1 hf).2
    have hseen : ∀ h : Hyp n nZ, (fun m => (h m).join) = f → ∀ m z, h m = some (some z) ↔ f m = some z := by
      intro h hh m z
      rw [← hh]
      exact Option.join_eq_some_iff.symm
    have e1 : ∀ h ∈ ((Finset.univ : Finset (Hyp n nZ)).filter Hyp.Valid).filter (fun h => (fun m => (h m).join) = f),
        (∏ m, hypRow L a b m (h m)) * (∏ z, if ∃ m, h m = some (some z) then 1 else c z) =
        (∏ m, hypRow L a b m (h m)) * ∏ z, if ∃ m, f m = some z then 1 else c z := by
      intro h hh
      have := hseen h (Finset.mem_filter.1 hh).2
      simp only [this]
    rw [Finset.sum_congr rfl e1, ← Finset.sum_mul]
    refine congrArg₂ (· * ·) ?_ (Finset.prod_congr rfl fun z _ => by congr)
    let t : Fin n → Finset (Option (Option (Fin nZ))) := fun m => match f m with
      | some z => {some (some z)}
      | none => {none, some none}
    have hset : ((Finset.univ : Finset (Hyp n nZ)).filter Hyp.Valid).filter (fun h => (fun m => (h m).join) = f) = Fintype.piFinset t := by
      ext h
      rw [Finset.mem_filter, Finset.mem_filter, Fintype.mem_piFinset]
      constructor
      · rintro ⟨-, hh⟩ m
        have := congrFun hh m
        simp only [t]
        cases hm : h m with
        | none => rw [hm] at this; simp at this; rw [← this]; simp
        | some x =>
          rw [hm] at this
          simp only [Option.join_some] at this
          rw [← this]
          cases x <;> simp
      · intro hh
        have hj : (fun m => (h m).join) = f := by
          funext m
          have := hh m
          simp only [t] at this
          cases hm : f m with
          | none =>
            rw [hm] at this
            simp only [Finset.mem_insert, Finset.mem_singleton] at this
            rcases this with h | h <;> rw [h] <;> rfl
          | some z => rw [hm] at this; simp only [Finset.mem_singleton] at this; rw [this]; rfl
        refine ⟨⟨Finset.mem_univ _, fun m m' z h1 h2 => ?_⟩, hj⟩
        exact hf1 m m' z ((hseen h hj m z).1 h1) ((hseen h hj m' z).1 h2)
    rw [hset, ← Finset.prod_univ_sum]
    refine Finset.prod_congr rfl fun m _ => ?_
    simp only [t]
    cases hm : f m with
    | none => simp [hypRow]
    | some z => simp [hypRow]
  · intro h hh
    refine Finset.mem_filter.2 ⟨Finset.mem_univ _, fun m m' z h1 h2 => (Finset.mem_filter.1 hh).2 m m' z ?_ ?_⟩
    · simp only [Option.join_eq_some_iff] at h1; exact h1
    · simp only [Option.join_eq_some_iff] at h2; exact h2

theorem hypSum_row (L : Fin n → Fin nZ → ℝ) (a b : Fin n → ℝ) (L2 : Fin n → Fin nZ → ℝ) (a2 b2 : Fin n → ℝ) (m : Fin n)
    (hne : ∀ m' ≠ m, ∀ x, hypRow L2 a2 b2 m' x = hypRow L a b m' x) (E : Option (Option (Fin nZ)) → Prop) [DecidablePred E]
    (hE : ∀ x, hypRow L2 a2 b2 m x = if E x then hypRow L a b m x else 0) (h : Hyp n nZ) :
    ∏ m', hypRow L2 a2 b2 m' (h m') = if E (h m) then ∏ m', hypRow L a b m' (h m') else 0 := by
  classical
  rw [← Finset.mul_prod_erase _ _ (Finset.mem_univ m), hE]
  by_cases he : E (h m)
  · rw [if_pos he, if_pos he, ← Finset.mul_prod_erase _ _ (Finset.mem_univ m)]
    congr 1
    exact Finset.prod_congr rfl fun m' hm' => hne m' (Finset.ne_of_mem_erase hm') _
  · rw [if_neg he, if_neg he, zero_mul]

end Assoc
end RFS
