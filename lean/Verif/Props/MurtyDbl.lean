import Verif.Model.MurtyDbl
import Verif.Props.HungDbl

set_option linter.unusedSectionVars false

/-!
Property C235: the first call of `Murty::findNextBest` in doubles. The specifications `total`, `Best` and `dsum` are those of
Props/HungDbl.lean.
-/

namespace RFS
namespace MurtyDblProps
open Dbl Hungarian HungDblProps MurtyDbl

variable {n : Nat}

/-- **C235**, part: for every matrix of doubles and every rounding to nearest the first call either hands out an assignment
and a score that were never written, or a permutation with the sum, in doubles, of the entries of a matrix that differs from
the caller's by at most `M * 2^-51`, where `M` bounds the entries. Missing: that the first never happens, see
`C235_violated`. -/
theorem C235_safe_partial {rd : ℚ → ℚ} (hrd : Nearest rd) (C : Fin n → Fin n → ℚ) (hC : ∀ x y, Rep (C x y)) (fuel : Nat)
    (hf : n * (n + 1) < fuel) (M : ℚ) (hM : ∀ x y, |C x y| ≤ M) :
    (∃ C', first rd C fuel = .unset C') ∨
    ∃ (a : Fin n → Fin n) (C' : Fin n → Fin n → ℚ), Function.Bijective a ∧ first rd C fuel = .ok a (dsum rd C' a) C' ∧
      ∀ x y, |C' x y - C x y| ≤ M / 2 ^ 51 := by
  rcases C233_safe_partial hrd C true fuel hf with h | ⟨a, C', ha, h⟩
  · left
    exact ⟨_, by unfold first; rw [h]⟩
  · right
    refine ⟨a, C', ha, by unfold first; rw [h], ?_⟩
    exact C234_bound_partial hrd C hC true fuel hf M hM a _ C' h

/-- **C235**, part: if the entries are multiples of a power of two not below `2^-39`, with bounded factors, the first call
hands out an assignment that is best up to `n * 1e-12`, its exact total, and leaves the caller's matrix unchanged. -/
theorem C235_grid_partial {rd : ℚ → ℚ} (hrd : Nearest rd) (C : Fin n → Fin n → ℚ) (fuel : Nat)
    (hf : n * (n + 1) < fuel) (q : ℤ) (hq : -39 ≤ q) (k : Fin n → Fin n → ℤ) (hC : ∀ x y, C x y = k x y * (2 : ℚ) ^ q)
    (B : ℕ) (hk : ∀ x y, |k x y| ≤ B) (h4 : 4 * B ≤ 2 ^ 53) (hn : n * B ≤ 2 ^ 53) :
    ∃ a : Fin n → Fin n, first rd C fuel = .ok a (total C a) C ∧ Best C true (n * (1 / 10 ^ 12)) a := by
  obtain ⟨a, h1, h2, -⟩ := C233_grid_partial hrd C true fuel hf q hq k hC B hk h4 hn
  exact ⟨a, by unfold first; rw [h1], h2⟩

/-- The logarithms of the likelihoods of seven landmarks and seven measurements, in tenths. -/
def lik : Fin 7 → Fin 7 → Option ℚ := fun r c => (([[some (115), some (-49), some (215), none, some (77), some (263), some (239)],
  [some (385), none, none, none, some (188), some (238), some (383)],
  [some (273), some (308), none, some (-40), some (198), some (332), some (304)],
  [some (94), some (151), none, none, some (237), some (-187), some (256)],
  [some (23), some (318), some (266), some (237), some (107), some (-143), some (106)],
  [some (-9), some (148), some (84), some (322), some (336), some (264), some (-158)],
  [none, none, none, some (-200), some (-160), some (120), none]] : List (List (Option ℚ))).getD r.val []).getD c.val none

/-- The logarithms of `1 - Pd` and of the clutter intensities, in tenths. -/
def miss : Fin 7 → ℚ := fun r => ([-2, -48, -14, -12, -30, -8, -2] : List ℚ).getD r.val 0
def clutter : Fin 7 → ℚ := fun c => ([9, 32, -83, 17, -1, 30, -6] : List ℚ).getD c.val 0

/-- The matrix that `rfsMeasurementLikelihood` builds from these numbers, which are doubles written with one decimal. -/
def filterMatrix : Fin 14 → Fin 14 → ℚ :=
  extended (fun r c => (lik r c).map fun v => rnd (v / 10)) (fun r => rnd (miss r / 10)) (fun c => rnd (clutter c / 10))

/-- Whether the first call hands out values that were never written. -/
def Unset : First ℚ n → Bool
  | .unset _ => true
  | _ => false

/-- A matrix with entries of both signs for which the second case of `C235_safe_partial` holds. -/
example : (∀ x y, Rep (small x y)) ∧ Unset (first rnd small 7) = false := ⟨C234_violated.1, by decide +kernel⟩

/-- The same matrix with all entries in tenths, as integers, meets the hypotheses of `C235_grid_partial`. -/
def filterTenths : Fin 14 → Fin 14 → ℤ := fun x y =>
  (([[115, -49, 215, -10000, 77, 263, 239, -2, -10000, -10000, -10000, -10000, -10000, -10000],
  [385, -10000, -10000, -10000, 188, 238, 383, -10000, -48, -10000, -10000, -10000, -10000, -10000],
  [273, 308, -10000, -40, 198, 332, 304, -10000, -10000, -14, -10000, -10000, -10000, -10000],
  [94, 151, -10000, -10000, 237, -187, 256, -10000, -10000, -10000, -12, -10000, -10000, -10000],
  [23, 318, 266, 237, 107, -143, 106, -10000, -10000, -10000, -10000, -30, -10000, -10000],
  [-9, 148, 84, 322, 336, 264, -158, -10000, -10000, -10000, -10000, -10000, -8, -10000],
  [-10000, -10000, -10000, -200, -160, 120, -10000, -10000, -10000, -10000, -10000, -10000, -10000, -2],
  [9, -10000, -10000, -10000, -10000, -10000, -10000, 0, 0, 0, 0, 0, 0, 0],
  [-10000, 32, -10000, -10000, -10000, -10000, -10000, 0, 0, 0, 0, 0, 0, 0],
  [-10000, -10000, -83, -10000, -10000, -10000, -10000, 0, 0, 0, 0, 0, 0, 0],
  [-10000, -10000, -10000, 17, -10000, -10000, -10000, 0, 0, 0, 0, 0, 0, 0],
  [-10000, -10000, -10000, -10000, -1, -10000, -10000, 0, 0, 0, 0, 0, 0, 0],
  [-10000, -10000, -10000, -10000, -10000, 30, -10000, 0, 0, 0, 0, 0, 0, 0],
  [-10000, -10000, -10000, -10000, -10000, -10000, -6, 0, 0, 0, 0, 0, 0, 0]] : List (List ℤ)).getD x.val []).getD y.val 0

example : ∃ a : Fin 14 → Fin 14, first rnd (fun x y => (filterTenths x y : ℚ)) 211 =
      .ok a (total (fun x y => (filterTenths x y : ℚ)) a) (fun x y => (filterTenths x y : ℚ)) ∧
    Best (fun x y => (filterTenths x y : ℚ)) true (14 * (1 / 10 ^ 12)) a :=
  C235_grid_partial nearest_rnd _ 211 (by norm_num) 0 (by norm_num) filterTenths (fun x y => by simp) 10000
    (by decide +kernel) (by norm_num) (by norm_num)

/-- The matrix of the example is the matrix of the filter in tenths. -/
example : ∀ x y, filterMatrix x y = rnd (filterTenths x y / 10) := by decide +kernel

theorem rep_filterMatrix (x y : Fin 14) : Rep (filterMatrix x y) := by
  have h : filterMatrix x y = rnd (filterTenths x y / 10) := by revert x y; decide +kernel
  rw [h]
  exact rep_rnd _

/-- **C235** fails: for the matrix that the likelihood functions of the filters build from seven landmarks and seven
measurements with the logarithms above, the first call hands out an assignment and a score that were never written: the
Hungarian method returns `false`, which `findNextBest` does not look at. All entries are doubles in [-1000, 40]. -/
theorem C235_violated : (∀ x y, Rep (filterMatrix x y) ∧ -1000 ≤ filterMatrix x y ∧ filterMatrix x y ≤ 40) ∧
    Unset (first rnd filterMatrix 211) = true := by
  refine ⟨fun x y => ⟨rep_filterMatrix x y, ?_⟩, by decide +kernel⟩
  revert x y
  decide +kernel

end MurtyDblProps
end RFS
