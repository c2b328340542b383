import Verif.Lemmas.RandomVec
import Mathlib.Analysis.SpecialFunctions.Exp
import Mathlib.Analysis.Real.Pi.Bounds
import Mathlib.Tactic.NormNum

/-!
Property C40: cached covariance quantities.
-/

namespace RFS
namespace RandomVecProps
open RandomVec

variable {x s i d f l m r : Type}

/-- C40 (partial): whatever calls came before, a call that is not a likelihood evaluation returns what the current mean and covariance give.
Missing: the likelihoods (`C40_violated_assign`, `C40_violated_det`). -/
theorem C40_current_partial (o : Ops x s i d f l m r) (M : Nat → Obj x s i d f l) (hM : Fresh M) (cs : List (Call x s i d f l)) (c : Call x s i d f l)
    (hc : isLik c = false) : (exec o (execAll o M cs) c).2 = specOut o (specAll (current M) cs) c :=
  exec_out o _ _ (execAll_agree o cs _ _ (fresh_agree o M hM)) c hc

/-- C40 (partial): in a program without assignments and without `getCovDet` all calls, the likelihoods included, return what the current mean
and covariance give. -/
theorem C40_likelihood_partial (o : Ops x s i d f l m r) (M : Nat → Obj x s i d f l) (hM : Fresh M) (cs : List (Call x s i d f l))
    (hcs : ∀ c ∈ cs, spoils c = false) (c : Call x s i d f l) : (exec o (execAll o M cs) c).2 = specOut o (specAll (current M) cs) c := by
  have h1 := execAll_agree o cs _ _ (fresh_agree o M hM)
  have h2 := execAll_fac o cs _ _ (fresh_agree o M hM) (fun a h => by rw [(hM a).2.1] at h; simp at h) hcs
  exact exec_out_fac o _ _ h1 h2 c

/-- C40 (partial): a likelihood evaluated right after the covariance was set is right, whatever calls came before. -/
theorem C40_after_setCov_partial (o : Ops x s i d f l m r) (M : Nat → Obj x s i d f l) (hM : Fresh M) (cs : List (Call x s i d f l)) (a : Nat) (S : s)
    (y : x) : (exec o (execAll o M (cs ++ [.setCov a S])) (.likelihood a y)).2 =
      specOut o (specAll (current M) (cs ++ [.setCov a S])) (.likelihood a y) := by
  have h1 := execAll_agree o (cs ++ [.setCov a S]) _ _ (fresh_agree o M hM)
  refine exec_out_lik o _ _ h1 (.likelihood a y) a (fun h => ?_) (fun b hb => ?_)
  · rw [execAll_append] at h
    simp [execAll, exec] at h
  · rcases hb with ⟨y', h⟩ | ⟨y', h⟩
    · cases h; rfl
    · cases h

open Real in
/-- The routines for one-dimensional vectors. -/
noncomputable def real1 : Ops ℝ ℝ ℝ ℝ ℝ ℝ ℝ ℝ :=
  ⟨fun S => S⁻¹, fun S => S, fun D => √(2 * π * D), fun S => √S, fun i x y => (y - x) * i * (y - x), fun m f => exp (-(1/2) * m) / f,
    fun m f => -(1/2) * m - log f⟩

theorem sqrt_ne : √(2 * Real.pi * 1) ≠ √(2 * Real.pi * 4) := by
  intro h
  rw [Real.sqrt_inj (by positivity) (by positivity)] at h
  have := Real.pi_pos
  linarith

/-- Objects 0 and 1 with variances 1 and 4; both likelihoods are evaluated; then object 0 becomes a copy of object 1 by assignment. Its
likelihood is computed with the factor of variance 1. -/
theorem C40_violated_assign : ∃ (M : Nat → Obj ℝ ℝ ℝ ℝ ℝ ℝ) (cs : List (Call ℝ ℝ ℝ ℝ ℝ ℝ)), Fresh M ∧
    (exec real1 (execAll real1 M cs) (.likelihood 0 0)).2 ≠ specOut real1 (specAll (current M) cs) (.likelihood 0 0) := by
  refine ⟨fun _ => ⟨0, 1, 0, false, 0, false, 0, false, 0⟩, [.setCov 1 4, .likelihood 0 0, .likelihood 1 0, .assign 0 1], fun a => ⟨rfl, rfl, rfl⟩, ?_⟩
  intro h
  simp [execAll, exec, specAll, specStep, specOut, current, fillInv, fillFac, real1, assigned] at h
  have := Real.pi_pos
  have h2 : √4 = (2 : ℝ) := by rw [show (4 : ℝ) = 2 ^ 2 by norm_num]; exact Real.sqrt_sq (by norm_num)
  rw [h2] at h
  have h3 : √Real.pi ≠ 0 := (Real.sqrt_pos.2 this).ne'
  have h4 : √(2 : ℝ) ≠ 0 := (Real.sqrt_pos.2 (by norm_num)).ne'
  field_simp at h
  norm_num at h

/-- `getCovDet` before the first evaluation leaves the factor as found in memory (here 7). -/
theorem C40_violated_det : ∃ (M : Nat → Obj ℝ ℝ ℝ ℝ ℝ ℝ) (cs : List (Call ℝ ℝ ℝ ℝ ℝ ℝ)), Fresh M ∧
    (exec real1 (execAll real1 M cs) (.likelihood 0 0)).2 ≠ specOut real1 (specAll (current M) cs) (.likelihood 0 0) := by
  refine ⟨fun _ => ⟨0, 1, 0, false, 0, false, 0, false, 7⟩, [.getCovDet 0], fun a => ⟨rfl, rfl, rfl⟩, ?_⟩
  intro h
  simp [execAll, exec, specAll, specStep, specOut, current, fillInv, fillFac, fillDet, real1] at h
  have h1 := Real.pi_le_four
  have h5 := Real.pi_pos
  have h2 : (√2 * √Real.pi) ^ 2 = 2 * Real.pi := by
    rw [mul_pow, Real.sq_sqrt (by norm_num), Real.sq_sqrt h5.le]
  have h3 : (√2 * √Real.pi) = 7 := by
    have h6 : √Real.pi ≠ 0 := (Real.sqrt_pos.2 h5).ne'
    have h4 : √(2 : ℝ) ≠ 0 := (Real.sqrt_pos.2 (by norm_num)).ne'
    field_simp at h
    linarith
  rw [h3] at h2
  norm_num at h2
  linarith

/-- A program covered by `C40_likelihood_partial` that changes covariances after caching. -/
example : ∀ c ∈ ([.likelihood 0 0, .setCov 0 4, .copyConstruct 1 0, .likelihood 0 1] : List (Call ℝ ℝ ℝ ℝ ℝ ℝ)), spoils c = false := by
  simp [spoils]

end RandomVecProps
end RFS
