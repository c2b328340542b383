import Verif.Lemmas.Kalman
import Verif.Lemmas.MeasModels
import Mathlib.Analysis.Real.Pi.Bounds
import Mathlib.Algebra.Order.Star.Real

/-! C59 (valid covariance), C60 (wrapped likelihood), C79 (vector correction), C80 (posterior), C81 (log-likelihood). -/

namespace RFS
namespace KalmanProps
open Real Matrix Kalman

variable {n m : Nat}

/-! ### C59 -/

/-- **C59**: whenever a correction is carried out and the innovation covariance has the form `H P Hᵀ + N` with `P` and `N` positive semidefinite and is
invertible, the updated covariance is symmetric, positive semidefinite, and no larger than the prior one. -/
theorem C59_covariance (e : Expected n m) (innov : (Fin n → ℝ) → (Fin n → ℝ) → Option (Fin n → ℝ)) (z : Fin n → ℝ) (cur upd : Gauss m)
    (N : Matrix (Fin n) (Fin n) ℝ) (hP : cur.cov.PosSemidef) (hN : N.PosSemidef) (hS : e.S = e.H * cur.cov * e.Hᵀ + N) (hinv : IsUnit e.S.det)
    (hret : (correct e innov z cur upd).ret = true) :
    (correct e innov z cur upd).upd.covᵀ = (correct e innov z cur upd).upd.cov ∧
    (correct e innov z cur upd).upd.cov.PosSemidef ∧ (cur.cov - (correct e innov z cur upd).upd.cov).PosSemidef := by
  have hc : (correct e innov z cur upd).upd.cov = covUpd e cur.cov := by
    unfold correct at hret ⊢
    split_ifs at hret ⊢
    cases h : innov e.z z with
    | none => simp [h] at hret
    | some ν => rfl
  rw [hc]
  have hSp : e.S.PosSemidef := by
    rw [hS]; exact (psd_conj hP e.H).add hN
  refine ⟨covUpd_symm e, ?_, ?_⟩
  · rw [covUpd_eq e (psd_symm hP) (psd_symm hSp), joseph e (psd_symm hP) hS hinv]
    exact (psd_conj hP _).add (psd_conj hN _)
  · rw [covUpd_eq e (psd_symm hP) (psd_symm hSp)]
    exact sub_psd e (psd_symm hP) hSp

/-- **C59**: symmetry needs no hypothesis at all. -/
theorem C59_symmetric (e : Expected n m) (innov : (Fin n → ℝ) → (Fin n → ℝ) → Option (Fin n → ℝ)) (z : Fin n → ℝ) (cur upd : Gauss m)
    (hu : upd.covᵀ = upd.cov) : (correct e innov z cur upd).upd.covᵀ = (correct e innov z cur upd).upd.cov := by
  unfold correct
  split_ifs
  · exact hu
  · cases h : innov e.z z with
    | none => exact hu
    | some ν => exact covUpd_symm e

/-- **C59**: a rejected measurement leaves the landmark, and the likelihood, untouched; rejection is exactly an invalid expected measurement or a
refused innovation. -/
theorem C59_rejected (e : Expected n m) (innov : (Fin n → ℝ) → (Fin n → ℝ) → Option (Fin n → ℝ)) (z : Fin n → ℝ) (cur upd : Gauss m) :
    ((correct e innov z cur upd).ret = false ↔ e.ok = false ∨ innov e.z z = none) ∧
    ((correct e innov z cur upd).ret = false → (correct e innov z cur upd).upd = upd ∧ (correct e innov z cur upd).lik = none) := by
  unfold correct
  by_cases h0 : e.ok = false
  · simp [h0]
  · rw [if_neg h0]
    cases h : innov e.z z with
    | none => simp
    | some ν => simpa using h0

/-- **C59** for the range-bearing model: its innovation covariance has the form needed when the covariances of pose, landmark and noise are positive
semidefinite. -/
theorem C59_rngbrg (cfg : Meas.Cfg) (R : Matrix (Fin 2) (Fin 2) ℝ) (fuel : Nat) (x : Fin 3 → ℝ) (Sx : Matrix (Fin 3) (Fin 3) ℝ) (cur upd : Gauss 2)
    (hR : R.PosSemidef) (hx : Sx.PosSemidef) (hP : cur.cov.PosSemidef) (o : Meas.Out 2 2 3)
    (ho : Meas.rngBrg cfg R fuel x Sx cur.mean cur.cov = some o) (hinv : IsUnit o.S.det)
    (innov : (Fin 2 → ℝ) → (Fin 2 → ℝ) → Option (Fin 2 → ℝ)) (z : Fin 2 → ℝ) (hret : (correct (ofOut o) innov z cur upd).ret = true) :
    (correct (ofOut o) innov z cur upd).upd.cov.PosSemidef ∧ (cur.cov - (correct (ofOut o) innov z cur upd).upd.cov).PosSemidef := by
  have hS : (ofOut o).S = (ofOut o).H * cur.cov * (ofOut o).Hᵀ + (o.Hp * Sx * o.Hpᵀ + R) := by
    obtain ⟨b, -, rfl⟩ := Option.map_eq_some_iff.1 ho
    exact add_assoc _ _ _
  exact (C59_covariance (ofOut o) innov z cur upd _ hP ((psd_conj hx _).add hR) hS hinv hret).2

/-- Not vacuous: one dimension, prior variance 1, noise 1. -/
example : ∃ e : Expected 1 1, e.ok = true ∧ e.S = e.H * (1 : Matrix (Fin 1) (Fin 1) ℝ) * e.Hᵀ + 1 ∧ IsUnit e.S.det ∧
    (1 : Matrix (Fin 1) (Fin 1) ℝ).PosSemidef := by
  refine ⟨⟨0, 2, 1, true⟩, rfl, ?_, ?_, Matrix.PosSemidef.one⟩
  · simp; norm_num
  · rw [show (2 : Matrix (Fin 1) (Fin 1) ℝ) = !![2] by ext i j; fin_cases i; fin_cases j; rfl]
    simp

/-! ### C60 -/

/-- The likelihood `correct` reports. -/
noncomputable def reported (e : Expected n m) (innov : (Fin n → ℝ) → (Fin n → ℝ) → Option (Fin n → ℝ)) (z : Fin n → ℝ) (cur upd : Gauss m) :
    Option ℝ := (correct e innov z cur upd).lik.map Prod.fst

/-- The innovation of the range-bearing filter, with as much fuel as it needs. -/
def IsInnov (t : Meas.Thr) (innov : (Fin 2 → ℝ) → (Fin 2 → ℝ) → Option (Fin 2 → ℝ)) : Prop :=
  ∀ zexp zact, ∃ N, ∀ fuel, N ≤ fuel → Meas.innovation t fuel zexp zact = some (innov zexp zact)

/-- What C60 says: two measurements that differ by a multiple of `2π` in the bearing get the same likelihood. -/
def C60_full : Prop :=
  ∀ (t : Meas.Thr) (innov : (Fin 2 → ℝ) → (Fin 2 → ℝ) → Option (Fin 2 → ℝ)), IsInnov t innov → ∀ (e : Expected 2 2) (cur upd : Gauss 2)
    (z z' : Fin 2 → ℝ) (k : ℤ), z' 0 = z 0 → z' 1 = z 1 + k * (2 * π) → reported e innov z cur upd = reported e innov z' cur upd

theorem exists_innov (t : Meas.Thr) : ∃ innov, IsInnov t innov := by
  have h : ∀ zexp zact, ∃ r N, ∀ fuel, N ≤ fuel → Meas.innovation t fuel zexp zact = some r := by
    intro zexp zact
    obtain ⟨c, N, hN, -⟩ := Meas.wrap_spec (zact 1 - zexp 1)
    by_cases hr : 0 < t.range ∧ t.range < |zact 0 - zexp 0|
    · exact ⟨none, 0, fun fuel _ => by simp [Meas.innovation, hr]⟩
    · exact ⟨if 0 < t.bearing ∧ t.bearing < |c| then none else some ![zact 0 - zexp 0, c], N, fun fuel hf => by
        simp only [Meas.innovation, if_neg hr, hN fuel hf, Option.map_some]⟩
  choose f hf using h
  exact ⟨f, hf⟩

/-- Without thresholds the innovation is the range difference and the wrapped bearing difference. -/
theorem innov_off {innov} (h : IsInnov ⟨-1, -1⟩ innov) (zexp zact : Fin 2 → ℝ) :
    ∃ b fuel, innov zexp zact = some ![zact 0 - zexp 0, b] ∧ Meas.wrap fuel (zact 1 - zexp 1) = some b := by
  obtain ⟨N, hN⟩ := h zexp zact
  have := hN N le_rfl
  unfold Meas.innovation at this
  rw [if_neg (by norm_num)] at this
  obtain ⟨b, hb, hb'⟩ := Option.map_eq_some_iff.1 this
  rw [if_neg (by norm_num)] at hb'
  exact ⟨b, N, hb'.symm, hb⟩

/-- **C60** fails: expected bearing 3 and measured bearing -3 (both in range, 0.28 rad apart) give the likelihood of a 6 rad error, while the same
measurement written as `-3 + 2π` gives the likelihood of the 0.28 rad error. -/
theorem C60_violated : ¬ C60_full := by
  intro h
  obtain ⟨innov, hi⟩ := exists_innov ⟨-1, -1⟩
  have := h ⟨-1, -1⟩ innov hi ⟨![10, 3], 1, 1, true⟩ ⟨0, 1⟩ ⟨0, 1⟩ ![10, -3] ![10, -3 + 2 * π] 1 rfl (by simp)
  obtain ⟨b1, -, h1, -⟩ := innov_off hi ![10, 3] ![10, -3]
  obtain ⟨b2, -, h2, -⟩ := innov_off hi ![10, 3] ![10, -3 + 2 * π]
  simp only [reported, correct, h1, h2, Bool.true_eq_false, if_false, Option.map_some, gaussian, md2, Option.some.injEq] at this
  have hpos : (0 : ℝ) < √((2 * π) ^ 2 * (1 : Matrix (Fin 2) (Fin 2) ℝ).det) := by
    apply Real.sqrt_pos.2
    rw [det_one, mul_one]
    positivity
  rw [div_left_inj' hpos.ne', Real.exp_eq_exp] at this
  have e1 : (![10, -3] - ![10, 3] : Fin 2 → ℝ) ⬝ᵥ ((1 : Matrix (Fin 2) (Fin 2) ℝ)⁻¹ *ᵥ (![10, -3] - ![10, 3])) = 36 := by
    simp [dotProduct, Fin.sum_univ_two]
    norm_num
  have e2 : (![10, -3 + 2 * π] - ![10, 3] : Fin 2 → ℝ) ⬝ᵥ ((1 : Matrix (Fin 2) (Fin 2) ℝ)⁻¹ *ᵥ (![10, -3 + 2 * π] - ![10, 3])) =
      (2 * π - 6) ^ 2 := by
    simp [dotProduct, Fin.sum_univ_two]
    ring
  rw [e1, e2] at this
  have hp1 := Real.pi_gt_three
  have hp2 := Real.pi_lt_four
  nlinarith

/-- **C60**, in part: if the raw bearing difference is within `[-π, π]` the likelihood is the Gaussian of the wrapped innovation. Missing: raw differences
outside, see `C60_violated`. -/
theorem C60_likelihood_partial (innov : (Fin 2 → ℝ) → (Fin 2 → ℝ) → Option (Fin 2 → ℝ)) (t : Meas.Thr) (hi : IsInnov t innov) (e : Expected 2 m)
    (cur upd : Gauss m) (z : Fin 2 → ℝ) (h1 : -π ≤ z 1 - e.z 1) (h2 : z 1 - e.z 1 ≤ π) (hret : (correct e innov z cur upd).ret = true) :
    ∃ ν, innov e.z z = some ν ∧ reported e innov z cur upd = some (gaussian e.S ν) := by
  obtain ⟨hr1, -⟩ := C59_rejected e innov z cur upd
  have hno : ¬ (e.ok = false ∨ innov e.z z = none) := fun h => by
    rw [hr1.2 h] at hret; cases hret
  push Not at hno
  obtain ⟨ν, hν⟩ := Option.ne_none_iff_exists'.1 hno.2
  refine ⟨ν, hν, ?_⟩
  have hνv : ν = z - e.z := by
    obtain ⟨N, hN⟩ := hi e.z z
    have h3 := hN N le_rfl
    rw [hν] at h3
    unfold Meas.innovation at h3
    split_ifs at h3
    · simp at h3
    · obtain ⟨b, hb, hb'⟩ := Option.map_eq_some_iff.1 h3
      split_ifs at hb'
      · obtain ⟨-, -, hsame, -⟩ := Meas.wrap_some hb
        rw [hsame h1 h2] at hb'
        rw [← Option.some.inj hb']
        funext i
        fin_cases i <;> rfl
  simp only [reported, correct, if_neg hno.1, hν, Option.map_some, hνv]

/-- Not vacuous: such an innovation function exists, and a difference of 1 is within the bounds. -/
example : (∃ innov, IsInnov ⟨-1, -1⟩ innov) ∧ -π ≤ (1 : ℝ) ∧ (1 : ℝ) ≤ π :=
  ⟨exists_innov _, by linarith [Real.pi_gt_three], by linarith [Real.pi_gt_three]⟩

/-! ### C79 -/

/-- **C79**, expected measurement valid: the outputs have one position per measurement, and position `i` is what the single-measurement version gives
for measurement `i`; a refused measurement gets likelihood (and distance) 0. -/
theorem C79_vector_correct {k : Nat} (e : Expected n m) (innov : (Fin n → ℝ) → (Fin n → ℝ) → Option (Fin n → ℝ)) (dflt : Gauss m)
    (z : Fin k → Fin n → ℝ) (cur : Gauss m) (upd : List (Gauss m)) (lik md : List ℝ) (hok : e.ok = true) :
    ∃ c, correctV e innov dflt z cur upd (some lik) (some md) = .done c ∧ ∀ (i : Fin k) (u : Gauss m),
      ((correct e innov (z i) cur u).ret = true → (c i).upd = (correct e innov (z i) cur u).upd ∧
        ∃ l d, (correct e innov (z i) cur u).lik = some (l, d) ∧ (c i).lik = some l ∧ (c i).md = some d) ∧
      ((correct e innov (z i) cur u).ret = false → (c i).lik = some 0 ∧ (c i).md = some 0 ∧ (∀ h : i.val < upd.length, (c i).upd = upd[i.val])) := by
  refine ⟨loopV e innov cur z fun i => ⟨resized k dflt upd i, some (resized k 0 lik i), some (resized k 0 md i)⟩, ?_, ?_⟩
  · simp only [correctV, hok, Bool.true_eq_false, if_false, Option.map_some]
  intro i u
  rw [loopV_apply]
  unfold stepCell correct
  simp only [hok, Bool.true_eq_false, if_false]
  cases h : innov e.z (z i) with
  | none =>
    refine ⟨fun h => by simp at h, fun _ => ⟨by simp, by simp, fun hi => ?_⟩⟩
    simp [resized, List.getD, hi]
  | some ν => exact ⟨fun _ => ⟨rfl, _, _, rfl, by simp, by simp⟩, fun h => by simp at h⟩

/-- What C79 says of an invalid expected measurement: the function returns `false`, the landmarks are left alone, and the likelihoods of all
measurements are 0. -/
def C79_invalid_full : Prop :=
  ∀ (n m k : Nat) (e : Expected n m) (innov : (Fin n → ℝ) → (Fin n → ℝ) → Option (Fin n → ℝ)) (dflt : Gauss m) (z : Fin k → Fin n → ℝ) (cur : Gauss m)
    (upd : List (Gauss m)) (lik md : List ℝ), e.ok = false →
    ∃ l d, correctV e innov dflt z cur upd (some lik) (some md) = .invalid upd (some l) (some d) ∧ ∀ i, i < k → l[i]? = some 0 ∧ d[i]? = some 0

/-- **C79**, expected measurement invalid, in part: right if the supplied vectors already have a position per measurement. Missing: shorter vectors,
see `C79_violated`. -/
theorem C79_invalid_partial {k : Nat} (e : Expected n m) (innov : (Fin n → ℝ) → (Fin n → ℝ) → Option (Fin n → ℝ)) (dflt : Gauss m)
    (z : Fin k → Fin n → ℝ) (cur : Gauss m) (upd : List (Gauss m)) (lik md : List ℝ) (hok : e.ok = false) (hl : k ≤ lik.length)
    (hd : k ≤ md.length) :
    ∃ l d, correctV e innov dflt z cur upd (some lik) (some md) = .invalid upd (some l) (some d) ∧ ∀ i, i < k → l[i]? = some 0 ∧ d[i]? = some 0 := by
  refine ⟨List.replicate k 0 ++ lik.drop k, List.replicate k 0 ++ md.drop k, ?_, ?_⟩
  · simp only [correctV, hok, if_true, Option.map_some, (zeroAt_spec k lik).1 hl, (zeroAt_spec k md).1 hd]
    rfl
  · intro i hi
    constructor <;> rw [List.getElem?_append_left (by simpa using hi)] <;> simp [hi]

/-- **C79** fails: with an output vector shorter than the number of measurements (an empty one, say), an invalid expected measurement ends in an
`std::out_of_range` exception, although the vectors are resized when the expected measurement is valid. -/
theorem C79_violated : ¬ C79_invalid_full := by
  intro h
  obtain ⟨l, d, h1, -⟩ := h 1 1 1 ⟨0, 1, 1, false⟩ (fun _ _ => none) ⟨0, 1⟩ (fun _ => 0) ⟨0, 1⟩ [] [] [] rfl
  simp [correctV, (zeroAt_spec 1 []).2 (by simp)] at h1

/-- An expected measurement that is not valid, and two measurements. -/
example : ∃ l d, correctV (⟨0, 1, 1, false⟩ : Expected 1 1) (fun _ _ => none) ⟨0, 1⟩ (![0, 1] : Fin 2 → Fin 1 → ℝ) ⟨0, 1⟩ [] (some [5, 6]) (some [7, 8]) = .invalid [] (some l) (some d) ∧ l[1]? = some 0 := by
  obtain ⟨l, d, h, h'⟩ := C79_invalid_partial (⟨0, 1, 1, false⟩ : Expected 1 1) (fun _ _ => none) ⟨0, 1⟩ (![0, 1] : Fin 2 → Fin 1 → ℝ) ⟨0, 1⟩ [] [5, 6] [7, 8] rfl (by simp) (by simp)
  exact ⟨l, d, h, (h' 1 (by norm_num)).1⟩

/-! ### C80 -/

/-- **C80**: with a linear measurement `z = e.z + H (x - mean) + noise`, noise covariance `N`, the product of prior density and measurement density is the
density of the corrected landmark times the reported likelihood: the correction is the exact Bayesian posterior, and the reported likelihood is the
normalising constant. Stated for a plain innovation (difference of the vectors). -/
theorem C80_posterior (e : Expected n m) (innov : (Fin n → ℝ) → (Fin n → ℝ) → Option (Fin n → ℝ)) (z : Fin n → ℝ) (cur upd : Gauss m)
    (N : Matrix (Fin n) (Fin n) ℝ) (hP : cur.cov.PosDef) (hN : N.PosDef) (hS : e.S = e.H * cur.cov * e.Hᵀ + N) (hok : e.ok = true)
    (hinn : innov e.z z = some (z - e.z)) :
    ∃ l d, (correct e innov z cur upd).lik = some (l, d) ∧ ∀ x : Fin m → ℝ,
      gaussian cur.cov (x - cur.mean) * gaussian N (z - (e.z + e.H *ᵥ (x - cur.mean))) =
        gaussian (correct e innov z cur upd).upd.cov (x - (correct e innov z cur upd).upd.mean) * l := by
  have hSp := S_posDef e hP hN hS
  have hcu := covUpd_eq (P := cur.cov) e (psd_symm hP.posSemidef) (psd_symm hSp.posSemidef)
  have hcor : correct e innov z cur upd = ⟨true, ⟨cur.mean + gain e cur.cov *ᵥ (z - e.z), covUpd e cur.cov⟩,
      some (gaussian e.S (z - e.z), md2 e.S (z - e.z))⟩ := by
    unfold correct
    rw [if_neg (by simp [hok]), hinn]
  refine ⟨_, _, by rw [hcor], ?_⟩
  intro x
  rw [hcor]
  simp only [hcu]
  have hq := quad_eq e hP hN hS (x - cur.mean) (z - e.z)
  have hd := det_eq e hP hN hS
  have v1 : z - (e.z + e.H *ᵥ (x - cur.mean)) = (z - e.z) - e.H *ᵥ (x - cur.mean) := by abel
  have v2 : x - (cur.mean + gain e cur.cov *ᵥ (z - e.z)) = (x - cur.mean) - gain e cur.cov *ᵥ (z - e.z) := by abel
  rw [v1, v2]
  unfold gaussian
  rw [div_mul_div_comm, div_mul_div_comm, ← Real.exp_add, ← Real.exp_add, ← mul_add, ← mul_add, hq]
  congr 1
  have hpi : ∀ a : Nat, (0 : ℝ) ≤ (2 * π) ^ a := fun a => by positivity
  have hdP := hP.det_pos
  have hdQ : 0 ≤ ((1 - gain e cur.cov * e.H) * cur.cov).det := by
    have hdS := hSp.det_pos
    have : 0 < ((1 - gain e cur.cov * e.H) * cur.cov).det * e.S.det := by rw [hd]; exact mul_pos hdP hN.det_pos
    exact (pos_of_mul_pos_left this hdS.le).le
  rw [← Real.sqrt_mul (mul_nonneg (hpi _) hdP.le), ← Real.sqrt_mul (mul_nonneg (hpi _) hdQ)]
  congr 1
  linear_combination (-(2 * π) ^ m * (2 * π) ^ n) * hd

/-- Not vacuous. -/
example : (1 : Matrix (Fin 2) (Fin 2) ℝ).PosDef := Matrix.PosDef.one

/-! ### C81 -/

/-- **C81**: the log-likelihood is the logarithm of the likelihood, for every positive definite covariance; and both report the same squared
Mahalanobis distance, which is non-negative. -/
theorem C81_log_likelihood (S : Matrix (Fin n) (Fin n) ℝ) (hS : S.PosDef) (d : Fin n → ℝ) :
    0 < gaussian S d ∧ gaussianLog S d = Real.log (gaussian S d) ∧ 0 ≤ md2 S d := by
  have hpos : 0 < √((2 * π) ^ n * S.det) := Real.sqrt_pos.2 (mul_pos (by positivity) hS.det_pos)
  refine ⟨div_pos (Real.exp_pos _) hpos, ?_, ?_⟩
  · rw [gaussianLog, gaussian, Real.log_div (Real.exp_pos _).ne' hpos.ne', Real.log_exp]
  · have := hS.inv.posSemidef.dotProduct_mulVec_nonneg d
    simpa [md2] using this

/-- **C81**: the likelihood never exceeds its value at the mean, and is attained only there. -/
theorem C81_mode (S : Matrix (Fin n) (Fin n) ℝ) (hS : S.PosDef) (d : Fin n → ℝ) (hd : d ≠ 0) : gaussian S d < gaussian S 0 := by
  have hpos : 0 < √((2 * π) ^ n * S.det) := Real.sqrt_pos.2 (mul_pos (by positivity) hS.det_pos)
  unfold gaussian
  rw [div_lt_div_iff_of_pos_right hpos, Real.exp_lt_exp]
  have h := hS.inv.dotProduct_mulVec_pos hd
  have h' : 0 < md2 S d := by simpa [md2] using h
  have h0 : md2 S 0 = 0 := by simp [md2]
  rw [h0]
  linarith

end KalmanProps
end RFS
