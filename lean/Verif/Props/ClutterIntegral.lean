import Verif.Lemmas.MeasModels
import Mathlib.MeasureTheory.Measure.Lebesgue.VolumeOfBalls

/-!
C78: `clutterIntensityIntegral` is the integral of the (uniform) clutter intensity over the measurement space, that is, over the set of all
measurements that `measure` can produce and report as valid.
-/

namespace RFS
namespace ClutterProps
open Real Matrix Meas MeasureTheory

/-- The measurements the range-bearing model can produce and reports as valid. -/
def spaceRngBrg (cfg : Cfg) : Set (Fin 2 → ℝ) :=
  {z | ∃ (R : Matrix (Fin 2) (Fin 2) ℝ) (fuel : Nat) (x : Fin 3 → ℝ) (Sx : Matrix (Fin 3) (Fin 3) ℝ) (m : Fin 2 → ℝ)
    (Sm : Matrix (Fin 2) (Fin 2) ℝ) (o : Out 2 2 3), rngBrg cfg R fuel x Sx m Sm = some o ∧ o.ok = true ∧ o.z = z}

/-- The same for the plane. -/
def spaceXY (cfg : Cfg) : Set (Fin 2 → ℝ) :=
  {z | ∃ (R : Matrix (Fin 2) (Fin 2) ℝ) (x : Fin 3 → ℝ) (Sx : Matrix (Fin 3) (Fin 3) ℝ) (m : Fin 2 → ℝ) (Sm : Matrix (Fin 2) (Fin 2) ℝ),
    (xy cfg R x Sx m Sm).ok = true ∧ (xy cfg R x Sx m Sm).z = z}

/-- The same for the line. -/
def spaceRng1d (cfg : Cfg) : Set ℝ :=
  {z | ∃ R Sx Sm x m : ℝ, (rng1d cfg R Sx Sm x m).ok = true ∧ (rng1d cfg R Sx Sm x m).z 0 = z}

/-- The same for space, with unit quaternions. -/
def space6d (cfg : Cfg) : Set (Fin 3 → ℝ) :=
  {z | ∃ (R : Matrix (Fin 3) (Fin 3) ℝ) (x : Pose6) (Sx : Matrix (Fin 7) (Fin 7) ℝ) (m : Fin 3 → ℝ) (Sm : Matrix (Fin 3) (Fin 3) ℝ),
    Unit4 x.q ∧ (m6d cfg R x Sx m Sm).ok = true ∧ (m6d cfg R x Sx m Sm).z = z}

/-- What the integral has to be: intensity times the volume of the measurement space. -/
noncomputable def expectedClutter {Z : Type} [MeasureSpace Z] (cfg : Cfg) (s : Set Z) : ℝ := cfg.clutter * (volume s).toReal

theorem inRange_iff (cfg : Cfg) (r : ℝ) : inRange cfg r = true ↔ r ≤ cfg.rMax ∧ cfg.rMin ≤ r := by
  unfold inRange
  by_cases h : cfg.rMax < r ∨ r < cfg.rMin
  · rw [if_pos h]
    simp only [Bool.false_eq_true, false_iff]
    rintro ⟨h1, h2⟩
    rcases h with h | h <;> linarith
  · rw [if_neg h]
    push Not at h
    simpa using h

theorem spaceRngBrg_eq (cfg : Cfg) (h0 : 0 ≤ cfg.rMin) : spaceRngBrg cfg = Set.Icc ![cfg.rMin, -π] ![cfg.rMax, π] := by
  ext z
  constructor
  · rintro ⟨R, fuel, x, Sx, m, Sm, o, ho, hok, rfl⟩
    obtain ⟨b, hb, rfl⟩ := Option.map_eq_some_iff.1 ho
    obtain ⟨h1, h2, -, -⟩ := wrap_some hb
    have hr := (inRange_iff cfg _).1 hok
    constructor <;> intro i <;> fin_cases i
    · exact hr.2
    · exact h2
    · exact hr.1
    · exact h1
  · rintro ⟨h1, h2⟩
    have a0 : cfg.rMin ≤ z 0 := h1 0
    have a1 : -π ≤ z 1 := h1 1
    have b0 : z 0 ≤ cfg.rMax := h2 0
    have b1 : z 1 ≤ π := h2 1
    obtain ⟨o, N, ho⟩ := rngBrg_total cfg 0 ![0, 0, -z 1] 0 ![z 0, 0] 0
    have ho := ho N le_rfl
    refine ⟨0, N, ![0, 0, -z 1], 0, ![z 0, 0], 0, o, ho, ?_⟩
    obtain ⟨b, hb, rfl⟩ := Option.map_eq_some_iff.1 ho
    obtain ⟨-, -, h3, -⟩ := wrap_some hb
    have hz0 : 0 ≤ z 0 := h0.trans a0
    have harg : atan2 0 (z 0) = 0 := Complex.arg_ofReal_of_nonneg hz0
    have hb' : b = z 1 := by
      have : atan2 ((![z 0, 0] : Fin 2 → ℝ) 1 - (![0, 0, -z 1] : Fin 3 → ℝ) 1) ((![z 0, 0] : Fin 2 → ℝ) 0 - (![0, 0, -z 1] : Fin 3 → ℝ) 0) -
          (![0, 0, -z 1] : Fin 3 → ℝ) 2 = z 1 := by simp [harg]
      rw [this] at h3
      exact h3 a1 b1
    have hr : √(((![z 0, 0] : Fin 2 → ℝ) 0 - (![0, 0, -z 1] : Fin 3 → ℝ) 0) ^ 2 +
        ((![z 0, 0] : Fin 2 → ℝ) 1 - (![0, 0, -z 1] : Fin 3 → ℝ) 1) ^ 2) = z 0 := by simp [Real.sqrt_sq hz0]
    constructor
    · show inRange cfg _ = true
      rw [hr, inRange_iff]
      exact ⟨b0, a0⟩
    · funext i
      fin_cases i
      · exact hr
      · exact hb'

/-- **C78**, range-bearing. -/
theorem C78_rngbrg (cfg : Cfg) (h0 : 0 ≤ cfg.rMin) (h1 : cfg.rMin ≤ cfg.rMax) : rngBrgIntegral cfg = expectedClutter cfg (spaceRngBrg cfg) := by
  have hp := Real.pi_pos
  rw [expectedClutter, spaceRngBrg_eq cfg h0, Real.volume_Icc_pi_toReal]
  · simp [Fin.prod_univ_two, rngBrgIntegral]
    left
    ring
  · intro i
    fin_cases i
    · exact h1
    · show -π ≤ π
      linarith

theorem space6d_eq (cfg : Cfg) : space6d cfg = {z | norm3 z ≤ cfg.rMax ∧ cfg.rMin ≤ norm3 z} := by
  ext z
  constructor
  · rintro ⟨R, x, Sx, m, Sm, hq, hok, rfl⟩
    exact (inRange_iff cfg _).1 hok
  · intro hz
    have hu : Unit4 ![0, 0, 0, 1] := by simp [Unit4]
    have h1 : rotMat (conj ![0, 0, 0, 1]) = 1 := by
      ext i j
      fin_cases i <;> fin_cases j <;> simp [rotMat, conj]
    have h2 : (m6d cfg 0 ⟨0, ![0, 0, 0, 1]⟩ 0 z 0).z = z := by simp only [m6d, h1, sub_zero, one_mulVec]
    refine ⟨0, ⟨0, ![0, 0, 0, 1]⟩, 0, z, 0, hu, ?_, h2⟩
    show inRange cfg (norm3 (m6d cfg 0 ⟨0, ![0, 0, 0, 1]⟩ 0 z 0).z) = true
    rw [h2, inRange_iff]
    exact hz

theorem shell_volume {n : Nat} (a b : ℝ) (hab : a ≤ b) (f : (Fin n → ℝ) → ℝ) (hf : ∀ z, f z = ‖WithLp.toLp 2 z‖) (va vb : ENNReal)
    (ha : volume (Metric.ball (0 : EuclideanSpace ℝ (Fin n)) a) = va) (hb : volume (Metric.closedBall (0 : EuclideanSpace ℝ (Fin n)) b) = vb)
    (hfin : va ≠ ⊤) : volume {z : Fin n → ℝ | f z ≤ b ∧ a ≤ f z} = vb - va := by
  have hset : {z : Fin n → ℝ | f z ≤ b ∧ a ≤ f z} =
      (WithLp.toLp 2) ⁻¹' (Metric.closedBall (0 : EuclideanSpace ℝ (Fin n)) b \ Metric.ball (0 : EuclideanSpace ℝ (Fin n)) a) := by
    ext z
    simp [hf, Metric.mem_closedBall, Metric.mem_ball, dist_zero_right]
  rw [hset, (PiLp.volume_preserving_toLp (Fin n)).measure_preimage
    (measurableSet_closedBall.diff measurableSet_ball).nullMeasurableSet,
    measure_diff ((Metric.ball_subset_ball hab).trans Metric.ball_subset_closedBall) measurableSet_ball.nullMeasurableSet (by rw [ha]; exact hfin),
    ha, hb]

theorem norm3_norm (z : Fin 3 → ℝ) : norm3 z = ‖WithLp.toLp 2 z‖ := by
  rw [EuclideanSpace.norm_eq, norm3]
  congr 1
  simp [Fin.sum_univ_three]

/-- **C78**, space. -/
theorem C78_6d (cfg : Cfg) (h0 : 0 ≤ cfg.rMin) (h1 : cfg.rMin ≤ cfg.rMax) : m6dIntegral cfg = expectedClutter cfg (space6d cfg) := by
  have hp := Real.pi_pos
  rw [expectedClutter, space6d_eq, shell_volume cfg.rMin cfg.rMax h1 norm3 norm3_norm _ _ (EuclideanSpace.volume_ball_fin_three _ _)
    (EuclideanSpace.volume_closedBall_fin_three _ _) (by finiteness), ENNReal.toReal_sub_of_le ?_ (by finiteness)]
  · simp only [ENNReal.toReal_mul, ENNReal.toReal_pow]
    rw [ENNReal.toReal_ofReal h0, ENNReal.toReal_ofReal (h0.trans h1), ENNReal.toReal_ofReal (by positivity), m6dIntegral]
    ring
  · gcongr

theorem spaceXY_eq (cfg : Cfg) : spaceXY cfg = {z | √(z 0 ^ 2 + z 1 ^ 2) ≤ cfg.rMax ∧ cfg.rMin ≤ √(z 0 ^ 2 + z 1 ^ 2)} := by
  ext z
  constructor
  · rintro ⟨R, x, Sx, m, Sm, hok, rfl⟩
    have h := (inRange_iff cfg _).1 hok
    have e : (xy cfg R x Sx m Sm).z 0 ^ 2 + (xy cfg R x Sx m Sm).z 1 ^ 2 = (m 0 - x 0) ^ 2 + (m 1 - x 1) ^ 2 := by
      have h := sin_sq_add_cos_sq (x 2)
      simp only [xy, Matrix.cons_val_zero, Matrix.cons_val_one]
      linear_combination ((m 0 - x 0) ^ 2 + (m 1 - x 1) ^ 2) * h
    simp only [Set.mem_setOf_eq, e]
    exact h
  · intro hz
    have h2 : (xy cfg 0 0 0 z 0).z = z := by
      funext i
      fin_cases i <;> simp [xy]
    refine ⟨0, 0, 0, z, 0, ?_, h2⟩
    show inRange cfg √((z 0 - 0) ^ 2 + (z 1 - 0) ^ 2) = true
    rw [sub_zero, sub_zero, inRange_iff]
    exact hz

/-- What the integral of the plane model would have to be. -/
theorem expectedXY (cfg : Cfg) (h0 : 0 ≤ cfg.rMin) (h1 : cfg.rMin ≤ cfg.rMax) :
    expectedClutter cfg (spaceXY cfg) = cfg.clutter * (π * (cfg.rMax ^ 2 - cfg.rMin ^ 2)) := by
  have hp := Real.pi_pos
  have hn : ∀ z : Fin 2 → ℝ, √(z 0 ^ 2 + z 1 ^ 2) = ‖WithLp.toLp 2 z‖ := by
    intro z
    rw [EuclideanSpace.norm_eq]
    congr 1
    simp [Fin.sum_univ_two]
  rw [expectedClutter, spaceXY_eq, shell_volume cfg.rMin cfg.rMax h1 (fun z => √(z 0 ^ 2 + z 1 ^ 2)) hn _ _ (EuclideanSpace.volume_ball_fin_two _ _)
    (EuclideanSpace.volume_closedBall_fin_two _ _) (by finiteness), ENNReal.toReal_sub_of_le ?_ (by finiteness)]
  · simp only [ENNReal.toReal_mul, ENNReal.toReal_pow]
    rw [ENNReal.toReal_ofReal h0, ENNReal.toReal_ofReal (h0.trans h1), ENNReal.toReal_ofReal (by positivity)]
    ring
  · gcongr

/-- **C78**, plane, in part: the integral is right exactly for sensors with `rMin + rMax = 2` (or no clutter, or an empty range interval). Missing: all
other sensors, see `C78_xy_violated`. -/
theorem C78_xy_partial (cfg : Cfg) (h0 : 0 ≤ cfg.rMin) (h1 : cfg.rMin ≤ cfg.rMax) :
    xyIntegral cfg = expectedClutter cfg (spaceXY cfg) ↔ cfg.clutter = 0 ∨ cfg.rMin = cfg.rMax ∨ cfg.rMin + cfg.rMax = 2 := by
  have hp := Real.pi_pos
  rw [expectedXY cfg h0 h1, xyIntegral]
  constructor
  · intro h
    have h2 : cfg.clutter * ((cfg.rMax - cfg.rMin) * (2 - (cfg.rMin + cfg.rMax))) = 0 := by
      have : π * (cfg.clutter * ((cfg.rMax - cfg.rMin) * (2 - (cfg.rMin + cfg.rMax)))) = 0 := by linear_combination h
      exact (mul_eq_zero.1 this).resolve_left hp.ne'
    rcases mul_eq_zero.1 h2 with h | h
    · exact Or.inl h
    rcases mul_eq_zero.1 h with h | h
    · right; left; linarith
    · right; right; linarith
  · rintro (h | h | h)
    · simp [h]
    · simp [h]
    · have : cfg.rMax = 2 - cfg.rMin := by linarith
      rw [this]
      ring

/-- **C78** fails for the plane: with range limits 0 and 10 the expected number of false alarms is `100π c`; the function returns `20π c`. -/
theorem C78_xy_violated : ∃ cfg : Cfg, 0 ≤ cfg.rMin ∧ cfg.rMin ≤ cfg.rMax ∧ xyIntegral cfg ≠ expectedClutter cfg (spaceXY cfg) := by
  refine ⟨⟨0, 1, 10, 0, 0⟩, le_rfl, by norm_num, ?_⟩
  rw [Ne, C78_xy_partial _ le_rfl (by norm_num)]
  norm_num

theorem spaceRng1d_eq (cfg : Cfg) : spaceRng1d cfg = {z | |z| ≤ cfg.rMax ∧ cfg.rMin ≤ |z|} := by
  ext z
  constructor
  · rintro ⟨R, Sx, Sm, x, m, hok, rfl⟩
    exact (inRange_iff cfg _).1 hok
  · intro hz
    refine ⟨0, 0, 0, 0, z, ?_, by simp [rng1d]⟩
    show inRange cfg |z - 0| = true
    rw [sub_zero, inRange_iff]
    exact hz

/-- What the integral of the line model would have to be. -/
theorem expected1d (cfg : Cfg) (h0 : 0 ≤ cfg.rMin) (h1 : cfg.rMin ≤ cfg.rMax) :
    expectedClutter cfg (spaceRng1d cfg) = cfg.clutter * (2 * (cfg.rMax - cfg.rMin)) := by
  have hset : {z : ℝ | |z| ≤ cfg.rMax ∧ cfg.rMin ≤ |z|} = Metric.closedBall 0 cfg.rMax \ Metric.ball 0 cfg.rMin := by
    ext z
    simp [Metric.mem_closedBall, Metric.mem_ball, Real.dist_eq]
  rw [expectedClutter, spaceRng1d_eq, hset,
    measure_diff ((Metric.ball_subset_ball h1).trans Metric.ball_subset_closedBall) measurableSet_ball.nullMeasurableSet
      (by rw [Real.volume_ball]; finiteness), Real.volume_closedBall, Real.volume_ball, ENNReal.toReal_sub_of_le ?_ (by finiteness)]
  · rw [ENNReal.toReal_ofReal (by linarith), ENNReal.toReal_ofReal (by linarith)]
    ring
  · gcongr

/-- **C78** fails for the line: measurements are signed, so that the measurement space has length `2 (rMax - rMin)`; the function returns half the
expected number of false alarms, for every sensor with clutter. -/
theorem C78_rng1d_violated (cfg : Cfg) (h0 : 0 ≤ cfg.rMin) (h1 : cfg.rMin < cfg.rMax) (hc : 0 < cfg.clutter) :
    rng1dIntegral cfg = expectedClutter cfg (spaceRng1d cfg) / 2 ∧ rng1dIntegral cfg ≠ expectedClutter cfg (spaceRng1d cfg) := by
  rw [expected1d cfg h0 h1.le, rng1dIntegral]
  have : 0 < cfg.clutter * (cfg.rMax - cfg.rMin) := mul_pos hc (by linarith)
  constructor
  · ring
  · intro h
    nlinarith

/-- Not vacuous: limits 1 and 5, clutter 2: the range-bearing integral is `16 π`. -/
example : expectedClutter ⟨1, 2, 5, 1, 0⟩ (spaceRngBrg ⟨1, 2, 5, 1, 0⟩) = 16 * π := by
  rw [← C78_rngbrg _ (by norm_num) (by norm_num), rngBrgIntegral]
  ring

end ClutterProps
end RFS
