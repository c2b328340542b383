import Verif.Lemmas.Motion
import Mathlib.Algebra.Order.Star.Real
import Mathlib.Analysis.Real.Pi.Bounds
import Mathlib.Analysis.SpecialFunctions.Trigonometric.Deriv

/-! Properties C61-C63, C82-C86, C111 and C112: motion models. -/

namespace RFS
namespace MotionProps
open Real Matrix TimeStamp TimeStampProps Motion

/-! ### C61 -/

/-- **C61**: the position advances by the odometry rotated into the world frame, the heading by the odometry angle modulo `2π`, into `(-π, π]`, the time
by `dT`. -/
theorem C61_odometry2d (sk skm : St 3) (u : Fin 3 → ℝ) (dT : TS) (ht : Normalised skm.t) (hd : Normalised dT) (ho : NoOverflow skm.t dT) :
    ∃ s, step2d sk skm u dT = some s ∧
      s.x 0 = skm.x 0 + (cos (skm.x 2) * u 0 - sin (skm.x 2) * u 1) ∧
      s.x 1 = skm.x 1 + (sin (skm.x 2) * u 0 + cos (skm.x 2) * u 1) ∧
      (-π < s.x 2 ∧ s.x 2 ≤ π ∧ ∃ k : ℤ, s.x 2 = skm.x 2 + u 2 + k * (2 * π)) ∧
      instant s.t = instant skm.t + instant dT := by
  obtain ⟨r, h1, -, h3⟩ := add_ok ht hd ho
  refine ⟨_, by rw [step2d, h1]; rfl, ?_, ?_, ?_, h3⟩
  · simp [rotC, mulVec, dotProduct]; ring
  · simp [rotC, mulVec, dotProduct]
  · have e1 : (rotC (u 2) * rotC (skm.x 2)) 0 1 = 1 * sin (skm.x 2 + u 2) := by
      simp [rotC, Matrix.mul_apply, sin_add]; ring
    have e2 : (rotC (u 2) * rotC (skm.x 2)) 0 0 = 1 * cos (skm.x 2 + u 2) := by
      simp [rotC, Matrix.mul_apply, cos_add]; ring
    simp only [cons_val]
    rw [e1, e2]
    refine ⟨?_, ?_, Meas.atan2_polar_mod one_pos _⟩
    · exact Complex.neg_pi_lt_arg _
    · exact Complex.arg_le_pi _

/-- Two odometry steps are one step along the composed displacement (rigid motions compose). -/
theorem C61_compose (a b c : St 3) (u v w : Fin 3 → ℝ) (d1 d2 d3 : TS) (s1 s2 s3 : St 3)
    (h1 : step2d a c u d1 = some s1) (h2 : step2d b s1 v d2 = some s2)
    (hw0 : w 0 = u 0 + (cos (u 2) * v 0 - sin (u 2) * v 1)) (hw1 : w 1 = u 1 + (sin (u 2) * v 0 + cos (u 2) * v 1)) (hw2 : w 2 = u 2 + v 2)
    (h3 : step2d a c w d3 = some s3) : s3.x = s2.x := by
  have key : ∀ (sk skm s : St 3) (u : Fin 3 → ℝ) (d : TS), step2d sk skm u d = some s →
      s.x = ![skm.x 0 + (cos (skm.x 2) * u 0 - sin (skm.x 2) * u 1), skm.x 1 + (sin (skm.x 2) * u 0 + cos (skm.x 2) * u 1),
        Meas.atan2 (sin (skm.x 2 + u 2)) (cos (skm.x 2 + u 2))] := by
    intro sk skm s u d h
    unfold step2d at h
    obtain ⟨r, -, rfl⟩ := Option.map_eq_some_iff.1 h
    have e1 : (rotC (u 2) * rotC (skm.x 2)) 0 1 = sin (skm.x 2 + u 2) := by
      simp [rotC, Matrix.mul_apply, sin_add]; ring
    have e2 : (rotC (u 2) * rotC (skm.x 2)) 0 0 = cos (skm.x 2 + u 2) := by
      simp [rotC, Matrix.mul_apply, cos_add]; ring
    funext i
    fin_cases i
    · simp [rotC, mulVec, dotProduct]; ring
    · simp [rotC, mulVec, dotProduct]
    · simp only [e1, e2]; rfl
  have k1 := key _ _ _ _ _ h1
  have k2 := key _ _ _ _ _ h2
  have k3 := key _ _ _ _ _ h3
  obtain ⟨k, hk⟩ := Meas.atan2_polar_mod one_pos (c.x 2 + u 2)
  rw [one_mul, one_mul] at hk
  have hs : s1.x 2 = c.x 2 + u 2 + k * (2 * π) := by rw [k1, ← hk]; rfl
  have hc1 : cos (s1.x 2) = cos (c.x 2 + u 2) := by rw [hs, cos_add_int_mul_two_pi]
  have hs1 : sin (s1.x 2) = sin (c.x 2 + u 2) := by rw [hs, sin_add_int_mul_two_pi]
  have hc2 : cos (s1.x 2 + v 2) = cos (c.x 2 + w 2) := by
    rw [hs, hw2, show c.x 2 + u 2 + (k : ℝ) * (2 * π) + v 2 = c.x 2 + (u 2 + v 2) + k * (2 * π) by ring, cos_add_int_mul_two_pi]
  have hs2 : sin (s1.x 2 + v 2) = sin (c.x 2 + w 2) := by
    rw [hs, hw2, show c.x 2 + u 2 + (k : ℝ) * (2 * π) + v 2 = c.x 2 + (u 2 + v 2) + k * (2 * π) by ring, sin_add_int_mul_two_pi]
  have h0 : s1.x 0 = c.x 0 + (cos (c.x 2) * u 0 - sin (c.x 2) * u 1) := by rw [k1]; rfl
  have h1' : s1.x 1 = c.x 1 + (sin (c.x 2) * u 0 + cos (c.x 2) * u 1) := by rw [k1]; rfl
  rw [k3, k2, hc1, hs1, hc2, hs2, h0, h1', hw0, hw1, cos_add (c.x 2) (u 2), sin_add (c.x 2) (u 2)]
  funext i
  fin_cases i
  · show c.x 0 + _ = c.x 0 + _ + _
    ring
  · show c.x 1 + _ = c.x 1 + _ + _
    ring
  · rfl

example : Normalised ⟨3, 999999999⟩ ∧ Normalised ⟨0, 1⟩ ∧ NoOverflow ⟨3, 999999999⟩ ⟨0, 1⟩ := by
  refine ⟨by decide, by decide, by decide, by decide⟩

/-! ### C62 -/

/-- **C62**, the full claim: the heading after an Ackerman step is in `[-π, π]`. -/
def C62_full : Prop := ∀ (c : AckCfg) (sk skm s : St 3) (v r : ℝ) (dT : TS), -π ≤ skm.x 2 → skm.x 2 ≤ π → stepAck c sk skm v r dT = some s →
  -π ≤ s.x 2 ∧ s.x 2 ≤ π

/-- What holds: the heading advances by the turn of the vehicle modulo `2π`, and is in `[-π, π]` if the turn is at most one revolution. -/
theorem C62_heading_partial (c : AckCfg) (sk skm s : St 3) (v r : ℝ) (dT : TS) (h : stepAck c sk skm v r dT = some s) :
    (∃ k : ℤ, s.x 2 = skm.x 2 + ackTurn c v r (getTimeAsDouble dT : ℚ) + k * (2 * π)) ∧
    (-π ≤ skm.x 2 → skm.x 2 ≤ π → |ackTurn c v r (getTimeAsDouble dT : ℚ)| ≤ 2 * π → -π ≤ s.x 2 ∧ s.x 2 ≤ π) := by
  unfold stepAck at h
  obtain ⟨t, -, rfl⟩ := Option.map_eq_some_iff.1 h
  have e : (![skm.x 0 + ((getTimeAsDouble dT : ℚ) : ℝ) * (v / (1 - tan r * c.h / c.l) * cos (skm.x 2) -
        v / (1 - tan r * c.h / c.l) / c.l * tan r * (c.dx * sin (skm.x 2) + c.dy * cos (skm.x 2))),
      skm.x 1 + ((getTimeAsDouble dT : ℚ) : ℝ) * (v / (1 - tan r * c.h / c.l) * sin (skm.x 2) +
        v / (1 - tan r * c.h / c.l) / c.l * tan r * (c.dx * cos (skm.x 2) - c.dy * sin (skm.x 2))),
      wrapOnce (skm.x 2 + ((getTimeAsDouble dT : ℚ) : ℝ) * (v / (1 - tan r * c.h / c.l)) / c.l * tan r)] : Fin 3 → ℝ) 2 =
      wrapOnce (skm.x 2 + ackTurn c v r (getTimeAsDouble dT : ℚ)) := rfl
  simp only
  rw [e]
  generalize ackTurn c v r (getTimeAsDouble dT : ℚ) = d
  unfold wrapOnce
  constructor
  · split_ifs
    · exact ⟨-1, by push_cast; ring⟩
    · exact ⟨1, by push_cast; ring⟩
    · exact ⟨0, by simp⟩
  · intro h1 h2 h3
    have hp := pi_pos
    rw [abs_le] at h3
    split_ifs <;> constructor <;> linarith [h3.1, h3.2]

/-- The turn of the vehicle, from the kinematics: yaw rate times time, the yaw rate being the speed of the rear axle times `tan r / l`. -/
theorem C62_turn (c : AckCfg) (v r dt : ℝ) : ackTurn c v r dt = dt * ((v / (1 - tan r * c.h / c.l)) * tan r / c.l) := by
  unfold ackTurn; ring

/-- **C62 is violated**: driving 10 m in one second at 45° with a wheel base of 1 m turns the vehicle by 10 rad; one correction by `2π` is not enough. -/
theorem C62_violated : ¬ C62_full := by
  intro h
  have hp := pi_pos
  have := (h ⟨0, 1, 0, 0⟩ ⟨0, 0, ⟨0, 0⟩⟩ ⟨0, 0, ⟨0, 0⟩⟩ _ 10 (π / 4) ⟨1, 0⟩ (by simpa using hp.le) (by simpa using hp.le)
    (by unfold stepAck; rw [show add (⟨0, 0⟩ : TS) ⟨1, 0⟩ = some ⟨1, 0⟩ by decide]; rfl)).2
  simp [getTimeAsDouble, wrapOnce] at this
  have h314 := pi_lt_d2
  rw [if_pos (by linarith)] at this
  linarith

/-! ### C63 -/

/-- Specification: a step sets the new time to the previous time plus `dT`. -/
def Advances {n : Nat} (step : St n → St n → TS → Option (St n)) : Prop :=
  ∀ sk skm dT, Normalised skm.t → Normalised dT → NoOverflow skm.t dT → ∃ s, step sk skm dT = some s ∧ instant s.t = instant skm.t + instant dT

/-- **C63**, the full claim, over all models. -/
def C63_full : Prop :=
  (∀ u, Advances fun sk skm dT => step1d sk skm u dT) ∧ (∀ u, Advances fun sk skm dT => step2d sk skm u dT) ∧
  (∀ (sk skm : St6) dp q dT, Normalised skm.t → Normalised dT → NoOverflow skm.t dT →
    ∃ s, step6d sk skm dp q dT = some s ∧ instant s.t = instant skm.t + instant dT) ∧
  (∀ c v r, Advances fun sk skm dT => stepAck c sk skm v r dT) ∧
  (∀ (n : Nat) Q, Advances (n := n) (stepStatic Q))

/-- What holds: all but the 1-D odometry and the static model without noise. -/
theorem C63_time_partial :
    (∀ u, Advances fun sk skm dT => step2d sk skm u dT) ∧
    (∀ (sk skm : St6) dp q dT, Normalised skm.t → Normalised dT → NoOverflow skm.t dT →
      ∃ s, step6d sk skm dp q dT = some s ∧ instant s.t = instant skm.t + instant dT) ∧
    (∀ c v r, Advances fun sk skm dT => stepAck c sk skm v r dT) ∧
    (∀ (n : Nat) Q, Advances (n := n) (stepStatic (some Q))) := by
  refine ⟨fun u sk skm dT h1 h2 h3 => ?_, fun sk skm dp q dT h1 h2 h3 => ?_, fun c v r sk skm dT h1 h2 h3 => ?_, fun n Q sk skm dT h1 h2 h3 => ?_⟩ <;>
    obtain ⟨t, e1, e2, e3⟩ := add_ok h1 h2 h3
  · exact ⟨_, by simp only [step2d]; rw [e1]; rfl, e3⟩
  · exact ⟨_, by simp only [step6d]; rw [e1]; rfl, e3⟩
  · exact ⟨_, by simp only [stepAck]; rw [e1]; rfl, e3⟩
  · exact ⟨_, by simp only [stepStatic]; rw [e2]; rfl, e3⟩

theorem norm0 : Normalised ⟨0, 0⟩ := by decide
theorem ovf01 : NoOverflow ⟨0, 0⟩ ⟨1, 0⟩ := ⟨by decide, by decide⟩

/-- **C63 is violated** by the 1-D odometry model: the new state keeps whatever time stamp it had. -/
theorem C63_odometry1d_violated (u : Fin 1 → ℝ) : ¬ Advances fun sk skm dT => step1d sk skm u dT := by
  intro h
  obtain ⟨s, hs, ht⟩ := h ⟨0, 0, ⟨0, 0⟩⟩ ⟨0, 0, ⟨0, 0⟩⟩ ⟨1, 0⟩ norm0 (by decide) ovf01
  simp only [step1d, Option.some.injEq] at hs
  subst hs
  simp [instant] at ht

/-- **C63 is violated** by the static model without noise, which keeps the old time. -/
theorem C63_static_violated (n : Nat) : ¬ Advances (n := n) (stepStatic none) := by
  intro h
  obtain ⟨s, hs, ht⟩ := h ⟨0, 0, ⟨0, 0⟩⟩ ⟨0, 0, ⟨0, 0⟩⟩ ⟨1, 0⟩ norm0 (by decide) ovf01
  simp only [stepStatic, Option.some.injEq] at hs
  subst hs
  simp [instant] at ht

theorem C63_violated : ¬ C63_full := fun h => C63_odometry1d_violated 0 (h.1 0)

/-- Driving straight on at 1 m/s from heading `π` meets the hypotheses. -/
example : ∃ s, stepAck ⟨1, 2, 0, 0⟩ ⟨0, 0, ⟨0, 0⟩⟩ ⟨![0, 0, π], 0, ⟨0, 0⟩⟩ 1 0 ⟨1, 0⟩ = some s ∧ -π ≤ s.x 2 ∧ s.x 2 ≤ π := by
  obtain ⟨s, hs, -⟩ := C63_time_partial.2.2.1 ⟨1, 2, 0, 0⟩ 1 0 ⟨0, 0, ⟨0, 0⟩⟩ ⟨![0, 0, π], 0, ⟨0, 0⟩⟩ ⟨1, 0⟩ (by unfold Normalised InI32; norm_num) (by unfold Normalised InI32; norm_num) (by unfold NoOverflow InI32 instant; norm_num)
  refine ⟨s, hs, (C62_heading_partial _ _ _ s 1 0 _ hs).2 ?_ ?_ ?_⟩
  · simp; linarith [pi_pos]
  · simp
  · rw [C62_turn]; simp; exact pi_pos.le

/-! ### C82 -/

/-- **C82**: a 6-D odometry step composes rigid motions. The rotation matrix of the new pose is the product of the old rotation and that of the odometry,
the quaternion stays a unit quaternion, and a point at `y` in the new body frame is where the old pose puts the point at `dp + R_in y`. -/
theorem C82_odometry6d (sk skm s : St6) (dp : Fin 3 → ℝ) (qin : Fin 4 → ℝ) (dT : TS) (hq : Meas.Unit4 skm.q) (hin : qin ≠ 0)
    (h : step6d sk skm dp qin dT = some s) :
    Meas.Unit4 s.q ∧ s.S = 0 ∧ ∃ Rin : Matrix (Fin 3) (Fin 3) ℝ, Rin * Rinᵀ = 1 ∧ (Meas.Unit4 qin → Rin = Meas.rotMat qin) ∧
      Meas.rotMat s.q = Meas.rotMat skm.q * Rin ∧
      ∀ y, s.p + Meas.rotMat s.q *ᵥ y = skm.p + Meas.rotMat skm.q *ᵥ (dp + Rin *ᵥ y) := by
  unfold step6d at h
  obtain ⟨t, -, rfl⟩ := Option.map_eq_some_iff.1 h
  have hu := unit_normalizeQ hin
  refine ⟨unit_mulQ hq hu, rfl, Meas.rotMat (normalizeQ qin), Meas.rotMat_mul_transpose hu, ?_, rotMat_mulQ hq hu, fun y => ?_⟩
  · intro h1
    congr 1
    funext i
    unfold Meas.Unit4 at h1
    simp [normalizeQ, h1]
  · show skm.p + transformVector skm.q dp + Meas.rotMat (mulQ skm.q (normalizeQ qin)) *ᵥ y = _
    rw [transformVector_eq, rotMat_mulQ hq hu, mulVec_add, mulVec_mulVec, add_assoc]

/-- Scaling the odometry quaternion by a positive number does not matter. -/
theorem C82_scale (sk skm : St6) (dp : Fin 3 → ℝ) (qin : Fin 4 → ℝ) (dT : TS) (a : ℝ) (ha : 0 < a) :
    step6d sk skm dp (a • qin) dT = step6d sk skm dp qin dT := by
  have : normalizeQ (a • qin) = normalizeQ qin := by
    unfold normalizeQ
    have e : (a • qin) 0 ^ 2 + (a • qin) 1 ^ 2 + (a • qin) 2 ^ 2 + (a • qin) 3 ^ 2 = a ^ 2 * (qin 0 ^ 2 + qin 1 ^ 2 + qin 2 ^ 2 + qin 3 ^ 2) := by
      simp only [Pi.smul_apply, smul_eq_mul]; ring
    simp only [e]
    by_cases hz : 0 < qin 0 ^ 2 + qin 1 ^ 2 + qin 2 ^ 2 + qin 3 ^ 2
    · rw [if_pos (by positivity), if_pos hz]
      funext i
      rw [sqrt_mul (by positivity), sqrt_sq ha.le, Pi.smul_apply, smul_eq_mul, mul_div_mul_left _ _ ha.ne']
    · have h0 : qin = 0 := by
        funext i
        fin_cases i <;> simp <;> nlinarith [sq_nonneg (qin 0), sq_nonneg (qin 1), sq_nonneg (qin 2), sq_nonneg (qin 3)]
      simp [h0]
  simp only [step6d, this]

example : Meas.Unit4 ![0, 0, 3 / 5, 4 / 5] ∧ (![0, 0, 2, 0] : Fin 4 → ℝ) ≠ 0 := by
  refine ⟨by simp [Meas.Unit4]; norm_num, fun h => ?_⟩
  have := congrFun h 2
  simp at this

/-! ### C83 -/

/-- **C83**, the full claim for the planar odometry: the matrix `H` is the derivative of the new pose with respect to the previous pose (in every
direction, away from the jump of the heading). -/
def C83_full : Prop := ∀ (sk skm : St 3) (u v : Fin 3 → ℝ) (dT : TS) (s : St 3), step2d sk skm u dT = some s → s.x 2 ≠ π →
  ∀ i, HasDerivAt (fun t : ℝ => ((step2d sk { skm with x := skm.x + t • v } u dT).map fun s => s.x i).getD 0) ((jac2d *ᵥ v) i) 0

/-- What holds: in directions that do not change the heading, the position block is right. -/
theorem C83_position_partial (sk skm s : St 3) (u v : Fin 3 → ℝ) (dT : TS) (h : step2d sk skm u dT = some s) (hv : v 2 = 0) (i : Fin 3) (hi : i ≠ 2) :
    HasDerivAt (fun t : ℝ => ((step2d sk { skm with x := skm.x + t • v } u dT).map fun s => s.x i).getD 0) ((jac2d *ᵥ v) i) 0 := by
  unfold step2d at h
  obtain ⟨r, hr, -⟩ := Option.map_eq_some_iff.1 h
  simp only [step2d, hr, Option.map_some, Option.getD_some, jac2d, one_mulVec, Pi.add_apply, Pi.smul_apply, hv, smul_eq_mul, mul_zero, add_zero]
  have hl : ∀ a b c : ℝ, HasDerivAt (fun t : ℝ => a + t * b + c) b 0 := fun a b c =>
    ((((hasDerivAt_id' (0 : ℝ)).mul_const b).const_add a).add_const c).congr_deriv (by ring)
  fin_cases i
  · exact hl (skm.x 0) (v 0) _
  · exact hl (skm.x 1) (v 1) _
  · exact absurd rfl hi

/-- The 1-D odometry's `H` is right. -/
theorem C83_odometry1d_partial (sk skm : St 1) (u v : Fin 1 → ℝ) (dT : TS) (i : Fin 1) :
    HasDerivAt (fun t : ℝ => ((step1d sk { skm with x := skm.x + t • v } u dT).map fun s => s.x i).getD 0) (((1 : Matrix (Fin 1) (Fin 1) ℝ) *ᵥ v) i) 0 := by
  simp only [step1d, Option.map_some, Option.getD_some, one_mulVec, Pi.add_apply, Pi.smul_apply, smul_eq_mul]
  exact ((((hasDerivAt_id' (0 : ℝ)).mul_const (v i)).const_add (skm.x i)).add_const (u i)).congr_deriv (by ring)

/-- **C83 is violated**: turning the previous pose moves the new position sideways, which the identity matrix does not show. -/
theorem C83_violated : ¬ C83_full := by
  intro h
  have hadd : add (⟨0, 0⟩ : TS) ⟨1, 0⟩ = some ⟨1, 0⟩ := by decide
  have h1 := h ⟨0, 0, ⟨0, 0⟩⟩ ⟨0, 0, ⟨0, 0⟩⟩ ![1, 0, 0] ![0, 0, 1] ⟨1, 0⟩ _ (by unfold step2d; rw [hadd]; rfl)
    (by simp [rotC, Matrix.mul_apply, Meas.atan2]; rw [show (⟨1, 0⟩ : ℂ) = 1 from rfl, Complex.arg_one]; exact pi_ne_zero.symm) 1
  simp only [step2d, hadd, Option.map_some, Option.getD_some, jac2d, one_mulVec] at h1
  have h2 : HasDerivAt (fun t : ℝ => sin t) 0 0 := by
    refine (h1.congr_deriv (by simp)).congr_of_eventuallyEq (Filter.Eventually.of_forall fun t => ?_)
    simp [rotC, mulVec, dotProduct]
  have h3 := h2.unique (hasDerivAt_sin 0)
  simp at h3

/-! ### C84 -/

/-- **C84**, the full claim: `pose_grad` is the gradient of the returned value with respect to the new pose. -/
def C84_full : Prop := ∀ (n : Nat) (Q : Matrix (Fin n) (Fin n) ℝ) (pred x v : Fin n → ℝ), Q.PosDef →
  HasDerivAt (fun t : ℝ => (logLikelihood Q pred (x + t • v)).1) ((logLikelihood Q pred x).2 ⬝ᵥ v) 0 ∧
  HasDerivAt (fun t : ℝ => (likelihood Q pred (x + t • v)).1) ((likelihood Q pred x).2 ⬝ᵥ v) 0

theorem sub_line {n : Nat} (x v p : Fin n → ℝ) (t : ℝ) : x + t • v - p = (x - p) + t • v := by abel

/-- What holds: it is the gradient of the log-likelihood; for the likelihood the factor `likelihood` is missing. -/
theorem C84_gradient_partial (n : Nat) (Q : Matrix (Fin n) (Fin n) ℝ) (pred x v : Fin n → ℝ) (hQ : Q.PosDef) :
    HasDerivAt (fun t : ℝ => (logLikelihood Q pred (x + t • v)).1) ((logLikelihood Q pred x).2 ⬝ᵥ v) 0 ∧
    HasDerivAt (fun t : ℝ => (likelihood Q pred (x + t • v)).1) ((likelihood Q pred x).1 * ((likelihood Q pred x).2 ⬝ᵥ v)) 0 := by
  have hs := Kalman.psd_symm hQ.posSemidef
  simp only [logLikelihood, likelihood, sub_line]
  exact ⟨hasDerivAt_log Q hs _ v, hasDerivAt_gaussian Q hs _ v⟩

/-- **C84 is violated** by `likelihood`: for unit noise in one dimension at distance one the value is not one. -/
theorem C84_violated : ¬ C84_full := by
  intro h
  have hQ : (1 : Matrix (Fin 1) (Fin 1) ℝ).PosDef := PosDef.one
  have h1 := (h 1 1 0 1 1 hQ).2
  have h2 := (C84_gradient_partial 1 1 0 1 1 hQ).2
  have h3 := h1.unique h2
  have hp := pi_gt_three
  simp [likelihood, Kalman.gaussian, Kalman.md2] at h3
  have e1 : exp (-2⁻¹ : ℝ) < 1 := by rw [exp_lt_one_iff]; norm_num
  have e2 : (1 : ℝ) < √2 * √π := by
    rw [← sqrt_mul (by norm_num), lt_sqrt (by norm_num)]; linarith
  rw [eq_div_iff (by positivity)] at h3
  linarith

/-- The unit covariance in the plane. -/
example : HasDerivAt (fun t : ℝ => (logLikelihood (1 : Matrix (Fin 2) (Fin 2) ℝ) 0 (![1, 2] + t • ![3, 4])).1) ((logLikelihood (1 : Matrix (Fin 2) (Fin 2) ℝ) 0 ![1, 2]).2 ⬝ᵥ ![3, 4]) 0 :=
  (C84_gradient_partial 2 1 0 ![1, 2] ![3, 4] Matrix.PosDef.one).1

/-! ### C85 -/

/-- **C85**, the full claim: the motion likelihood of a planar pose depends on the heading only modulo `2π`. -/
def C85_full : Prop := ∀ (Q : Matrix (Fin 3) (Fin 3) ℝ) (pred x : Fin 3 → ℝ), Q.PosDef → ∀ k : ℤ,
  (likelihood Q pred (x + ![0, 0, k * (2 * π)])).1 = (likelihood Q pred x).1

/-- What holds: if the heading error is in `[-π, π]`, the value is that of the wrapped error. -/
theorem C85_unwrapped_partial (Q : Matrix (Fin 3) (Fin 3) ℝ) (pred x : Fin 3 → ℝ) (h : |x 2 - pred 2| < π) (e : ℝ) (he1 : -π < e) (he2 : e ≤ π)
    (hk : ∃ k : ℤ, e = x 2 - pred 2 + k * (2 * π)) : (likelihood Q pred x).1 = Kalman.gaussian Q ![x 0 - pred 0, x 1 - pred 1, e] := by
  obtain ⟨k, rfl⟩ := hk
  have hp := pi_pos
  rw [abs_lt] at h
  have k0 : k = 0 := by
    have h1 : (k : ℝ) < 1 := by nlinarith [h.1, h.2]
    have h2 : (-1 : ℝ) < k := by nlinarith [h.1, h.2]
    have h1' : k < 1 := by exact_mod_cast h1
    have h2' : -1 < k := by exact_mod_cast h2
    omega
  subst k0
  simp only [likelihood]
  congr 1
  funext i
  fin_cases i <;> simp

/-- **C85 is violated**: the same pose described by a heading `2π` further on is less likely. -/
theorem C85_violated : ¬ C85_full := by
  intro h
  have h1 := h 1 0 0 PosDef.one 1
  have hp := pi_pos
  simp [likelihood, Kalman.gaussian, Kalman.md2, dotProduct, Fin.sum_univ_three] at h1
  have e1 : exp (-(2⁻¹ * (2 * π * (2 * π)))) < 1 := by rw [exp_lt_one_iff, neg_lt_zero]; positivity
  have e2 : 0 < √((2 * π) ^ 3) := by positivity
  rw [div_eq_iff e2.ne', inv_mul_cancel₀ e2.ne'] at h1
  linarith

/-- It happens to the output of the planar odometry model itself: at a predicted heading of just under `π`, a true heading of just over `π`, stored as the
model stores it, is a mismatch of nearly `2π`. -/
theorem C85_seam (Q : Matrix (Fin 3) (Fin 3) ℝ) (δ : ℝ) :
    (likelihood Q ![0, 0, π - δ] ![0, 0, -π + δ]).1 = Kalman.gaussian Q ![0, 0, -(2 * π - 2 * δ)] := by
  simp only [likelihood]
  congr 1
  funext i
  fin_cases i <;> simp; ring

/-- Headings 1 and 0. -/
example : (likelihood 1 ![0, 0, 0] ![3, 4, 1]).1 = Kalman.gaussian 1 ![3 - 0, 4 - 0, 1] :=
  C85_unwrapped_partial 1 ![0, 0, 0] ![3, 4, 1] (by simp; linarith [pi_gt_three]) 1 (by linarith [pi_gt_three]) (by linarith [pi_gt_three]) ⟨0, by simp⟩

/-! ### C86 -/

/-- **C86**, the full claim: sampling is defined, and without process noise defined it returns the state after the step. -/
def C86_full : Prop := ∀ (n : Nat) (Q : Option (Matrix (Fin n) (Fin n) ℝ)) (s : St n) (draw) (useNoise : Bool),
  ∃ r, sample Q s draw useNoise = .ok r ∧ (Q = none → r = s)

/-- What holds: with noise defined (or not asked for) sampling is defined, and it adds noise exactly if it is asked for and non-zero. -/
theorem C86_sample_partial (n : Nat) (Q : Option (Matrix (Fin n) (Fin n) ℝ)) (s : St n) (draw) (useNoise : Bool) (h : useNoise = true → Q.isSome) :
    ∃ r, sample Q s draw useNoise = .ok r ∧ r.t = s.t ∧ ((useNoise = false ∨ Q = some 0) → r = s) ∧
      (useNoise = true → ∀ Q', Q = some Q' → Q' ≠ 0 → r.x = draw s.x Q' ∧ r.S = Q') := by
  cases useNoise with
  | false => exact ⟨s, rfl, rfl, fun _ => rfl, by simp⟩
  | true =>
    obtain ⟨Q', rfl⟩ := Option.isSome_iff_exists.1 (h rfl)
    by_cases h0 : Q' = 0
    · subst h0
      refine ⟨s, by simp [sample], rfl, fun _ => rfl, fun _ Q'' e1 e2 => ?_⟩
      exact absurd (Option.some.inj e1).symm e2
    · refine ⟨{ s with x := draw s.x Q', S := Q' }, by simp only [sample, if_true]; rw [if_pos h0], rfl, ?_, ?_⟩
      · rintro (h | h)
        · cases h
        · exact absurd (Option.some.inj h) h0
      · rintro - Q'' e1 -
        cases e1
        exact ⟨rfl, rfl⟩

/-- **C86 is violated**: a default-constructed model whose noise was never set compares an uninitialised matrix with zero. -/
theorem C86_violated : ¬ C86_full := by
  intro h
  obtain ⟨r, hr, -⟩ := h 1 none ⟨0, 0, ⟨0, 0⟩⟩ (fun x _ => x) true
  simp [sample] at hr

/-- Without noise the state stays as it is; with noise the drawn one is returned. -/
example (s : St 2) : (∃ r, sample none s (fun x _ => x) false = .ok r ∧ r = s) ∧ ∃ r, sample (some 1) s (fun x _ => x + 1) true = .ok r ∧ r.x = s.x + 1 := by
  obtain ⟨r, h1, -, h2, -⟩ := C86_sample_partial 2 none s (fun x _ => x) false (by simp)
  obtain ⟨r', h3, -, -, h4⟩ := C86_sample_partial 2 (some 1) s (fun x _ => x + 1) true (by simp)
  exact ⟨⟨r, h1, h2 (Or.inl rfl)⟩, r', h3, (h4 rfl 1 rfl one_ne_zero).1⟩

/-! ### C111 -/

/-- **C111**: a static landmark keeps its mean; with process noise defined its covariance grows by the noise, without it the state is copied. -/
theorem C111_static {n : Nat} (Q : Option (Matrix (Fin n) (Fin n) ℝ)) (sk skm s : St n) (dT : TS) (h : stepStatic Q sk skm dT = some s) :
    s.x = skm.x ∧ (∀ Q', Q = some Q' → s.S = skm.S + Q') ∧ (Q = none → s = skm) := by
  cases Q with
  | none => cases h; exact ⟨rfl, by simp, fun _ => rfl⟩
  | some Q' =>
    obtain ⟨t, -, rfl⟩ := Option.map_eq_some_iff.1 h
    refine ⟨rfl, fun Q'' e => ?_, by simp⟩
    cases e
    rfl

/-- **C111**: the covariance stays positive semidefinite if the noise is. -/
theorem C111_psd {n : Nat} (Q : Option (Matrix (Fin n) (Fin n) ℝ)) (sk skm s : St n) (dT : TS) (h : stepStatic Q sk skm dT = some s)
    (hS : skm.S.PosSemidef) (hQ : ∀ Q', Q = some Q' → Q'.PosSemidef) : s.S.PosSemidef := by
  have e := C111_static Q sk skm s dT h
  cases Q with
  | none => rw [e.2.2 rfl]; exact hS
  | some Q' => rw [e.2.1 Q' rfl]; exact hS.add (hQ Q' rfl)

example : stepStatic (some (1 : Matrix (Fin 2) (Fin 2) ℝ)) ⟨0, 0, ⟨0, 0⟩⟩ ⟨![3, 4], 1, ⟨0, 0⟩⟩ ⟨1, 0⟩ = some ⟨![3, 4], 1 + 1, ⟨1, 0⟩⟩ := by
  unfold stepStatic
  rw [show addAssign (⟨0, 0⟩ : TS) ⟨1, 0⟩ = some ⟨1, 0⟩ by decide]
  rfl

/-! ### C112 -/

/-- Specification: `(c0, c1)` is the position over time of the middle of the rear axle and `φ` the heading of a rigid vehicle. It moves at time 0 without slipping: the
rear axle at speed `w` along the heading, turning at rate `ω`; the front axle, `l` ahead, along the steering angle `r`; and the rear wheel at the lateral offset `h`, which
carries the encoder, at speed `v`. -/
structure Rolls (l h v r : ℝ) (c0 c1 φ : ℝ → ℝ) (w ω : ℝ) : Prop where
  rear0 : HasDerivAt c0 (w * cos (φ 0)) 0
  rear1 : HasDerivAt c1 (w * sin (φ 0)) 0
  turn : HasDerivAt φ ω 0
  front : w * sin r = ω * l * cos r
  encoder : w - ω * h = v

/-- **C112**: one Ackerman step moves the point of interest, at `(dx, dy)` in the frame of the vehicle, by the time step times its velocity on a vehicle that rolls without
slipping, and turns by the time step times its turn rate (modulo a turn); the covariance of the result is what the result object had before. -/
theorem C112_ackerman (c : AckCfg) (sk skm s : St 3) (v r : ℝ) (dT : TS) (h : stepAck c sk skm v r dT = some s)
    (c0 c1 φ : ℝ → ℝ) (w ω : ℝ) (hr : Rolls c.l c.h v r c0 c1 φ w ω) (hl : c.l ≠ 0) (hcos : cos r ≠ 0) (hd : 1 - tan r * c.h / c.l ≠ 0) (h2 : φ 0 = skm.x 2) :
    ∃ v0 v1 : ℝ, HasDerivAt (fun t => c0 t + (cos (φ t) * c.dx - sin (φ t) * c.dy)) v0 0 ∧ HasDerivAt (fun t => c1 t + (sin (φ t) * c.dx + cos (φ t) * c.dy)) v1 0 ∧
      s.x 0 = skm.x 0 + (getTimeAsDouble dT : ℚ) * v0 ∧ s.x 1 = skm.x 1 + (getTimeAsDouble dT : ℚ) * v1 ∧
      (∃ k : ℤ, s.x 2 = skm.x 2 + (getTimeAsDouble dT : ℚ) * ω + k * (2 * π)) ∧ s.S = sk.S := by
  obtain ⟨k, hk⟩ := (C62_heading_partial c sk skm s v r dT h).1
  obtain ⟨r0, r1, r2, hf, he⟩ := hr
  have hω : ω = w / c.l * tan r := by
    rw [tan_eq_sin_div_cos]; field_simp; linarith
  have hw : w = v / (1 - tan r * c.h / c.l) := by
    rw [eq_div_iff hd, ← he, hω]; field_simp
  have hc := r2.cos
  have hs := r2.sin
  refine ⟨_, _, r0.fun_add ((hc.mul_const c.dx).fun_sub (hs.mul_const c.dy)), r1.fun_add ((hs.mul_const c.dx).fun_add (hc.mul_const c.dy)), ?_⟩
  unfold stepAck at h
  obtain ⟨t, -, rfl⟩ := Option.map_eq_some_iff.1 h
  refine ⟨?_, ?_, ?_, rfl⟩
  · show skm.x 0 + _ = _
    rw [hω, ← hw, h2]; ring
  · show skm.x 1 + _ = _
    rw [hω, ← hw, h2]; ring
  · refine ⟨k, ?_⟩
    rw [hk, ackTurn, hω, ← hw]; ring

/-- Non-trivial instance: steering at 45 degrees, wheel base 2, encoder at lateral offset 1, wheel speed 1: rear axle speed 2, turn rate 1. -/
example : Rolls 2 1 1 (π / 4) (fun t => 2 * t) (fun _ => 0) (fun t => t) 2 1 := by
  refine ⟨?_, ?_, hasDerivAt_id 0, ?_, by norm_num⟩
  · simpa using (hasDerivAt_id (0 : ℝ)).const_mul 2
  · simpa using hasDerivAt_const (0 : ℝ) (0 : ℝ)
  · rw [sin_pi_div_four, cos_pi_div_four]; ring

end MotionProps
end RFS
