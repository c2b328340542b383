import Verif.Lemmas.MeasModels
import Mathlib.Analysis.SpecialFunctions.Sqrt
import Mathlib.Analysis.SpecialFunctions.Trigonometric.Deriv
import Mathlib.Analysis.Calculus.Deriv.Prod
import Mathlib.Topology.Instances.Matrix

/-!
C77: the matrices that `measure` returns are the derivatives of the predicted measurement. The measurement is followed along a straight line
`pose + t • dx`, `landmark + t • dm` through the given pose and landmark in an arbitrary direction.
-/

namespace RFS
namespace JacProps
open Real Matrix Meas

/-- First-order change of the measurement predicted by the two Jacobians for a change `dm` of the landmark and `dx` of the pose. -/
def lin {n m p : Nat} (o : Out n m p) (dm : Fin m → ℝ) (dx : Fin p → ℝ) : Fin n → ℝ := o.Hl *ᵥ dm + o.Hp *ᵥ dx

theorem range_deriv (u v a b : ℝ) (h : 0 < u ^ 2 + v ^ 2) :
    HasDerivAt (fun t : ℝ => √((u + t * a) ^ 2 + (v + t * b) ^ 2)) ((u * a + v * b) / √(u ^ 2 + v ^ 2)) 0 := by
  have hu : HasDerivAt (fun t : ℝ => u + t * a) a 0 := by
    simpa using ((hasDerivAt_id (0 : ℝ)).mul_const a).const_add u
  have hv : HasDerivAt (fun t : ℝ => v + t * b) b 0 := by
    simpa using ((hasDerivAt_id (0 : ℝ)).mul_const b).const_add v
  have hs : HasDerivAt (fun t : ℝ => (u + t * a) ^ 2 + (v + t * b) ^ 2) (2 * u * a + 2 * v * b) 0 :=
    ((hu.pow 2).add (hv.pow 2)).congr_deriv (by simp)
  have := hs.sqrt (by simpa using h.ne')
  simp only [zero_mul, add_zero] at this
  refine this.congr_deriv ?_
  field_simp

theorem brg_aux (u v θ a b c : ℝ) (h : 0 < u ^ 2 + v ^ 2) :
    HasDerivAt (fun t : ℝ => ((u + t * a) * cos (θ + t * c) + (v + t * b) * sin (θ + t * c)) / √((u + t * a) ^ 2 + (v + t * b) ^ 2))
      (-((v * cos θ - u * sin θ) / √(u ^ 2 + v ^ 2)) * ((u * b - v * a) / (u ^ 2 + v ^ 2) - c)) 0 ∧
    HasDerivAt (fun t : ℝ => ((v + t * b) * cos (θ + t * c) - (u + t * a) * sin (θ + t * c)) / √((u + t * a) ^ 2 + (v + t * b) ^ 2))
      (((u * cos θ + v * sin θ) / √(u ^ 2 + v ^ 2)) * ((u * b - v * a) / (u ^ 2 + v ^ 2) - c)) 0 := by
  have hu : HasDerivAt (fun t : ℝ => u + t * a) a 0 := by
    simpa using ((hasDerivAt_id (0 : ℝ)).mul_const a).const_add u
  have hv : HasDerivAt (fun t : ℝ => v + t * b) b 0 := by
    simpa using ((hasDerivAt_id (0 : ℝ)).mul_const b).const_add v
  have hθ : HasDerivAt (fun t : ℝ => θ + t * c) c 0 := by
    simpa using ((hasDerivAt_id (0 : ℝ)).mul_const c).const_add θ
  have hr := range_deriv u v a b h
  have hpos : 0 < √(u ^ 2 + v ^ 2) := Real.sqrt_pos.2 h
  have hsq : √(u ^ 2 + v ^ 2) ^ 2 = u ^ 2 + v ^ 2 := Real.sq_sqrt h.le
  have hne : √((u + 0 * a) ^ 2 + (v + 0 * b) ^ 2) ≠ 0 := by simpa using hpos.ne'
  constructor
  · have hn : HasDerivAt (fun t : ℝ => (u + t * a) * cos (θ + t * c) + (v + t * b) * sin (θ + t * c))
        (a * cos θ + u * (-sin θ * c) + (b * sin θ + v * (cos θ * c))) 0 :=
      ((hu.mul hθ.cos).add (hv.mul hθ.sin)).congr_deriv (by simp)
    have := hn.fun_div hr hne
    simp only [zero_mul, add_zero] at this
    refine this.congr_deriv ?_
    clear this hn hne hr
    generalize √(u ^ 2 + v ^ 2) = r at hsq hpos ⊢
    rw [← hsq]
    field_simp
    linear_combination (a * cos θ + b * sin θ) * hsq
  · have hn : HasDerivAt (fun t : ℝ => (v + t * b) * cos (θ + t * c) - (u + t * a) * sin (θ + t * c))
        (b * cos θ + v * (-sin θ * c) - (a * sin θ + u * (cos θ * c))) 0 :=
      ((hv.mul hθ.cos).sub (hu.mul hθ.sin)).congr_deriv (by simp)
    have := hn.fun_div hr hne
    simp only [zero_mul, add_zero] at this
    refine this.congr_deriv ?_
    clear this hn hne hr
    generalize √(u ^ 2 + v ^ 2) = r at hsq hpos ⊢
    rw [← hsq]
    field_simp
    linear_combination (b * cos θ - a * sin θ) * hsq

theorem cos_bearing {u v θ b : ℝ} {fuel : Nat} (h : 0 < u ^ 2 + v ^ 2) (hb : wrap fuel (atan2 v u - θ) = some b) :
    cos b = (u * cos θ + v * sin θ) / √(u ^ 2 + v ^ 2) ∧ sin b = (v * cos θ - u * sin θ) / √(u ^ 2 + v ^ 2) := by
  have hpos : 0 < √(u ^ 2 + v ^ 2) := Real.sqrt_pos.2 h
  have e1 := sqrt_mul_cos_atan2 u v
  have e2 := sqrt_mul_sin_atan2 u v
  rw [wrap_cos hb, wrap_sin hb, cos_sub, sin_sub, eq_div_iff hpos.ne', eq_div_iff hpos.ne']
  constructor
  · linear_combination cos θ * e1 + sin θ * e2
  · linear_combination cos θ * e2 - sin θ * e1

/-- **C77**, range-bearing: at positive range, the derivative of the range, and of the bearing as a direction (its cosine and its sine: the bearing
itself jumps by `2π` at the wrap), is what the two Jacobians predict. `o t` is what `measure` returns at `t`. -/
theorem C77_rngbrg (cfg : Cfg) (R : Matrix (Fin 2) (Fin 2) ℝ) (x dx : Fin 3 → ℝ) (Sx : Matrix (Fin 3) (Fin 3) ℝ) (m dm : Fin 2 → ℝ)
    (Sm : Matrix (Fin 2) (Fin 2) ℝ) (hr : 0 < (m 0 - x 0) ^ 2 + (m 1 - x 1) ^ 2) (o : ℝ → Out 2 2 3)
    (ho : ∀ t, ∃ fuel, rngBrg cfg R fuel (x + t • dx) Sx (m + t • dm) Sm = some (o t)) :
    HasDerivAt (fun t => (o t).z 0) (lin (o 0) dm dx 0) 0 ∧
    HasDerivAt (fun t => cos ((o t).z 1)) (-sin ((o 0).z 1) * lin (o 0) dm dx 1) 0 ∧
    HasDerivAt (fun t => sin ((o t).z 1)) (cos ((o 0).z 1) * lin (o 0) dm dx 1) 0 := by
  have hz : ∀ t, ∃ fuel b, wrap fuel (atan2 ((m 1 - x 1) + t * (dm 1 - dx 1)) ((m 0 - x 0) + t * (dm 0 - dx 0)) - (x 2 + t * dx 2)) = some b ∧
      (o t).z = ![√(((m 0 - x 0) + t * (dm 0 - dx 0)) ^ 2 + ((m 1 - x 1) + t * (dm 1 - dx 1)) ^ 2), b] := by
    intro t
    obtain ⟨fuel, h⟩ := ho t
    obtain ⟨b, hb, he⟩ := Option.map_eq_some_iff.1 h
    have q0 : (m + t • dm) 0 - (x + t • dx) 0 = (m 0 - x 0) + t * (dm 0 - dx 0) := by simp; ring
    have q1 : (m + t • dm) 1 - (x + t • dx) 1 = (m 1 - x 1) + t * (dm 1 - dx 1) := by simp; ring
    have q2 : (x + t • dx) 2 = x 2 + t * dx 2 := by simp
    rw [q0, q1, q2] at hb
    refine ⟨fuel, b, hb, ?_⟩
    rw [← he]
    simp only [q0, q1]
  have h0 : lin (o 0) dm dx 0 = ((m 0 - x 0) * (dm 0 - dx 0) + (m 1 - x 1) * (dm 1 - dx 1)) / √((m 0 - x 0) ^ 2 + (m 1 - x 1) ^ 2) ∧
      lin (o 0) dm dx 1 = ((m 0 - x 0) * (dm 1 - dx 1) - (m 1 - x 1) * (dm 0 - dx 0)) / ((m 0 - x 0) ^ 2 + (m 1 - x 1) ^ 2) - dx 2 := by
    obtain ⟨fuel, h⟩ := ho 0
    obtain ⟨b, hb, he⟩ := Option.map_eq_some_iff.1 h
    rw [← he]
    constructor
    · simp [lin, mulVec, dotProduct, Fin.sum_univ_three]
      ring
    · simp [lin, mulVec, dotProduct, Fin.sum_univ_three]
      ring
  obtain ⟨f0, b0, hb0, hz0⟩ := hz 0
  simp only [zero_mul, add_zero] at hb0 hz0
  have hb0' := cos_bearing hr hb0
  have hcont : Continuous fun t : ℝ => ((m 0 - x 0) + t * (dm 0 - dx 0)) ^ 2 + ((m 1 - x 1) + t * (dm 1 - dx 1)) ^ 2 := by fun_prop
  have hev : ∀ᶠ t in nhds (0 : ℝ), 0 < ((m 0 - x 0) + t * (dm 0 - dx 0)) ^ 2 + ((m 1 - x 1) + t * (dm 1 - dx 1)) ^ 2 :=
    hcont.continuousAt.eventually (lt_mem_nhds (by simpa using hr))
  have aux := brg_aux (m 0 - x 0) (m 1 - x 1) (x 2) (dm 0 - dx 0) (dm 1 - dx 1) (dx 2) hr
  have e1 : (o 0).z 1 = b0 := by rw [hz0]; rfl
  refine ⟨?_, ?_, ?_⟩
  · rw [h0.1]
    refine (range_deriv _ _ _ _ hr).congr_of_eventuallyEq (Filter.Eventually.of_forall fun t => ?_)
    obtain ⟨f, b, -, h⟩ := hz t
    simp only [h, cons_val_zero]
  · rw [h0.2, e1, hb0'.2]
    refine aux.1.congr_of_eventuallyEq (hev.mono fun t ht => ?_)
    obtain ⟨f, b, hb, h⟩ := hz t
    have : (o t).z 1 = b := by rw [h]; rfl
    simp only [this]
    exact (cos_bearing ht hb).1
  · rw [h0.2, e1, hb0'.1]
    refine aux.2.congr_of_eventuallyEq (hev.mono fun t ht => ?_)
    obtain ⟨f, b, hb, h⟩ := hz t
    have : (o t).z 1 = b := by rw [h]; rfl
    simp only [this]
    exact (cos_bearing ht hb).2

/-- **C77**, range-bearing, inverse model: the matrix `inverseMeasure` propagates the measurement noise with is the inverse of the landmark Jacobian of
`measure` at the landmark obtained. -/
theorem C77_rngbrg_inverse (cfg : Cfg) (R R' : Matrix (Fin 2) (Fin 2) ℝ) (fuel : Nat) (x : Fin 3 → ℝ) (Sx : Matrix (Fin 3) (Fin 3) ℝ) (m : Fin 2 → ℝ)
    (Sm : Matrix (Fin 2) (Fin 2) ℝ) (hr : 0 < (m 0 - x 0) ^ 2 + (m 1 - x 1) ^ 2) (o : Out 2 2 3)
    (ho : rngBrg cfg R fuel x Sx m Sm = some o) : (rngBrgInv R' x o.z).2.2 * o.Hl = 1 ∧ o.Hl * (rngBrgInv R' x o.z).2.2 = 1 := by
  suffices h : o.Hl * (rngBrgInv R' x o.z).2.2 = 1 from ⟨mul_eq_one_comm.1 h, h⟩
  obtain ⟨b, hb, rfl⟩ := Option.map_eq_some_iff.1 ho
  have hpos : 0 < √((m 0 - x 0) ^ 2 + (m 1 - x 1) ^ 2) := Real.sqrt_pos.2 hr
  have hsq : √((m 0 - x 0) ^ 2 + (m 1 - x 1) ^ 2) ^ 2 = (m 0 - x 0) ^ 2 + (m 1 - x 1) ^ 2 := Real.sq_sqrt hr.le
  have hc : cos (x 2 + b) = cos (atan2 (m 1 - x 1) (m 0 - x 0)) := by
    rw [cos_add, wrap_cos hb, wrap_sin hb, ← cos_add]; congr 1; ring
  have hs : sin (x 2 + b) = sin (atan2 (m 1 - x 1) (m 0 - x 0)) := by
    rw [sin_add, wrap_cos hb, wrap_sin hb, ← sin_add]; congr 1; ring
  have e1 := sqrt_mul_cos_atan2 (m 0 - x 0) (m 1 - x 1)
  have e2 := sqrt_mul_sin_atan2 (m 0 - x 0) (m 1 - x 1)
  rw [← hc, mul_comm, ← eq_div_iff hpos.ne'] at e1
  rw [← hs, mul_comm, ← eq_div_iff hpos.ne'] at e2
  ext i j
  fin_cases i <;> fin_cases j <;>
    simp only [rngBrgInv, Matrix.mul_apply, Fin.sum_univ_two, e1, e2, Matrix.of_apply, Matrix.cons_val_zero, Matrix.cons_val_one, Fin.zero_eta,
      Fin.mk_one, Matrix.one_apply_eq, ne_eq, zero_ne_one, one_ne_zero, not_false_eq_true, Matrix.one_apply_ne]
  · field_simp; rw [hsq]
  · field_simp; ring
  · field_simp; ring
  · field_simp; ring

/-- **C77**, plane. -/
theorem C77_xy (cfg : Cfg) (R : Matrix (Fin 2) (Fin 2) ℝ) (x dx : Fin 3 → ℝ) (Sx : Matrix (Fin 3) (Fin 3) ℝ) (m dm : Fin 2 → ℝ)
    (Sm : Matrix (Fin 2) (Fin 2) ℝ) :
    HasDerivAt (fun t : ℝ => (xy cfg R (x + t • dx) Sx (m + t • dm) Sm).z) (lin (xy cfg R x Sx m Sm) dm dx) 0 := by
  have hu : HasDerivAt (fun t : ℝ => (m 0 + t * dm 0) - (x 0 + t * dx 0)) (dm 0 - dx 0) 0 := by
    have h1 := ((hasDerivAt_id (0 : ℝ)).mul_const (dm 0)).const_add (m 0)
    have h2 := ((hasDerivAt_id (0 : ℝ)).mul_const (dx 0)).const_add (x 0)
    exact (h1.sub h2).congr_deriv (by simp)
  have hv : HasDerivAt (fun t : ℝ => (m 1 + t * dm 1) - (x 1 + t * dx 1)) (dm 1 - dx 1) 0 := by
    have h1 := ((hasDerivAt_id (0 : ℝ)).mul_const (dm 1)).const_add (m 1)
    have h2 := ((hasDerivAt_id (0 : ℝ)).mul_const (dx 1)).const_add (x 1)
    exact (h1.sub h2).congr_deriv (by simp)
  have hθ : HasDerivAt (fun t : ℝ => x 2 + t * dx 2) (dx 2) 0 := by
    simpa using ((hasDerivAt_id (0 : ℝ)).mul_const (dx 2)).const_add (x 2)
  rw [hasDerivAt_pi]
  intro i
  fin_cases i
  · have hd : HasDerivAt (fun t : ℝ => cos (x 2 + t * dx 2) * ((m 0 + t * dm 0) - (x 0 + t * dx 0)) +
        sin (x 2 + t * dx 2) * ((m 1 + t * dm 1) - (x 1 + t * dx 1))) (lin (xy cfg R x Sx m Sm) dm dx 0) 0 := by
      refine ((hθ.cos.mul hu).add (hθ.sin.mul hv)).congr_deriv ?_
      simp [lin, xy, mulVec, dotProduct, Fin.sum_univ_three]
      ring
    exact hd
  · have hd : HasDerivAt (fun t : ℝ => -sin (x 2 + t * dx 2) * ((m 0 + t * dm 0) - (x 0 + t * dx 0)) +
        cos (x 2 + t * dx 2) * ((m 1 + t * dm 1) - (x 1 + t * dx 1))) (lin (xy cfg R x Sx m Sm) dm dx 1) 0 := by
      refine ((hθ.sin.neg.mul hu).add (hθ.cos.mul hv)).congr_deriv ?_
      simp [lin, xy, mulVec, dotProduct, Fin.sum_univ_three]
      ring
    exact hd

/-- **C77**, line. -/
theorem C77_rng1d (cfg : Cfg) (R Sx Sm x dx m dm : ℝ) :
    HasDerivAt (fun t : ℝ => (rng1d cfg R Sx Sm (x + t * dx) (m + t * dm)).z) (lin (rng1d cfg R Sx Sm x m) ![dm] ![dx]) 0 := by
  rw [hasDerivAt_pi]
  intro i
  fin_cases i
  have h1 := ((hasDerivAt_id (0 : ℝ)).mul_const dm).const_add m
  have h2 := ((hasDerivAt_id (0 : ℝ)).mul_const dx).const_add x
  have hd : HasDerivAt (fun t : ℝ => (m + t * dm) - (x + t * dx)) (lin (rng1d cfg R Sx Sm x m) ![dm] ![dx] 0) 0 := by
    refine (h1.sub h2).congr_deriv ?_
    simp [lin, rng1d, mulVec, dotProduct]
    ring
  exact hd

/-- What C77 says of the space model. A direction of the pose has seven components: position, then quaternion. -/
def C77_6d_full : Prop :=
  ∀ (cfg : Cfg) (R : Matrix (Fin 3) (Fin 3) ℝ) (x : Pose6) (dp : Fin 3 → ℝ) (dq : Fin 4 → ℝ) (Sx : Matrix (Fin 7) (Fin 7) ℝ) (m dm : Fin 3 → ℝ)
    (Sm : Matrix (Fin 3) (Fin 3) ℝ), Unit4 x.q → x.q ⬝ᵥ dq = 0 →
    HasDerivAt (fun t : ℝ => (m6d cfg R ⟨x.p + t • dp, x.q + t • dq⟩ Sx (m + t • dm) Sm).z)
      (lin (m6d cfg R x Sx m Sm) dm ![dp 0, dp 1, dp 2, dq 0, dq 1, dq 2, dq 3]) 0

/-- **C77**, space, in part: right for changes of the landmark and of the position. Missing: changes of the orientation, see
`C77_6d_violated`. -/
theorem C77_6d_partial (cfg : Cfg) (R : Matrix (Fin 3) (Fin 3) ℝ) (x : Pose6) (dp : Fin 3 → ℝ) (Sx : Matrix (Fin 7) (Fin 7) ℝ) (m dm : Fin 3 → ℝ)
    (Sm : Matrix (Fin 3) (Fin 3) ℝ) :
    HasDerivAt (fun t : ℝ => (m6d cfg R ⟨x.p + t • dp, x.q⟩ Sx (m + t • dm) Sm).z)
      (lin (m6d cfg R x Sx m Sm) dm ![dp 0, dp 1, dp 2, 0, 0, 0, 0]) 0 := by
  have hlin : lin (m6d cfg R x Sx m Sm) dm ![dp 0, dp 1, dp 2, 0, 0, 0, 0] = rotMat (conj x.q) *ᵥ (dm - dp) := by
    funext i
    fin_cases i <;> simp [lin, m6d, mulVec, dotProduct, Fin.sum_univ_three, Fin.sum_univ_succ] <;> ring
  rw [hlin]
  have e : ∀ t : ℝ, (m6d cfg R ⟨x.p + t • dp, x.q⟩ Sx (m + t • dm) Sm).z =
      rotMat (conj x.q) *ᵥ (m - x.p) + t • (rotMat (conj x.q) *ᵥ (dm - dp)) := by
    intro t
    rw [← mulVec_smul, ← mulVec_add]
    simp only [m6d]
    congr 1
    rw [smul_sub]
    abel
  have : (fun t : ℝ => (m6d cfg R ⟨x.p + t • dp, x.q⟩ Sx (m + t • dm) Sm).z) =
      fun t : ℝ => rotMat (conj x.q) *ᵥ (m - x.p) + t • (rotMat (conj x.q) *ᵥ (dm - dp)) := funext e
  rw [this]
  simpa using ((hasDerivAt_id (0 : ℝ)).smul_const (rotMat (conj x.q) *ᵥ (dm - dp))).const_add (rotMat (conj x.q) *ᵥ (m - x.p))

/-- **C77** fails for the space model: for a robot at the origin with the identity orientation, turning about the vertical axis, a landmark straight
ahead moves to the right at rate 2 per unit of the quaternion's `z`; the Jacobian says to the left. -/
theorem C77_6d_violated : ¬ C77_6d_full := by
  intro h
  have h' := h ⟨0, 0, 0, 0, 0⟩ 0 ⟨0, ![0, 0, 0, 1]⟩ 0 ![0, 0, 1, 0] 0 ![1, 0, 0] 0 0 (by simp [Unit4]) (by simp [dotProduct, Fin.sum_univ_four])
  rw [hasDerivAt_pi] at h'
  have h1 := h' 1
  have e : (fun t : ℝ => (m6d ⟨0, 0, 0, 0, 0⟩ 0 ⟨0 + t • (0 : Fin 3 → ℝ), ![0, 0, 0, 1] + t • ![0, 0, 1, 0]⟩ 0
      (![1, 0, 0] + t • (0 : Fin 3 → ℝ)) 0).z 1) = fun t : ℝ => -2 * t := by
    funext t
    simp [m6d, rotMat, conj, mulVec, dotProduct, Fin.sum_univ_three]
  have d2 : HasDerivAt (fun t : ℝ => -2 * t) (-2) 0 := by
    simpa using (hasDerivAt_id (0 : ℝ)).const_mul (-2)
  rw [show (fun t : ℝ => (fun t : ℝ => (m6d ⟨0, 0, 0, 0, 0⟩ 0 ⟨0 + t • (0 : Fin 3 → ℝ), ![0, 0, 0, 1] + t • ![0, 0, 1, 0]⟩ 0
      (![1, 0, 0] + t • (0 : Fin 3 → ℝ)) 0).z) t 1) = fun t : ℝ => -2 * t from e] at h1
  have := h1.unique d2
  have hv : lin (m6d ⟨0, 0, 0, 0, 0⟩ 0 ⟨0, ![0, 0, 0, 1]⟩ 0 ![1, 0, 0] 0) 0
      ![(0 : Fin 3 → ℝ) 0, (0 : Fin 3 → ℝ) 1, (0 : Fin 3 → ℝ) 2, ![0, 0, 1, 0] 0, ![0, 0, 1, 0] 1, ![0, 0, 1, 0] 2, ![0, 0, 1, 0] 3] 1 = 2 := by
    simp [lin, m6d, rotMat, conj, mulVec, dotProduct, Fin.sum_univ_three, Fin.sum_univ_succ]
  rw [hv] at this
  norm_num at this

/-- Not vacuous: pose at the origin heading along `x`, landmark at `(3, 4)`: range 5 > 0. -/
example : 0 < ((![3, 4] : Fin 2 → ℝ) 0 - (![0, 0, 0] : Fin 3 → ℝ) 0) ^ 2 + ((![3, 4] : Fin 2 → ℝ) 1 - (![0, 0, 0] : Fin 3 → ℝ) 1) ^ 2 := by
  norm_num

end JacProps
end RFS
