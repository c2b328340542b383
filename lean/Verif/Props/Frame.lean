import Verif.Model.Frame
import Verif.Lemmas.MeasModels
import Verif.Lemmas.Kalman
import Verif.Props.TimeStamp
import Mathlib.Algebra.Order.Star.Real

/-! Properties C64 and C87: reference frames. -/

namespace RFS
namespace FrameProps
open Real Matrix TimeStamp TimeStampProps Frame

variable {B : Type}

/-- Specification: where the frame puts a point, spelled out. -/
noncomputable def place (f : F B) (p : Fin 2 → ℝ) : Fin 2 → ℝ :=
  ![f.pos 0 + (cos f.ang * p 0 - sin f.ang * p 1), f.pos 1 + (sin f.ang * p 0 + cos f.ang * p 1)]

theorem place_eq (f : F B) (p : Fin 2 → ℝ) : rotMat f *ᵥ p + f.pos = place f p := by
  funext i
  fin_cases i <;> simp [rotMat, place, mulVec, dotProduct] <;> ring

theorem mul_ang_eq (f g : F B) : (mul f g).ang = Meas.atan2 (sin (f.ang + g.ang)) (cos (f.ang + g.ang)) := by
  have e1 : (rotMat f * rotMat g) 1 0 = sin (f.ang + g.ang) := by
    simp [rotMat, Matrix.mul_apply, sin_add]
  have e2 : (rotMat f * rotMat g) 0 0 = cos (f.ang + g.ang) := by
    simp [rotMat, Matrix.mul_apply, cos_add]; ring
  simp only [mul]
  rw [e1, e2]

theorem mul_ang (f g : F B) : ∃ k : ℤ, (mul f g).ang = f.ang + g.ang + k * (2 * π) := by
  rw [mul_ang_eq]
  simpa using Meas.atan2_polar_mod one_pos (f.ang + g.ang)

theorem mul_norm {f g : F B} (hf : Normalised f.t) (hg : Normalised g.t) : Normalised (mul f g).t := by
  simp only [mul]; split_ifs <;> assumption

theorem place_mul (f g : F B) (p : Fin 2 → ℝ) : place (mul f g) p = place f (place g p) := by
  obtain ⟨k, hk⟩ := mul_ang f g
  have hp : (mul f g).pos = place f g.pos := place_eq f g.pos
  unfold place at *
  rw [hk, hp, cos_add_int_mul_two_pi, sin_add_int_mul_two_pi, cos_add, sin_add]
  funext i
  fin_cases i <;> simp <;> ring

/-- **C64**: each of the four ways to map a point puts it at `place`. -/
theorem C64_map (f : F B) (p : Fin 2 → ℝ) (S : Option (Matrix (Fin 2) (Fin 2) ℝ)) (r : RV) (junk : Matrix (Fin 2) (Fin 2) ℝ) :
    (toBase1 f p S).1 = place f p ∧ (∀ Sc q, toBase2 f p Sc S = some q → q.1 = place f p) ∧ (toBaseR1 f r).x = place f r.x ∧
    ∃ r', toBaseR2 f r junk = some r' ∧ r'.x = place f r.x := by
  refine ⟨place_eq f p, ?_, place_eq f _, ⟨_, by simp [toBaseR2, toBase2]; rfl, place_eq f _⟩⟩
  intro Sc q h
  unfold toBase2 at h
  rw [← place_eq]
  split_ifs at h
  · cases Sc with
    | none => cases h
    | some S => simp only [Option.some.injEq] at h; rw [← h]
  · simp only [Option.some.injEq] at h; rw [← h]

/-- **C64**: composing frames and then mapping a point equals mapping it through both; the angles add modulo `2π`, into `(-π, π]`; the later time stamp is
kept; the base frame is that of the outer frame. -/
theorem C64_compose (f g : F B) (hf : Normalised f.t) (hg : Normalised g.t) :
    (∀ p, (toBase1 (mul f g) p none).1 = (toBase1 f (toBase1 g p none).1 none).1) ∧
    (-π < (mul f g).ang ∧ (mul f g).ang ≤ π ∧ ∃ k : ℤ, (mul f g).ang = f.ang + g.ang + k * (2 * π)) ∧
    ((mul f g).t = f.t ∨ (mul f g).t = g.t) ∧ instant (mul f g).t = max (instant f.t) (instant g.t) ∧ (mul f g).base = f.base := by
  refine ⟨fun p => ?_, ⟨Complex.neg_pi_lt_arg _, Complex.arg_le_pi _, mul_ang f g⟩, ?_, ?_, rfl⟩
  · show rotMat (mul f g) *ᵥ p + (mul f g).pos = rotMat f *ᵥ (rotMat g *ᵥ p + g.pos) + f.pos
    rw [place_eq, place_eq, place_eq, place_mul]
  · simp only [mul]; split_ifs <;> simp
  · have h := (C02_comparisons f.t g.t hf hg).1
    simp only [mul]
    split_ifs with h1
    · exact (max_eq_right (h.1 h1).le).symm
    · exact (max_eq_left (not_lt.1 fun h2 => h1 (h.2 h2))).symm

/-- **C64**: composition is associative, on points and in time; the angles agree modulo `2π` and are both in `(-π, π]`, so they are equal. -/
theorem C64_assoc (f g h : F B) (hf : Normalised f.t) (hg : Normalised g.t) (hh : Normalised h.t) :
    (∀ p, (toBase1 (mul (mul f g) h) p none).1 = (toBase1 (mul f (mul g h)) p none).1) ∧ (mul (mul f g) h).ang = (mul f (mul g h)).ang ∧
    instant (mul (mul f g) h).t = instant (mul f (mul g h)).t := by
  refine ⟨fun p => ?_, ?_, ?_⟩
  · show rotMat _ *ᵥ p + F.pos _ = rotMat _ *ᵥ p + F.pos _
    simp only [place_eq, place_mul]
  · obtain ⟨k, hk⟩ := mul_ang f g
    obtain ⟨l, hl⟩ := mul_ang g h
    rw [mul_ang_eq (mul f g) h, mul_ang_eq f (mul g h), hk, hl,
      show f.ang + g.ang + (k : ℝ) * (2 * π) + h.ang = f.ang + g.ang + h.ang + k * (2 * π) by ring,
      show f.ang + (g.ang + h.ang + (l : ℝ) * (2 * π)) = f.ang + g.ang + h.ang + l * (2 * π) by ring]
    simp only [cos_add_int_mul_two_pi, sin_add_int_mul_two_pi]
  · rw [(C64_compose (mul f g) h (mul_norm hf hg) hh).2.2.2.1, (C64_compose f g hf hg).2.2.2.1,
      (C64_compose f (mul g h) hf (mul_norm hg hh)).2.2.2.1, (C64_compose g h hg hh).2.2.2.1, max_assoc]

example : Normalised ⟨3, 999999999⟩ ∧ Normalised ⟨4, 0⟩ := by decide

/-! ### C87 -/

/-- **C87**, the full claim: mapping a point with optional covariances is defined whichever pointers are null, and the covariance in the base frame is the
rotated one whenever both are given. -/
def C87_full : Prop := ∀ (f : F Unit) (p : Fin 2 → ℝ) (Sc Sb : Option (Matrix (Fin 2) (Fin 2) ℝ)), ∃ r, toBase2 f p Sc Sb = some r ∧
  (∀ S, Sc = some S → Sb.isSome → r.2 = some (rotMat f * S * (rotMat f)ᵀ)) ∧ (Sc = none → r.2 = Sb)

/-- What holds: the call is defined unless exactly the covariance of the source is missing. -/
theorem C87_defined_partial (f : F B) (p : Fin 2 → ℝ) (Sc Sb : Option (Matrix (Fin 2) (Fin 2) ℝ)) (h : Sb.isSome → Sc.isSome) :
    ∃ r, toBase2 f p Sc Sb = some r ∧ (∀ S, Sc = some S → Sb.isSome → r.2 = some (rotMat f * S * (rotMat f)ᵀ)) ∧ (Sc = none → r.2 = Sb) := by
  cases Sb with
  | none => exact ⟨_, rfl, by simp, by simp⟩
  | some Sb =>
    obtain ⟨S, rfl⟩ := Option.isSome_iff_exists.1 (h rfl)
    exact ⟨_, rfl, by rintro S' ⟨⟩ -; rfl, by simp⟩

theorem rot_orth (f : F B) : (rotMat f)ᵀ * rotMat f = 1 := by
  ext i j
  have h := sin_sq_add_cos_sq f.ang
  fin_cases i <;> fin_cases j <;> simp [rotMat, Matrix.mul_apply] <;> nlinarith

/-- The covariance in the base frame is a valid covariance: symmetric positive semidefinite with the same determinant and trace, and the variance in the
rotated direction is the variance in the original direction. -/
theorem C87_covariance (f : F B) (p : RV) (junk : Matrix (Fin 2) (Fin 2) ℝ) (hS : p.S.PosSemidef) : ∃ r, toBaseR2 f p junk = some r ∧
    toBaseR1 f p = r ∧ r.t = p.t ∧ r.S.PosSemidef ∧ r.S.det = p.S.det ∧ r.S.trace = p.S.trace ∧
    ∀ v, (rotMat f *ᵥ v) ⬝ᵥ (r.S *ᵥ (rotMat f *ᵥ v)) = v ⬝ᵥ (p.S *ᵥ v) := by
  have ho := rot_orth f
  have hd : (rotMat f).det ^ 2 = 1 := by
    have := congrArg det ho
    rw [det_mul, det_transpose, det_one] at this
    rw [sq, this]
  refine ⟨⟨rotMat f *ᵥ p.x + f.pos, rotMat f * p.S * (rotMat f)ᵀ, p.t⟩, rfl, rfl, rfl, Kalman.psd_conj hS _, ?_, ?_, fun v => ?_⟩
  · simp only [det_mul, det_transpose]
    linear_combination p.S.det * hd
  · simp only
    rw [trace_mul_comm, ← Matrix.mul_assoc, ho, Matrix.one_mul]
  · simp only
    rw [← mulVec_mulVec, ← mulVec_mulVec, mulVec_mulVec _ _ (rotMat f), ho, one_mulVec, dotProduct_mulVec, ← mulVec_transpose, mulVec_mulVec, ho, one_mulVec]

/-- **C87 is violated**: asking for the covariance in the base frame of a point given without covariance dereferences a null pointer. -/
theorem C87_violated : ¬ C87_full := by
  intro h
  obtain ⟨r, hr, -⟩ := h ⟨0, 0, ⟨0, 0⟩, ()⟩ 0 none (some 0)
  simp [toBase2] at hr

example : (1 : Matrix (Fin 2) (Fin 2) ℝ).PosSemidef := PosSemidef.one

end FrameProps
end RFS
