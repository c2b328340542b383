import Verif.Model.MeasModels
import Verif.Model.TimeStamp

/-!
Model of `Frame2d` (src/Frame.cpp, include/Frame.hpp). Exact real arithmetic. The base frame pointer is an opaque identity `B`.
-/

namespace RFS
namespace Frame
open Real Matrix TimeStamp

/-- A frame: position and angle in the base frame, time stamp, base frame pointer; include/Frame.hpp 20, 109. -/
@[ext] structure F (B : Type) where
  pos : Fin 2 → ℝ
  ang : ℝ
  t : TS
  base : B

/-- `getRotMat`, src/Frame.cpp 49-54. -/
noncomputable def rotMat {B} (f : F B) : Matrix (Fin 2) (Fin 2) ℝ := !![cos f.ang, -sin f.ang; sin f.ang, cos f.ang]

/-- `operator*`, src/Frame.cpp 17-41. -/
noncomputable def mul {B} (f g : F B) : F B :=
  let R := rotMat f * rotMat g
  ⟨rotMat f *ᵥ g.pos + f.pos, Meas.atan2 (R 1 0) (R 0 0), if lt f.t g.t then g.t else f.t, f.base⟩

/-- `getRelToBaseFrame` in place, src/Frame.cpp 56-68: the point, and its covariance if a pointer is given. -/
noncomputable def toBase1 {B} (f : F B) (p : Fin 2 → ℝ) (S : Option (Matrix (Fin 2) (Fin 2) ℝ)) : (Fin 2 → ℝ) × Option (Matrix (Fin 2) (Fin 2) ℝ) :=
  (rotMat f *ᵥ p + f.pos, S.map fun S => rotMat f * S * (rotMat f)ᵀ)

/-- `getRelToBaseFrame` from `p_c` to `p_b`, src/Frame.cpp 70-83. `Sc` is what `p_c_cov` points to (`none`: null pointer), `Sb` likewise for `p_b_cov`; the
outer `none` is the dereference of a null pointer. The test of line 80 looks at `p_b_cov` twice. -/
noncomputable def toBase2 {B} (f : F B) (p : Fin 2 → ℝ) (Sc Sb : Option (Matrix (Fin 2) (Fin 2) ℝ)) :
    Option ((Fin 2 → ℝ) × Option (Matrix (Fin 2) (Fin 2) ℝ)) :=
  let pb := rotMat f *ᵥ p + f.pos
  if Sb.isSome && Sb.isSome then
    match Sc with
    | none => none
    | some S => some (pb, some (rotMat f * S * (rotMat f)ᵀ))
  else some (pb, Sb)

/-- A random position: `RandomVec<2>`. -/
@[ext] structure RV where
  x : Fin 2 → ℝ
  S : Matrix (Fin 2) (Fin 2) ℝ
  t : TS

/-- `getRelToBaseFrame` of a random vector in place, src/Frame.cpp 85-94 (`set(x, S)` keeps the time). -/
noncomputable def toBaseR1 {B} (f : F B) (p : RV) : RV :=
  let r := toBase1 f p.x (some p.S)
  { p with x := r.1, S := r.2.getD p.S }

/-- `getRelToBaseFrame` of a random vector, src/Frame.cpp 96-108. The local `p_b_cov_tmp` starts uninitialised (`junk`). -/
noncomputable def toBaseR2 {B} (f : F B) (p : RV) (junk : Matrix (Fin 2) (Fin 2) ℝ) : Option RV :=
  (toBase2 f p.x (some p.S) (some junk)).map fun r => ⟨r.1, r.2.getD junk, p.t⟩

end Frame
end RFS
