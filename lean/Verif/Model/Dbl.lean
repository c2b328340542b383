import Mathlib.Algebra.Order.Field.Basic
import Mathlib.Algebra.Order.Field.Rat
import Verif.Model.ParticleFilter
import Verif.Model.TimeStamp

/-!
Binary64 arithmetic for the places of the program where rounding decides about control flow: the sampling loop of
`ParticleFilter::resample` (include/ParticleFilter.hpp 407-500), the conversions between `TimeStamp` and `double`
(src/TimeStamp.cpp 46-65), and the loops that bring an angle into `[-PI, PI]`.

A finite double is an exact rational; every C++ operation on doubles is the exact operation followed by a rounding `rd`. Definitions
take `rd` as argument. `rnd` is IEEE 754 round to nearest, ties to even, with 53 significant bits. Simplifications: the exponent is
unbounded (no overflow, no subnormal numbers); the compiler neither contracts nor reorders operations and uses no extended
precision. NaN is a value of its own (`none` of `Option K`) where it can arise, namely as `0 / 0` in `normalizeWeights`.
-/

namespace RFS
namespace Dbl

/-! ### Rounding to nearest -/

/-- The power of two with integer exponent, as a rational. -/
def pow2 (e : ℤ) : ℚ := if 0 ≤ e then ((2 ^ e.toNat : ℕ) : ℚ) else 1 / ((2 ^ (-e).toNat : ℕ) : ℚ)

/-- The binary exponent of a positive rational: the `e` with `2^e ≤ x < 2^(e+1)`. -/
def ilog (x : ℚ) : ℤ :=
  let c : ℤ := (Nat.log2 x.num.natAbs : ℤ) - (Nat.log2 x.den : ℤ)
  if pow2 c ≤ x then c else c - 1

/-- Nearest integer, ties to even. -/
def nearInt (q : ℚ) : ℤ :=
  let f := Rat.floor q
  let r := q - f
  if r < 1 / 2 then f else if 1 / 2 < r then f + 1 else if f % 2 = 0 then f else f + 1

/-- IEEE 754 binary64 `roundTiesToEven` of a rational (unbounded exponent): 53 significant bits. -/
def rnd (x : ℚ) : ℚ :=
  if x = 0 then 0
  else
    let u := pow2 (ilog |x| - 52)
    nearInt (x / u) * u

variable {S K : Type*} [Field K] [LinearOrder K]

/-! ### Operations on doubles that may be NaN -/

/-- `a + b` on doubles; NaN is absorbing. -/
def fadd (rd : K → K) (a b : Option K) : Option K := a.bind fun x => b.map fun y => rd (x + y)

/-- `a * b` on doubles. -/
def fmul (rd : K → K) (a b : Option K) : Option K := a.bind fun x => b.map fun y => rd (x * y)

/-- `a / b` on doubles. `0 / 0` is NaN. A nonzero number divided by zero is an infinity in C++; that case does not arise for sums of
nonnegative weights (a zero sum has zero terms only) and is NaN here. -/
def fdiv (rd : K → K) (a b : Option K) : Option K := a.bind fun x => b.bind fun y => if y = 0 then none else some (rd (x / y))

/-- `a < b` on doubles: false when one of them is NaN. -/
def flt (a b : Option K) : Bool :=
  match a, b with
  | some x, some y => decide (x < y)
  | _, _ => false

/-! ### `ParticleFilter::resample` in doubles -/

/-- `normalizeWeights`, include/ParticleFilter.hpp 360-371: the new weights. -/
def normWeights (rd : K → K) (ws : List (Option K)) : List (Option K) :=
  let sum := ws.foldl (fadd rd) (some 0)
  ws.map fun w => fdiv rd w sum

/-- Lines 413-422: `true` when the effective number of particles is large enough. -/
def enough (rd : K → K) (vs : List (Option K)) (t tp : K) : Bool :=
  let s2 := vs.foldl (fun a w => fadd rd a (fmul rd w w)) (some 0)
  let nEff := fdiv rd (some 1) s2
  flt (some t) nEff && flt (some tp) (fdiv rd nEff (some (vs.length : K)))

/-- The inner `while` of lines 443-447: `none` is a read past the last particle. -/
def advance (rd : K → K) (vs : List (Option K)) (sp : Option K) : Nat → Nat → Option K → Option (Nat × Option K)
  | 0, _, _ => none
  | fuel + 1, idx, cum =>
    if flt cum sp then
      match vs[idx + 1]? with
      | none => none
      | some w => advance rd vs sp fuel (idx + 1) (fadd rd cum w)
    else some (idx, cum)

/-- The sampling loop of lines 441-452. -/
def sampleLoop (rd : K → K) (vs : List (Option K)) (iv : K) : Nat → K → Nat → Option K → Option (List Nat)
  | 0, _, _, _ => some []
  | k + 1, sp, idx, cum =>
    match advance rd vs (some sp) (vs.length + 1) idx cum with
    | none => none
    | some (idx', cum') => (sampleLoop rd vs iv k (rd (sp + iv)) idx' cum').map (idx' :: ·)

/-- Lines 428-452: `n` indices, `u` is the value of `drand48()`. -/
def sample (rd : K → K) (vs : List (Option K)) (n : Nat) (u : K) : Option (List Nat) :=
  match vs[0]? with
  | none => none
  | some w0 => sampleLoop rd vs (rd (1 / (n : K))) n (rd (rd (1 / (n : K)) * u)) 0 w0

/-- `resample(n0, force)`, lines 407-500: the returned value, the particles (their field `w` is not used) and their weights. The copying
is `PF.copyLoop`, which does not look at weights. `none`: a read outside the vector of particles. -/
def resample (rd : K → K) (P : List (PF.Part S K)) (n0 : Nat) (force : Bool) (t tp u : K) :
    Option (Bool × List (PF.Part S K) × List (Option K)) :=
  let vs := normWeights rd (P.map fun p => some p.w)
  if force = false ∧ enough rd vs t tp = true then some (false, P, vs)
  else
    let n := if n0 = 0 ∨ P.length < n0 then P.length else n0
    match sample rd vs n u with
    | none => none
    | some L =>
      match PF.copyLoop (fun i => decide (i ∈ L)) n L none (P, 0) with
      | none => none
      | some P' => some (true, P'.take n, List.replicate n (some 1))

/-! ### `TimeStamp` and `double` -/

/-- `getTimeAsDouble`, src/TimeStamp.cpp 52-55: the literal `1e-9`, the product and the sum are rounded; the conversions of `int32_t` are
exact. -/
def getTimeAsDouble (rd : ℚ → ℚ) (t : TimeStamp.TS) : ℚ := rd (t.sec + rd (t.nsec * rd (1 / 1000000000)))

/-- `setTime(double)`, src/TimeStamp.cpp 57-65, `TimeStamp(double)` 46-48: `modf` is exact, the product is rounded, conversion to `int32_t`
truncates (undefined when out of range: `none`). -/
def setTime (rd : ℚ → ℚ) (t : ℚ) : Option TimeStamp.TS := do
  let intPart := TimeStamp.truncQ t
  let fracPart := t - intPart
  let s ← TimeStamp.chk32 intPart
  let n ← TimeStamp.chk32 (TimeStamp.truncQ (rd (fracPart * 1000000000)))
  TimeStamp.normalize ⟨s, n⟩

/-! ### Bringing an angle into `[-PI, PI]` -/

/-- `while(b > PI) b -= 2*PI;`, src/MeasurementModel_RngBrg.cpp 91, src/KalmanFilter.cpp 34-35; `p` is the double `PI` (doubling it is
exact). `none`: more than `fuel` passes. -/
def wrapDown (rd : K → K) (p : K) : Nat → K → Option K
  | 0, _ => none
  | fuel + 1, b => if p < b then wrapDown rd p fuel (rd (b - 2 * p)) else some b

/-- `while(b < -PI) b += 2*PI;`, src/MeasurementModel_RngBrg.cpp 92, src/KalmanFilter.cpp 36-37. -/
def wrapUp (rd : K → K) (p : K) : Nat → K → Option K
  | 0, _ => none
  | fuel + 1, b => if b < -p then wrapUp rd p fuel (rd (b + 2 * p)) else some b

/-- Both loops. -/
def wrap (rd : K → K) (p : K) (fuel : Nat) (b : K) : Option K := (wrapDown rd p fuel b).bind (wrapUp rd p fuel)

end Dbl
end RFS
