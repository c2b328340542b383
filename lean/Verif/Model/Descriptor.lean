import Verif.Model.Gaussian
import Verif.Model.ORB

/-!
Model of the ORB random generator (include/ORB.hpp 49-57), of landmarks and measurements with descriptors (include/LandmarkWithDescriptor.hpp, include/MeasurementWithDescriptor.hpp)
and of the measurement model with descriptors (include/MeasurementModelWithDescriptor.hpp).

`lrand48()` gives a number below 2^31. Exact real arithmetic.
-/

namespace RFS
namespace ORB

/-- `std::bitset<256>(unsigned long)`, the conversion in include/ORB.hpp 50 and 53. -/
def ofNat (v : Nat) : Desc := fun i => v.testBit i

/-- `desc <<= 32`, include/ORB.hpp 52. -/
def shift32 (d : Desc) : Desc := fun i => if h : 32 ≤ i.val then d ⟨i.val - 32, by omega⟩ else false

/-- `operator|`. -/
def bor (a b : Desc) : Desc := fun i => a i || b i

/-- `random`, include/ORB.hpp 49-56: `v` are the values of `lrand48()`, eight of them are used. -/
def random (v : Nat → Nat) : Desc := (List.range 7).foldl (fun d i => bor (shift32 d) (ofNat (v (i + 1)))) (ofNat (v 0))

end ORB

namespace Descr
open Real Matrix

/-- A descriptor class: `likelihood` and `falseAlarmLikelihood`. -/
structure DescCls (D : Type) where
  lik : D → D → ℝ
  falseAlarm : D → ℝ

/-- The ORB descriptors, include/ORB.hpp 70-77. -/
noncomputable def orb : DescCls ORB.Desc := ⟨ORB.likelihood, fun _ => ORB.falseAlarmLikelihood ℝ⟩

/-- A random vector with a descriptor: include/LandmarkWithDescriptor.hpp 42-47, include/MeasurementWithDescriptor.hpp. -/
structure Obj (n : Nat) (D : Type) where
  x : Fin n → ℝ
  S : Matrix (Fin n) (Fin n) ℝ
  desc : D

variable {n : Nat} {D : Type}

/-- `LandmarkWithDescriptor::evalGaussianLikelihood`, include/LandmarkWithDescriptor.hpp 49-54: the likelihood and what `*mDist2` is afterwards, `old` is what it was. -/
noncomputable def lmkLik (c : DescCls D) (a b : Obj n D) (old : ℝ) : ℝ × ℝ :=
  if c.lik a.desc b.desc = 0 then (0, old) else (Gauss.lik a.x a.S b.x * c.lik a.desc b.desc, Gauss.mahal2 a.x a.S b.x)

/-- The overload with `n_error`, include/LandmarkWithDescriptor.hpp 55-59: likelihood, `n_error`, `*mDist2`. -/
noncomputable def lmkLikGrad (c : DescCls D) (a b : Obj n D) (oldE : Fin n → ℝ) (old : ℝ) : ℝ × (Fin n → ℝ) × ℝ :=
  if c.lik a.desc b.desc = 0 then (0, oldE, old)
  else ((Gauss.likGrad a.x a.S b.x).1 * c.lik a.desc b.desc, (Gauss.likGrad a.x a.S b.x).2)

/-- `MeasurementWithDescriptor::evalGaussianLikelihood`, include/MeasurementWithDescriptor.hpp 48-51. -/
noncomputable def measLik (c : DescCls D) (a b : Obj n D) : ℝ × ℝ := (Gauss.lik a.x a.S b.x * c.lik a.desc b.desc, Gauss.mahal2 a.x a.S b.x)

/-- The overload with `n_error`, include/MeasurementWithDescriptor.hpp 52-54. -/
noncomputable def measLikGrad (c : DescCls D) (a b : Obj n D) : ℝ × (Fin n → ℝ) × ℝ :=
  ((Gauss.likGrad a.x a.S b.x).1 * c.lik a.desc b.desc, (Gauss.likGrad a.x a.S b.x).2)

/-- `sample`, include/LandmarkWithDescriptor.hpp 60-67 and include/MeasurementWithDescriptor.hpp 55-62: `L` Cholesky factor of the covariance, `w` normal numbers, `ds` the sampled descriptor. -/
def sample (L : Matrix (Fin n) (Fin n) ℝ) (w : Fin n → ℝ) (ds : D → D) (a : Obj n D) : Obj n D := ⟨Gauss.sample a.x L w, a.S, ds a.desc⟩

/-- The measurement model that is extended; `measure` gives the measurement, its covariance and whether it is valid; `inverse` a landmark and its covariance. -/
structure Base (P : Type) (nl nz : Nat) where
  measure : P → (Fin nl → ℝ) → Matrix (Fin nl) (Fin nl) ℝ → (Fin nz → ℝ) × Matrix (Fin nz) (Fin nz) ℝ × Bool
  inverse : P → (Fin nz → ℝ) → Matrix (Fin nz) (Fin nz) ℝ → (Fin nl → ℝ) × Matrix (Fin nl) (Fin nl) ℝ
  clutter : (Fin nz → ℝ) → Nat → ℝ

variable {P : Type} {nl nz : Nat}

/-- `measure`, include/MeasurementModelWithDescriptor.hpp 58-71: the descriptor is copied whether the measurement is valid or not. -/
def measure (B : Base P nl nz) (p : P) (m : Obj nl D) : Obj nz D × Bool :=
  let r := B.measure p m.x m.S
  (⟨r.1, r.2.1, m.desc⟩, r.2.2)

/-- `sample` of the model, include/MeasurementModelWithDescriptor.hpp 85-114 with the default arguments: noise is added to valid measurements. `chol` is the Cholesky factor, `R` the noise. -/
def sampleModel (B : Base P nl nz) (chol : Matrix (Fin nz) (Fin nz) ℝ → Matrix (Fin nz) (Fin nz) ℝ) (R : Matrix (Fin nz) (Fin nz) ℝ) (w : Fin nz → ℝ) (ds : D → D) (p : P) (m : Obj nl D) :
    Obj nz D × Bool :=
  let r := measure B p m
  if r.2 then (sample (chol R) w ds { r.1 with S := R }, true) else r

/-- `inverseMeasure`, include/MeasurementModelWithDescriptor.hpp 128-133. -/
def inverse (B : Base P nl nz) (p : P) (z : Obj nz D) : Obj nl D :=
  let r := B.inverse p z.x z.S
  ⟨r.1, r.2, z.desc⟩

/-- `clutterIntensity`, include/MeasurementModelWithDescriptor.hpp 135-138. -/
def clutter (B : Base P nl nz) (c : DescCls D) (z : Obj nz D) (nZ : Nat) : ℝ := B.clutter z.x nZ * c.falseAlarm z.desc

end Descr
end RFS
