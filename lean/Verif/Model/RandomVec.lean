import Mathlib.Logic.Function.Basic

/-!
Model of `rfs::RandomVec` (include/RandomVec.hpp): mean, covariance and the cached quantities derived from the covariance.

The numerical routines (inverse, determinant, Cholesky factor, the normalisation factor and the final formulas) are arbitrary functions, so
the theorems hold for every way of computing them, including all floating point effects and the replacement of NaN by 0. What is modelled is which
cached value is used when. Objects live in a memory indexed by object number.
-/

namespace RFS
namespace RandomVec

/-- The numerical routines: `x` vectors, `s` covariances, `i` inverses, `d` determinants, `f` factors, `l` Cholesky factors, `m` distances, `r`
likelihoods. -/
structure Ops (x s i d f l m r : Type) where
  inv : s → i
  det : s → d
  /-- `sqrt(pow(2*PI, nDim) * det)`, line 460 -/
  fac : d → f
  chol : s → l
  /-- `e' * Sx_inv * e` with `e = to - x`, lines 433-434 -/
  md2 : i → x → x → m
  /-- `exp(-0.5*md2)/factor` with NaN replaced by 0, lines 464-466 -/
  lik : m → f → r
  /-- `-0.5*md2 - log(factor)` with NaN replaced by 0, lines 486-488 -/
  logLik : m → f → r

variable {x s i d f l m r : Type}

/-- Members of an object (lines 655-669). A cached value whose flag is false is whatever was there. -/
structure Obj (x s i d f l : Type) where
  mean : x
  cov : s
  invV : i
  invOk : Bool
  detV : d
  detOk : Bool
  cholV : l
  cholOk : Bool
  facV : f

/-- Calls on objects. The values in the constructor are the memory contents found there: the constructors of lines 85-169 initialise only mean,
covariance and the three flags. -/
inductive Call (x s i d f l : Type) where
  | construct (a : Nat) (mean : x) (cov : s) (invV : i) (detV : d) (cholV : l) (facV : f)
  | copyConstruct (a b : Nat)
  | assign (a b : Nat)
  | setMean (a : Nat) (mean : x)
  | setCov (a : Nat) (cov : s)
  | getCovInv (a : Nat)
  | getCovDet (a : Nat)
  | getChol (a : Nat)
  | mahalanobis (a : Nat) (y : x)
  | likelihood (a : Nat) (y : x)
  | logLikelihood (a : Nat) (y : x)

/-- What a call returns. -/
inductive Out (i d l m r : Type) where
  | unit
  | inv (v : i)
  | det (v : d)
  | chol (v : l)
  | dist (v : m)
  | lik (v : r) (md2 : m)

/-- Lines 351-357 and 429-432. -/
def fillInv (o : Ops x s i d f l m r) (b : Obj x s i d f l) : Obj x s i d f l :=
  if b.invOk then b else { b with invV := o.inv b.cov, invOk := true }

/-- `getCovDet`, lines 363-369: the flag is set, the factor is not computed. -/
def fillDet (o : Ops x s i d f l m r) (b : Obj x s i d f l) : Obj x s i d f l :=
  if b.detOk then b else { b with detV := o.det b.cov, detOk := true }

/-- Lines 458-462, 479-483 and 504-508. -/
def fillFac (o : Ops x s i d f l m r) (b : Obj x s i d f l) : Obj x s i d f l :=
  if b.detOk then b else { b with detV := o.det b.cov, facV := o.fac (o.det b.cov), detOk := true }

/-- `getCovCholeskyDecompLower`, lines 338-345. -/
def fillChol (o : Ops x s i d f l m r) (b : Obj x s i d f l) : Obj x s i d f l :=
  if b.cholOk then b else { b with cholV := o.chol b.cov, cholOk := true }

/-- `operator=`, lines 192-206: every member but the factor. -/
def assigned (lhs rhs : Obj x s i d f l) : Obj x s i d f l := { rhs with facV := lhs.facV }

/-- The effect of a call on memory, and its result. Copy constructor: lines 175-186. `setCov`: lines 259-265. `mahalanobisDist2`:
lines 428-448. `evalGaussianLikelihood`: lines 456-470 and 502-522. `evalGaussianLogLikelihood`: lines 477-492. -/
def exec (o : Ops x s i d f l m r) (M : Nat → Obj x s i d f l) : Call x s i d f l → (Nat → Obj x s i d f l) × Out i d l m r
  | .construct a mean cov invV detV cholV facV => (Function.update M a ⟨mean, cov, invV, false, detV, false, cholV, false, facV⟩, .unit)
  | .copyConstruct a b => (Function.update M a (M b), .unit)
  | .assign a b => (Function.update M a (assigned (M a) (M b)), .unit)
  | .setMean a mean => (Function.update M a { M a with mean := mean }, .unit)
  | .setCov a cov => (Function.update M a { M a with cov := cov, invOk := false, detOk := false, cholOk := false }, .unit)
  | .getCovInv a => let b := fillInv o (M a); (Function.update M a b, .inv b.invV)
  | .getCovDet a => let b := fillDet o (M a); (Function.update M a b, .det b.detV)
  | .getChol a => let b := fillChol o (M a); (Function.update M a b, .chol b.cholV)
  | .mahalanobis a y => let b := fillInv o (M a); (Function.update M a b, .dist (o.md2 b.invV b.mean y))
  | .likelihood a y =>
    let b := fillInv o (fillFac o (M a))
    (Function.update M a b, .lik (o.lik (o.md2 b.invV b.mean y) b.facV) (o.md2 b.invV b.mean y))
  | .logLikelihood a y =>
    let b := fillInv o (fillFac o (M a))
    (Function.update M a b, .lik (o.logLik (o.md2 b.invV b.mean y) b.facV) (o.md2 b.invV b.mean y))

/-- A sequence of calls. -/
def execAll (o : Ops x s i d f l m r) : (Nat → Obj x s i d f l) → List (Call x s i d f l) → Nat → Obj x s i d f l
  | M, [] => M
  | M, c :: cs => execAll o (exec o M c).1 cs

end RandomVec
end RFS
