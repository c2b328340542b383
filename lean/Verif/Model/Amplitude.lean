import Mathlib.Logic.Function.Basic

/-!
Model of the data members of `rfs::Measurement2d_amplitude` (include/Measurement_amplitude.hpp): which of them constructors and assignment set.
`none` is a member that was never initialised; reading it is undefined.
-/

namespace RFS
namespace Amplitude

/-- Lines 86-89; `base` stands for the `Measurement2d` part. -/
structure Meas (B K : Type) where
  base : B
  amp : Option K
  mean : Option K
  cov : Option K

variable {B K : Type}

/-- The constructors of lines 14-38, `ten` and `two` being the constants. -/
def construct (one ten two : K) (b : B) : Meas B K := ⟨b, some one, some ten, some two⟩

/-- Copy constructor, lines 43-46. -/
def copy (o : Meas B K) : Meas B K := ⟨o.base, o.amp, none, none⟩

/-- Assignment, lines 52-56. -/
def assign (lhs rhs : Meas B K) : Meas B K := { lhs with base := rhs.base, amp := rhs.amp }

/-- `setAmplitude`, lines 61-63. -/
def setAmplitude (o : Meas B K) (a : K) : Meas B K := { o with amp := some a }

/-- `evalGaussianLikelihood`, lines 78-82: `lik` combines the two measurement parts, the amplitude, mean and variance; `none` if a member that
was never initialised is read. -/
def eval {R : Type} (lik : B → B → K → K → K → R) (o x : Meas B K) : Option R :=
  x.amp.bind fun a => o.mean.bind fun m => o.cov.map fun c => lik o.base x.base a m c

/-- Calls of a program working on measurements in numbered places. -/
inductive Call (B K : Type) where
  | construct (p : Nat) (b : B)
  | copy (p q : Nat)
  | assign (p q : Nat)
  | setAmplitude (p : Nat) (a : K)

def exec (one ten two : K) (M : Nat → Meas B K) : Call B K → Nat → Meas B K
  | .construct p b => Function.update M p (construct one ten two b)
  | .copy p q => Function.update M p (copy (M q))
  | .assign p q => Function.update M p (assign (M p) (M q))
  | .setAmplitude p a => Function.update M p (setAmplitude (M p) a)

end Amplitude
end RFS
