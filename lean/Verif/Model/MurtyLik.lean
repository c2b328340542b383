import Verif.Model.Murty
import Mathlib.Analysis.SpecialFunctions.Exp

/-!
Model of the way the filters use `rfs::Murty` on a partition of the table of likelihoods: the extended matrix of `RBPHDFilter::rfsMeasurementLikelihood`
(include/RBPHDFilter.hpp 923-962) and the sum over the best assignments. `RBCBMeMBerFilter`, `RFSPSOSLAM`, `RFSCeresSLAM` contain the same loops.

Entries are finite numbers: a partition with a detection probability of 1 or a clutter intensity of 0, whose matrix has entries `-inf`, is not covered.
-/

namespace RFS
namespace MurtyLik
open Hungarian (Mat)
open Murty

/-- The matrix given to `Murty`, RBPHDFilter.hpp 925-950. `Lg`: the logarithms of the likelihoods; `miss`: `log(1 - Pd)`; `clut`: the logarithms of the clutter
intensities; `bot`: `BIG_NEG_NUM`. -/
def extMatrix {K : Type*} [Zero K] {nR nC : Nat} (Lg : Fin nR → Fin nC → K) (miss : Fin nR → K) (clut : Fin nC → K) (bot : K) : Mat K (nR + nC) := fun i j =>
  if hi : i.val < nR then
    if hj : j.val < nC then Lg ⟨i.val, hi⟩ ⟨j.val, hj⟩ else if i.val = j.val - nC then miss ⟨i.val, hi⟩ else bot
  else if hj : j.val < nC then if i.val - nR = j.val then clut ⟨j.val, hj⟩ else bot
  else 0

/-- The loop of lines 957-962; `bot`: `BIG_NEG_NUM`. `none`: undefined behaviour. -/
noncomputable def sumLoop {n : Nat} (Q : PQ ℝ n) (prm : Prm ℝ n) (bot : ℝ) : Nat → St ℝ n Q → ℝ → Option ℝ
  | 0, _, acc => some acc
  | k + 1, st, acc =>
    match findNextBest Q prm st with
    | (.ub, _) => none
    | (.noMore, _) => some acc
    | (.found _ _ s, st') => if s < bot then some acc else sumLoop Q prm bot k st' (acc + Real.exp s)

/-- `partition_likelihood` through Murty's algorithm, lines 923-962: at most `cnt` (200) assignments. `big`: `Murty::bigNumber_`. -/
noncomputable def partition {nR nC : Nat} (Q : PQ ℝ (nR + nC)) (Lg : Fin nR → Fin nC → ℝ) (miss : Fin nR → ℝ) (clut : Fin nC → ℝ) (bot big : ℝ) (fuel cnt : Nat) : Option ℝ :=
  sumLoop Q (Prm.make (extMatrix Lg miss clut bot) big (some (nR, nC)) fuel) bot cnt (start Q) 0

end MurtyLik
end RFS
