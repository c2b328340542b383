import Verif.Model.LMB
import Verif.Model.MurtyLik

/-!
Model of the branch of `RBLMBFilter::updateMap` that uses Murty's algorithm (include/RBLMBFilter.hpp 714-771): the list of assignments that `Verif.Model.LMB` has as a parameter.
-/

namespace RFS
namespace LMB
open GM GMB CBM Partition RFSLik

/-- The results that the loop of lines 748-752 goes through, at most `k` of them, with their log-likelihoods. `none`: undefined behaviour. -/
noncomputable def results {n : Nat} (Q : Murty.PQ ℝ n) (prm : Murty.Prm ℝ n) (bot : ℝ) : Nat → Murty.St ℝ n Q → Option (List ((Fin n → Fin n) × ℝ))
  | 0, _ => some []
  | k + 1, st =>
    match Murty.findNextBest Q prm st with
    | (.ub, _) => none
    | (.noMore, _) => some []
    | (.found _ a s, st') => if s < bot then some [] else (results Q prm bot k st').map ((a, s) :: ·)

variable {n nZ : Nat}

/-- Lines 701-752: the results for a partition; the clutter entries are 0 (729), the entries for missed detections `log(1 - Pd Pe)` (720). -/
noncomputable def blockResults (Q : ∀ n, Murty.PQ ℝ n) (big : ℝ) (fuel : Nat) (L : Fin n → Fin nZ → ℝ) (pd pe : Fin n → ℝ) (rows : List (Fin n)) (cols : List (Fin nZ)) :
    Option (List ((Fin (rows.length + cols.length) → Fin (rows.length + cols.length)) × ℝ)) :=
  results (Q (rows.length + cols.length))
    (Murty.Prm.make (MurtyLik.extMatrix (fun i j => (logEntry (L (rows.get i) (cols.get j))).unbotD 0) (fun i => Real.log (1 - pd (rows.get i) * pe (rows.get i))) (fun _ => 0) (-1000))
      big (some (rows.length, cols.length)) fuel) (-1000) 200 (Murty.start _)

/-- The assignments `a` as lists and their likelihoods `exp(permutation_log_likelihood)`, lines 753-768. -/
noncomputable def murtyOf (Q : ∀ n, Murty.PQ ℝ n) (big : ℝ) (fuel : Nat) (L : Fin n → Fin nZ → ℝ) (pd pe : Fin n → ℝ) (rows : List (Fin n)) (cols : List (Fin nZ)) : List (List Nat × ℝ) :=
  ((blockResults Q big fuel L pd pe rows cols).getD []).map fun x => (List.ofFn fun i => (x.1 i).val, Real.exp x.2)

end LMB
end RFS
