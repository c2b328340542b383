import Verif.Model.RFSLikelihood

/-!
Model of `RFSCeresSLAM::rfsMeasurementLikelihood(k, ...)` (include/RFSCeresSLAM.hpp 560-866), the likelihood of one scan and its gradients;
the sum over the scans (519-558) uses the logarithmic version of `Verif.Model.BatchLik` instead.

Simplifications: exact real arithmetic, except that `exp` is taken for 0 below half the smallest double (`tiny`); gradients are modelled one
coordinate at a time; partitions of more than eight rows and columns (Murty's algorithm, 713-780) are arguments. The bookkeeping of
partitions and permutations is that of `Verif.Model.RFSLikelihood`, whose code is the same (line by line 664-675, 693-712, 783-811, 850-864).
-/

namespace RFS
namespace CeresLin
open Partition
open RFSLik (permTerm ex partLik prodLik)

/-- `Pd` of every landmark, line 593: the value of line 592 is overwritten. -/
noncomputable def used (_model : ℝ) : ℝ := 9 / 10

/-- `clutter[n]`, lines 607-614. `da`: the known association; `ci`: clutter intensity. -/
noncomputable def clut (da : Int) (ci : ℝ) : ℝ := if da = -1 then ci else if da = -2 then 1 else 0

/-- `L[m][n]`, lines 650-662; `g`: Gaussian likelihood, `pd`: probability of detection. -/
noncomputable def entry (da : Int) (m : Nat) (g pd thr : ℝ) : ℝ :=
  if da ≠ m ∧ da ≠ -1 then 0
  else
    let x := if 0 ≤ da then g else g * pd
    if x < thr then 0 else x

/-- A gradient stored for a pair, lines 663-672; `d`: derivative of the logarithm of the Gaussian likelihood. -/
noncomputable def store (da : Int) (m : Nat) (g pd thr d : ℝ) : Option ℝ :=
  if da ≠ m ∧ da ≠ -1 then none
  else
    let x := if 0 ≤ da then g else g * pd
    if x < thr then none else some (x * d)

/-- Results of `exp` not above this number are 0. -/
noncomputable def tiny : ℝ := 1 / 2 ^ 1075

variable {nM nZ : Nat}

/-- The gradients read for a permutation, lines 816-817: `none` for an exception of `.at`; 0 for a row without a measurement. -/
noncomputable def reads (s : Fin nM → Fin nZ → Option ℝ) (cols : List (Fin nZ)) (r : Fin nM) (j : Nat) : Option ℝ :=
  match cols[j]? with
  | some c => s r c
  | none => some 0

open Classical in
/-- What a permutation `o` with likelihood `w` adds to the sum over the rows chosen by `sel`, lines 811-828. -/
noncomputable def permGrad (s : Fin nM → Fin nZ → Option ℝ) (rows : List (Fin nM)) (cols : List (Fin nZ)) (sel : Fin nM → Bool) (w : ℝ) (o : List Nat) : Option ℝ :=
  if w ≤ tiny then some 0
  else if ∀ x ∈ rows.zip o, (reads s cols x.1 x.2).isSome then
    some (((rows.zip o).map fun x => if sel x.1 then (reads s cols x.1 x.2).getD 0 * w else 0).sum)
  else none

/-- The loop of lines 793-834; `none`: exception, undefined behaviour or no end. -/
noncomputable def gradLoop (val : List Nat → Option ℝ) : Nat → PermLex.St → ℝ → Option ℝ
  | 0, _, _ => none
  | fuel + 1, st, acc =>
    match PermLex.next st with
    | none => none
    | some (o, n, st') => if n = 0 then some acc else (val o).bind fun v => gradLoop val fuel st' (acc + v)

open Classical in
/-- Gradient for the chosen rows of a partition of at most eight rows and columns with likelihood `pl`, lines 793-834 and 847-853. -/
noncomputable def blockGrad (L : Fin nM → Fin nZ → ℝ) (pd : Fin nM → ℝ) (cl : Fin nZ → ℝ) (s : Fin nM → Fin nZ → Option ℝ) (fuel : Nat) (rows : List (Fin nM))
    (cols : List (Fin nZ)) (sel : Fin nM → Bool) (pl : ℝ) : Option ℝ :=
  (gradLoop (fun o => permGrad s rows cols sel (ex (permTerm L pd cl rows cols o)) o) fuel (PermLex.init rows.length cols.length true) 0).map fun v =>
    if 0 < pl then v / pl else v

/-- What a scan looks like to the function: Gaussian likelihoods, detection probabilities of the measurement model, clutter intensities, known associations,
threshold and integral of the clutter intensity. -/
structure Scan (nM nZ : Nat) where
  g : Fin nM → Fin nZ → ℝ
  pd : Fin nM → ℝ
  ci : Fin nZ → ℝ
  da : Fin nZ → Int
  thr : ℝ
  integral : ℝ

/-- The table of lines 638-676. -/
noncomputable def Scan.table (S : Scan nM nZ) (m : Fin nM) (n : Fin nZ) : ℝ := entry (S.da n) m (S.g m n) (used (S.pd m)) S.thr

/-- The returned value, lines 605-623 and 679-864; all the landmarks are in view. -/
noncomputable def lik (S : Scan nM nZ) (murty : List (Fin nM) → List (Fin nZ) → Option ℝ) (fuel ncc : Nat) (lab : Fin nM ⊕ Fin nZ → Nat) : Option ℝ :=
  let cl := fun n => clut (S.da n) (S.ci n)
  if nM = 0 then some (∏ n, cl n)
  else (partition ncc lab none).bind fun o => (prodLik (partLik S.table (fun m => used (S.pd m)) cl murty fuel o) o.nP).map fun l => l / S.integral

end CeresLin
end RFS
