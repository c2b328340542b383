import Verif.Model.Partition
import Verif.Model.PermLex
import Verif.Model.MurtyLik
import Mathlib.Analysis.SpecialFunctions.Log.Basic

/-!
Model of `RBPHDFilter::rfsMeasurementLikelihood` (include/RBPHDFilter.hpp 824-1000) from the filled likelihood table on (line 868).

Exact real arithmetic; `log(0)` is `⊥` (minus infinity) and `exp` of it is 0. Sums accumulated in loops are written as sums of lists. The
partitioning and the lexicographic enumeration are the models of `CostMatrixGeneral` and `PermutationLexicographic`. The value obtained
through Murty's algorithm (lines 923-962) for partitions of more than 8 rows and columns is a parameter, for which `murtyBlock` is the function of the code.
-/

namespace RFS
namespace RFSLik
open Partition

/-- `log` of a number that is not negative. -/
noncomputable def lg (x : ℝ) : WithBot ℝ := if x = 0 then ⊥ else ((Real.log x : ℝ) : WithBot ℝ)

/-- `exp`. -/
noncomputable def ex : WithBot ℝ → ℝ
  | none => 0
  | some x => Real.exp x

/-- `BIG_NEG_NUM`, line 871. -/
noncomputable def bigNeg : WithBot ℝ := ((-1000 : ℝ) : WithBot ℝ)

/-- Lines 910-920: logarithm of an entry, not below `BIG_NEG_NUM`. -/
noncomputable def logEntry (x : ℝ) : WithBot ℝ := if x = 0 then bigNeg else if lg x < bigNeg then bigNeg else lg x

variable {nM nZ : Nat}

/-- Contribution of row `r` of the partition when the permutation has `j` in its place, lines 975-981. -/
noncomputable def rowTerm (L : Fin nM → Fin nZ → ℝ) (pd : Fin nM → ℝ) (cols : List (Fin nZ)) (r : Fin nM) (j : Nat) : WithBot ℝ :=
  match cols[j]? with
  | some c => logEntry (L r c)
  | none => lg (1 - pd r)

/-- Contribution of a place beyond the rows, lines 982-986. -/
noncomputable def clutTerm (clut : Fin nZ → ℝ) (cols : List (Fin nZ)) (j : Nat) : WithBot ℝ :=
  match cols[j]? with
  | some c => lg (clut c)
  | none => 0

/-- `permutation_log_likelihood` of the permutation `o`, lines 974-986. -/
noncomputable def permTerm (L : Fin nM → Fin nZ → ℝ) (pd : Fin nM → ℝ) (clut : Fin nZ → ℝ) (rows : List (Fin nM)) (cols : List (Fin nZ))
    (o : List Nat) : WithBot ℝ :=
  ((rows.zip o).map fun x => rowTerm L pd cols x.1 x.2).sum + ((o.drop rows.length).map (clutTerm clut cols)).sum

/-- The loop of lines 971-989; `none`: undefined behaviour or no end. -/
noncomputable def lexLoop (val : List Nat → ℝ) : Nat → PermLex.St → ℝ → Option ℝ
  | 0, _, _ => none
  | fuel + 1, st, acc =>
    match PermLex.next st with
    | none => none
    | some (o, n, st') => if n = 0 then some acc else lexLoop val fuel st' (acc + val o)

open Classical in
/-- `partition_likelihood` through Murty's algorithm, lines 923-962; `big`: `Murty::bigNumber_`. `none`: undefined behaviour, or an entry `log(0)` for a missed
detection or clutter, which is outside the model of `Murty`. -/
noncomputable def murtyBlock (Q : ∀ n, Murty.PQ ℝ n) (big : ℝ) (fuel : Nat) (L : Fin nM → Fin nZ → ℝ) (pd : Fin nM → ℝ) (clut : Fin nZ → ℝ) (rows : List (Fin nM))
    (cols : List (Fin nZ)) : Option ℝ :=
  if (∃ r ∈ rows, pd r = 1) ∨ ∃ c ∈ cols, clut c = 0 then none
  else MurtyLik.partition (Q (rows.length + cols.length)) (fun i j => (logEntry (L (rows.get i) (cols.get j))).unbotD 0) (fun i => Real.log (1 - pd (rows.get i)))
    (fun j => Real.log (clut (cols.get j))) (-1000) big fuel 200

/-- `partition_likelihood` of partition `p`, lines 880-993. -/
noncomputable def partLik (L : Fin nM → Fin nZ → ℝ) (pd : Fin nM → ℝ) (clut : Fin nZ → ℝ) (murty : List (Fin nM) → List (Fin nZ) → Option ℝ) (fuel : Nat)
    (o : Obj nM nZ) (p : Nat) : Option ℝ :=
  let sz := getPartitionSize o p
  let useMurty := if sz.2.1 + sz.2.2 ≤ 8 ∨ sz.1 = false then false else true
  let part := (getPartition L o p useMurty).1
  if part.flag = false then some ((part.rows.map pd).prod * (part.cols.map clut).prod)
  else if useMurty then murty part.rows part.cols
  else lexLoop (fun o => ex (permTerm L pd clut part.rows part.cols o)) fuel (PermLex.init part.rows.length part.cols.length true) 0

/-- Product over the partitions, lines 877-997. -/
noncomputable def prodLik (f : Nat → Option ℝ) : Nat → Option ℝ
  | 0 => some 1
  | n + 1 => (prodLik f n).bind fun l => (f n).map fun x => l * x

/-- `rfsMeasurementLikelihood`; `ncc`, `lab`: result of the library call for the connected components; `integral`:
`clutterIntensityIntegral`. -/
noncomputable def rfsLik (L : Fin nM → Fin nZ → ℝ) (pd : Fin nM → ℝ) (clut : Fin nZ → ℝ) (integral : ℝ) (murty : List (Fin nM) → List (Fin nZ) → Option ℝ)
    (fuel ncc : Nat) (lab : Fin nM ⊕ Fin nZ → Nat) : Option ℝ :=
  (partition ncc lab none).bind fun o => (prodLik (partLik L pd clut murty fuel o) o.nP).map fun l => l / integral

end RFSLik
end RFS
