import Verif.Model.Hungarian
import Mathlib.Analysis.SpecialFunctions.Pow.Real

/-!
Model of `rfs::OSPA` (include/OSPA.hpp 56-246) and `rfs::COLA` (include/COLA.hpp 73-96).

Simplifications: exact real arithmetic; `pow` is the real power; the sets enter only through the distances `d i j` of their
elements. Division by zero (both sets empty, order zero) is the explicit outcome `none` (not a number). The report printing is
left out.
-/

namespace RFS
namespace OSPA
open Hungarian (Mat)

/-- Members `c_`, `p_`, `C_`, `n1_`, `n2_`, `soln_`; `n_` is the parameter. -/
structure Obj (n : Nat) where
  c : ℝ
  p : ℝ
  C : Mat ℝ n
  n1 : Nat
  n2 : Nat
  soln : Fin n → Fin n

/-- Construction of the cost matrix, lines 140-163. -/
noncomputable def costMat (n1 n2 : Nat) (d : Fin n1 → Fin n2 → ℝ) (c : ℝ) : Mat ℝ (max n1 n2) := fun i j =>
  let base : ℝ := if h : i.val < n1 ∧ j.val < n2 then
      (if c < d ⟨i.val, h.1⟩ ⟨j.val, h.2⟩ then c else d ⟨i.val, h.1⟩ ⟨j.val, h.2⟩) else 0
  if n1 < max n1 n2 then (if n1 ≤ i.val then c else base)
  else if n2 < max n1 n2 then (if n2 ≤ j.val then c else base)
  else base

/-- Constructor, lines 125-178. `none` if the solver fails. -/
noncomputable def make (n1 n2 : Nat) (d : Fin n1 → Fin n2 → ℝ) (c p : ℝ) (fuel : Nat) : Option (Obj (max n1 n2)) :=
  match Hungarian.run (costMat n1 n2 d c) false fuel with
  | .solved soln _ C => some ⟨c, p, C, n1, n2, soln⟩
  | _ => none

/-- What `calcError` returns, and the values behind the output pointers (if not null). -/
structure Err where
  value : Option ℝ
  dist : Option ℝ
  card : Option ℝ

variable {n : Nat}

open Classical in
/-- `OSPA::calcError`, lines 183-204; `hasDist`, `hasCard`: the pointers are not null. -/
noncomputable def calcError (o : Obj n) (hasDist hasCard : Bool) : Err :=
  let card : ℝ := ∑ i, if o.C i (o.soln i) = o.c ∧ hasCard then o.C i (o.soln i) else 0
  let dist : ℝ := ∑ i, if o.C i (o.soln i) = o.c ∧ hasCard then 0 else o.C i (o.soln i)
  let cost : ℝ := ∑ i, o.C i (o.soln i) ^ o.p
  { value := if n = 0 ∨ o.p = 0 then none else some ((cost / n) ^ (1 / o.p))
    dist := if hasDist then some dist else none
    card := if hasCard then some card else none }

/-- `OSPA::getOptAssignment(set1Idx, cost)`, lines 233-246: `none` is `-1`. -/
def getOptAssignment (o : Obj n) (i : Nat) (hn : o.n1 ≤ n) : Option (Nat × ℝ) :=
  if h : i < o.n1 then
    let j := o.soln ⟨i, by omega⟩
    if o.n2 ≤ j.val then none else some (j.val, o.C ⟨i, by omega⟩ j)
  else none

/-- `COLA::calcError`, include/COLA.hpp 87-96. -/
noncomputable def colaError (o : Obj n) (hasDist hasCard : Bool) : Err :=
  let e := calcError o hasDist hasCard
  { e with value := e.value.bind fun v => if o.c = 0 then none else some (v * (n : ℝ) ^ (1 / o.p) / o.c) }

end OSPA
end RFS
