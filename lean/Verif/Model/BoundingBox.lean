import Mathlib.Data.Real.Sqrt
import Mathlib.LinearAlgebra.Matrix.Notation
import Mathlib.Data.Fintype.BigOperators

/-!
Model of `rfs::Landmark::getBoundingBox` (include/Landmark.hpp, lines 153-188), for landmarks of `n+1` components. `pos i` says that component `i`
is of type `VEC_COMPONENT_POSITION`. Exact real arithmetic; `sqrt` of a negative number (NaN in C++) is 0 here, which no theorem relies on.
-/

namespace RFS
namespace BoundingBox

variable {n : Nat}

/-- `rowSum[i]`, lines 168-179. -/
noncomputable def rowSum (pos : Fin (n + 1) → Bool) (S : Matrix (Fin (n + 1)) (Fin (n + 1)) ℝ) (i : Fin (n + 1)) : ℝ :=
  ∑ j, if pos i ∧ pos j then S i j else 0

/-- `colSum[j]`. -/
noncomputable def colSum (pos : Fin (n + 1) → Bool) (S : Matrix (Fin (n + 1)) (Fin (n + 1)) ℝ) (j : Fin (n + 1)) : ℝ :=
  ∑ i, if pos i ∧ pos j then S i j else 0

/-- `std::max_element`, lines 180-181. -/
noncomputable def maxElem (f : Fin (n + 1) → ℝ) : ℝ := Finset.univ.sup' Finset.univ_nonempty f

/-- `l`, line 182: the size of the box in every dimension. -/
noncomputable def size (pos : Fin (n + 1) → Bool) (S : Matrix (Fin (n + 1)) (Fin (n + 1)) ℝ) (mult : ℝ) : ℝ :=
  2 * mult * √(min (maxElem (rowSum pos S)) (maxElem (colSum pos S)))

end BoundingBox
end RFS
