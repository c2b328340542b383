import Mathlib.Algebra.Field.Defs
import Mathlib.Data.List.FinRange
import Mathlib.Algebra.BigOperators.Fin

/-!
Model of `rfs::MatPerm::calc` (src/MatrixPermanent.cpp 41-113).

Simplifications: exact arithmetic in a field; the inner loops over `i` (row sums, products) are written as finite sums and
products. Reading or writing outside `g` is the outcome `ub`, and so is the overflow of the `int` loop counter `k`.
-/

namespace RFS
namespace MatPerm

variable {K : Type*} [Field K]

/-- Local variables of the main loop, lines 48-51. -/
structure St (K : Type*) (n : Nat) where
  x : Fin n → K
  g : Fin n → Bool
  s : K
  p : K

/-- Lines 48-68: everything before the main loop. -/
def init {n : Nat} (A : Fin n → Fin n → K) : St K n :=
  let x := fun i : Fin n => A i ⟨n - 1, Nat.sub_lt (Nat.pos_of_ne_zero (fun h => by subst h; exact i.elim0)) Nat.one_pos⟩
    - (1 / 2) * ∑ j, A i j
  { x := x, g := fun _ => false, s := -1, p := -1 * ∏ i, x i }

/-- Lines 72-85: the bit to flip. The `while` loop stops at the first set bit; `none` when it runs off the array or the
bit to flip is outside the array. -/
def flipIdx {n : Nat} (g : Fin n → Bool) (k : Nat) : Option (Fin n) :=
  if k % 2 = 0 then
    if h : 0 < n then some ⟨0, h⟩ else none
  else
    match (List.finRange n).find? (fun i => g i) with
    | none => none
    | some i => if h : i.val + 1 < n then some ⟨i.val + 1, h⟩ else none

/-- Lines 70-105, one round. -/
def step {n : Nat} (A : Fin n → Fin n → K) (st : St K n) (k : Nat) : Option (St K n) :=
  match flipIdx st.g k with
  | none => none
  | some j =>
    let s := st.s * -1
    let z : K := 1 - 2 * (if st.g j then 1 else 0)
    let g := Function.update st.g j (!st.g j)
    let x := fun i => st.x i + z * A i j
    some { x := x, g := g, s := s, p := st.p + s * ∏ i, x i }

/-- Lines 47-112 with an unbounded loop counter. -/
def core {n : Nat} (A : Fin n → Fin n → K) : Option K :=
  match (List.range (2 ^ (n - 1) - 1)).foldlM (fun st t => step A st (t + 2)) (init A) with
  | none => none
  | some st => some (if n % 2 ≠ 0 then 2 * st.p * -1 else 2 * st.p)

/-- Outcome of `calcPerm`. -/
inductive Out (K : Type*) where
  | notSquare
  | ub
  | val (p : K)

/-- `MatPerm::calc`, lines 41-113. `notSquare` is the return value `-DBL_MAX`. For `n >= 32` the counter `k` reaches
`INT_MAX` before the loop bound `pow(2, n-1)` and overflows. -/
def calcPerm {r c : Nat} (A : Fin r → Fin c → K) : Out K :=
  if h : r = c then
    if 2 ^ 31 ≤ 2 ^ (r - 1) then .ub
    else
      match core (fun i j => A i (j.cast h)) with
      | none => .ub
      | some p => .val p
  else .notSquare

end MatPerm
end RFS
