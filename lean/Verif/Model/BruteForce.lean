import Verif.Model.PermLex
import Verif.Model.Hungarian

/-!
Model of `rfs::BruteForceLinearAssignment::run` (include/BruteForceAssignment.hpp, src/BruteForceAssignment.cpp 54-121).

Simplifications: exact arithmetic; memory management of the result arrays is left out; `int n` is a natural number; the
priority queue is a list of the elements pushed, and draining it is a function meeting the contract of
`std::priority_queue` (`IsDrain`), so ties are broken arbitrarily.
-/

namespace RFS
namespace BruteForce
open Hungarian (Mat)

variable {K : Type*} [Field K] [LinearOrder K] {n : Nat}

/-- One `struct assignment`, include/BruteForceAssignment.hpp 72-82. -/
abbrev Row (K : Type*) := List Nat × K

/-- Contract of popping a priority queue until it is empty: all elements, greatest score first. -/
def IsDrain (drain : List (Row K) → List (Row K)) : Prop :=
  ∀ q, (drain q).Perm q ∧ (drain q).Pairwise fun a b => b.2 ≤ a.2

/-- Lines 67-81: the offset while negating, starting from 0. -/
def offsetOf (C : Mat K n) : K :=
  (List.finRange n).foldl (fun o x => (List.finRange n).foldl (fun o y =>
    if C x y * (-1) < o then C x y * (-1) else o) o) 0

/-- The matrix and the offset after lines 66-81. The matrix is the caller's own. -/
def prepare (C : Mat K n) (maxToMin : Bool) : Mat K n × K :=
  if maxToMin then (C, 0) else (fun x y => C x y * (-1) - offsetOf C, offsetOf C)

/-- Lines 97-105: the score of one permutation; `none` for an index out of bounds. -/
def score (C : Mat K n) (offset : K) (maxToMin : Bool) (o : List Nat) : Option K :=
  (List.finRange n).foldlM (fun s i =>
    match o[i.val]? with
    | none => none
    | some j =>
      if h : j < n then
        some (if maxToMin then s + C i ⟨j, h⟩ else s - (C i ⟨j, h⟩ + offset))
      else none) 0

/-- The loop of lines 85-109. `none`: out of fuel or undefined behaviour. -/
def collect (C : Mat K n) (offset : K) (maxToMin : Bool) : Nat → PermLex.St → Nat → List (Row K) →
    Option (List (Row K) × Nat)
  | 0, _, _, _ => none
  | fuel + 1, lex, cnt, q =>
    match PermLex.next lex with
    | none => none
    | some (o, np, lex') =>
      if np = 0 then some (q, cnt)
      else
        match score C offset maxToMin o with
        | none => none
        | some s => collect C offset maxToMin fuel lex' np (q ++ [(o, s)])

/-- Everything a caller can see after `run`: the rows with their scores (`a`, `s`), the number returned, the caller's matrix
afterwards. -/
structure Result (K : Type*) (n : Nat) where
  rows : List (Row K)
  count : Nat
  C : Mat K n

/-- `BruteForceLinearAssignment::run`, lines 54-121. `none` also when the queue has fewer elements than `nAssignments_`
(`top` of an empty queue). -/
def run (drain : List (Row K) → List (Row K)) (C : Mat K n) (maxToMin : Bool) (fuel : Nat) : Option (Result K n) :=
  let p := prepare C maxToMin
  match collect p.1 p.2 maxToMin fuel (PermLex.init n n false) 0 [] with
  | none => none
  | some (q, cnt) => if cnt ≤ q.length then some ⟨(drain q).take cnt, cnt, p.1⟩ else none

end BruteForce
end RFS
