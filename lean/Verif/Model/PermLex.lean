/-!
Model of `rfs::PermutationLexicographic` (include/PermutationLexicographic.hpp, src/PermutationLexicographic.cpp).

Simplifications: the sizes are natural numbers (the comparisons `int < unsigned` of the copy loops are exact for sizes below
`2^31`); the array is a list. Unsigned wrap-around is modelled where it matters: the counter `nP_`, and `oSize_ - 1` for an
empty array. Out-of-bounds access is the outcome `none`.
-/

namespace RFS
namespace PermLex

/-- Replace the first entry greater than `a` of the reversed suffix by `a`; returns the entry replaced. Part of
`nextPerm`. -/
def bump (a : Nat) : List Nat → Option (Nat × List Nat)
  | [] => none
  | x :: l => if a < x then some (x, a :: l) else (bump a l).map fun p => (p.1, x :: p.2)

/-- `std::next_permutation`, called in src/PermutationLexicographic.cpp 92: find the rightmost position followed by a larger
entry, exchange it with the rightmost larger entry, reverse what follows. `none` is the return value `false`. -/
def nextPerm : List Nat → Option (List Nat)
  | [] => none
  | a :: l =>
    match nextPerm l with
    | some l' => some (a :: l')
    | none => (bump a l.reverse).map fun p => p.1 :: p.2

/-- Members of the class, include/PermutationLexicographic.hpp 73-78 (`oSize_` is the length of `o`). -/
structure St where
  o : List Nat
  nM : Nat
  nZ : Nat
  nP : Nat
  last : Bool

/-- Constructor, src/PermutationLexicographic.cpp 38-62. -/
def init (nM nZ : Nat) (includeClutter : Bool) : St :=
  let includeClutter := if nM ≠ nZ then true else includeClutter
  let oSize := if includeClutter then nM + nZ else nM
  { o := (List.range oSize).map fun i => if i < nZ then i else nZ, nM := nM, nZ := nZ, nP := 0, last := false }

/-- `std::swap(o_[u], o_[v])`; `none` when an index is out of bounds. -/
def swapAt (o : List Nat) (u v : Nat) : Option (List Nat) :=
  match o[u]?, o[v]? with
  | some x, some y => some ((o.set u y).set v x)
  | _, _ => none

/-- The loop of lines 86-90. -/
def revLoop (o : List Nat) (u v : Nat) : Option (List Nat) :=
  if u < v then
    match swapAt o u v with
    | some o' => revLoop o' (u + 1) (v - 1)
    | none => none
  else some o
termination_by v - u

/-- Number of values of `unsigned int`. -/
def uintMod : Nat := 2 ^ 32

/-- `PermutationLexicographic::next`, src/PermutationLexicographic.cpp 70-96: the array written, the value returned and the
new state. -/
def next (s : St) : Option (List Nat × Nat × St) :=
  if s.last then some (List.replicate s.o.length 0, 0, s)
  else
    match revLoop s.o s.nM (if s.o.length = 0 then uintMod - 1 else s.o.length - 1) with
    | none => none
    | some d =>
      let nP := (s.nP + 1) % uintMod
      match nextPerm d with
      | some o' => some (s.o, nP, { s with o := o', nP := nP })
      | none => some (s.o, nP, { s with o := d.reverse, nP := nP, last := true })

/-- What the `k`-th call (counting from 0) writes and returns. -/
def call (s : St) : Nat → Option (List Nat × Nat)
  | 0 => (next s).map fun r => (r.1, r.2.1)
  | k + 1 =>
    match next s with
    | some r => call r.2.2 k
    | none => none

end PermLex
end RFS
