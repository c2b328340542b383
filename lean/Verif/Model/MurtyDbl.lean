import Verif.Model.HungDbl
import Verif.Model.MurtyLik

/-!
Model of `Murty::findNextBest` (src/MurtyAlgorithm.cpp 141-336) with the rounding of `double`, and of the matrix that the
filters pass to it.

`Verif.Model.Murty` computes exactly; its parts without arithmetic (`freeCols`, `forbid`, `partitionMax`, the contract `PQ` of
the priority queue) are shared. Simplifications: those of `Verif.Model.HungDbl` and `Verif.Model.Murty` (except exact
arithmetic). Logarithms are inputs.
-/

namespace RFS
namespace MurtyDbl
open Hungarian

variable {K : Type*} [Field K] [LinearOrder K] {n : Nat}

/-- What the first call leaves in `assignment`, `score` and the caller's matrix. `unset`: the array `new int[n_]` and the
variable `double s` of lines 148 and 149 are handed out without ever having been written. -/
inductive First (K : Type*) (n : Nat) where
  | ok (assignment : Fin n → Fin n) (score : K) (C : Mat K n)
  | unset (C : Mat K n)
  | ub

/-- The first call, src/MurtyAlgorithm.cpp 147-158. The value returned by `lam_.run` is not looked at (line 150). When it is
`false`, `run` has written neither the assignment nor the cost, and leaves the matrix as preprocessed
(include/HungarianMethod.hpp 122-150, 516-523). -/
def first (rd : K → K) (C : Mat K n) (fuel : Nat) : First K n :=
  match HungDbl.run rd C true fuel with
  | .solved a s C' => .ok a s C'
  | .noPath => .unset (HungDbl.preprocess rd C true).1
  | _ => .ub

/-- The entry of the log-likelihood block, include/RBPHDFilter.hpp 910-920; `none` is likelihood zero, `BIG_NEG_NUM` is
-1000 (line 871). -/
def entry (l : Option K) : K :=
  match l with
  | none => -1000
  | some v => if v < -1000 then -1000 else v

/-- The matrix of `nRows` landmarks and `nCols` measurements, include/RBPHDFilter.hpp 907-950 (the same in
include/RFSPSOSLAM.hpp 846-888; in include/RBLMBFilter.hpp 700-742 the clutter entries are 0): `l` are the logarithms of the likelihoods, `miss` those of
`1 - Pd`, `clutter` those of the clutter intensities. -/
def extended {nRows nCols : Nat} (l : Fin nRows → Fin nCols → Option K) (miss : Fin nRows → K) (clutter : Fin nCols → K) :
    Mat K (nRows + nCols) :=
  MurtyLik.extMatrix (fun r c => entry (l r c)) miss clutter (-1000)

/-- Body of the loop over partitions, lines 190-321: the child with partition id `k`. When `lam_.run` returns `false` (line
292) the array `aTmp`, which was never written, is used as indices (lines 299-302): undefined behaviour. -/
def child (rd : K → K) (prm : Murty.Prm K n) (parent : Murty.Node K n) (k : Nat) : Murty.Child K n :=
  let fc := Murty.freeCols parent.a k
  if hlen : fc.length = n - k ∧ k < n then
    let fixedScore : K := (List.finRange n).foldl (fun s i => if i.val < k then rd (s + prm.C i (parent.a i)) else s) 0
    let M0 : Mat K (n - k) := fun r c => prm.C ⟨k + r.val, by omega⟩ (fc.get (c.cast hlen.1.symm))
    let chain := (parent.id, parent.a) :: parent.chain
    match Murty.forbid prm k k fc k chain M0 with
    | none => .ub
    | some M =>
      if ∃ c : Fin (n - k), M ⟨0, by omega⟩ c ≠ -prm.big then
        match HungDbl.run rd M true prm.fuel with
        | .solved soln _ _ =>
          let a : Fin n → Fin n := fun i =>
            if h : i.val < k then parent.a i
            else fc.get ((soln ⟨i.val - k, by omega⟩).cast hlen.1.symm)
          let more : K := (List.finRange (n - k)).foldl
            (fun s r => rd (s + prm.C ⟨k + r.val, by omega⟩ (a ⟨k + r.val, by omega⟩))) 0
          .node ⟨k, a, rd (more + fixedScore), chain⟩
        | _ => .ub
      else .impossible
  else .ub

/-- The loop over the partitions, lines 188-323. `none` is undefined behaviour. -/
def expand (rd : K → K) (Q : Murty.PQ K n) (prm : Murty.Prm K n) (parent : Murty.Node K n) : List Nat → Q.H → Option Q.H
  | [], h => some h
  | k :: ks, h =>
    match child rd prm parent k with
    | .ub => none
    | .impossible => expand rd Q prm parent ks h
    | .node x => expand rd Q prm parent ks (Q.push h x)

/-- Members that change: `k_`, `pq`, and the caller's matrix `C_`, which the first call alters. -/
structure St (K : Type*) [LinearOrder K] (n : Nat) (Q : Murty.PQ K n) where
  k : Nat
  pq : Q.H
  C : Mat K n

/-- `Murty::findNextBest`, lines 141-336. `ub` covers the values that were never written (`First.unset`). -/
def findNextBest (rd : K → K) (Q : Murty.PQ K n) (prm : Murty.Prm K n) (st : St K n Q) : Murty.Ret K n × St K n Q :=
  if st.k = 0 then
    match first rd st.C prm.fuel with
    | .ok a s C' => (.found 1 a s, ⟨1, Q.push st.pq ⟨0, a, s, []⟩, C'⟩)
    | _ => (.ub, st)
  else
    match Q.pop st.pq with
    | none => (.noMore, st)
    | some (parent, h) =>
      match expand rd Q { prm with C := st.C } parent ((List.range (Murty.partitionMax prm)).drop parent.id) h with
      | none => (.ub, st)
      | some h' =>
        match Q.pop h' with
        | none => (.noMore, { st with pq := h' })
        | some (x, _) => (.found (st.k + 1) x.a x.s, { st with k := st.k + 1, pq := h' })

/-- What the `i`-th call (counting from 0) returns. -/
def call (rd : K → K) (Q : Murty.PQ K n) (prm : Murty.Prm K n) : St K n Q → Nat → Murty.Ret K n
  | st, 0 => (findNextBest rd Q prm st).1
  | st, i + 1 => call rd Q prm (findNextBest rd Q prm st).2 i

/-- The constructor, lines 107-120. -/
def start (Q : Murty.PQ K n) (C : Mat K n) : St K n Q := ⟨0, Q.empty, C⟩

end MurtyDbl
end RFS
