import Verif.Model.Hungarian
import Mathlib.Data.Multiset.Basic
import Mathlib.Algebra.BigOperators.Fin

/-!
Model of `rfs::Murty` (include/MurtyAlgorithm.hpp, src/MurtyAlgorithm.cpp 107-336).

Simplifications: exact arithmetic over an ordered field; the loops computing sums are finite sums; the tree of nodes is
represented by each node carrying the list of its ancestors' (partition id, assignment), nearest first. The priority queue
is any structure meeting the contract of `std::priority_queue` (`PQ`), so ties are broken arbitrarily. The inner solver is
the model of `HungarianMethod::run`, with its fuel. Uninitialised reads and out-of-bounds accesses are the outcome `ub`. The
counter `k_` is unbounded.
-/

namespace RFS
namespace Murty
open Hungarian (Mat)

variable {K : Type*} [Field K] [LinearOrder K]

/-- `class MurtyNode`, include/MurtyAlgorithm.hpp 105-146; `chain` is what `getParent` gives access to. -/
structure Node (K : Type*) (n : Nat) where
  id : Nat
  a : Fin n → Fin n
  s : K
  chain : List (Nat × (Fin n → Fin n))

/-- Contract of `std::priority_queue<MurtyNode*, ..., MurtyNodeCompare>`: `pop` combines `top` and `pop`, and yields an element
with the greatest score. -/
structure PQ (K : Type*) [LinearOrder K] (n : Nat) where
  H : Type
  empty : H
  push : H → Node K n → H
  pop : H → Option (Node K n × H)
  elems : H → Multiset (Node K n)
  elems_empty : elems empty = 0
  elems_push : ∀ h x, elems (push h x) = x ::ₘ elems h
  pop_none : ∀ h, pop h = none → elems h = 0
  pop_some : ∀ h x h', pop h = some (x, h') → elems h = x ::ₘ elems h' ∧ ∀ y ∈ elems h, y.s ≤ x.s

/-- The members that do not change after construction: `C_`, `bigNumber_`, `realAssign_nR_`, `realAssign_nC_`; and the fuel of
the solver. -/
structure Prm (K : Type*) (n : Nat) where
  C : Mat K n
  big : K
  nR : Nat
  nC : Nat
  fuel : Nat

/-- Constructor (lines 107-120) and `setRealAssignmentBlock` (128-135): the block is the whole matrix unless set, and is cut to
the size of the matrix. -/
def Prm.make {n : Nat} (C : Mat K n) (big : K) (block : Option (Nat × Nat)) (fuel : Nat) : Prm K n :=
  match block with
  | none => ⟨C, big, n, n, fuel⟩
  | some (r, c) => ⟨C, big, min r n, min c n, fuel⟩

/-- Columns not used by the fixed rows `< k`, ascending: `freeCol` and `colRemap`, lines 194-238. -/
def freeCols {n : Nat} (aP : Fin n → Fin n) (k : Nat) : List (Fin n) :=
  (List.finRange n).filter fun j => decide (∀ i : Fin n, i.val < k → aP i ≠ j)

/-- The loop of lines 247-265. `pid` is the partition id of the new node, `cur` that of the node the loop is at; the first
element of the list is the parent of the latter. -/
def forbid {n m : Nat} (prm : Prm K n) (k pid : Nat) (fc : List (Fin n)) :
    Nat → List (Nat × (Fin n → Fin n)) → Mat K m → Option (Mat K m)
  | _, [], _ => none
  | cur, (nid, na) :: rest, M =>
    if h : cur < n then
      let i := cur - k
      let j := fc.idxOf (na ⟨cur, h⟩)
      if hij : k ≤ cur ∧ i < m ∧ j < m ∧ na ⟨cur, h⟩ ∈ fc then
        let row : Fin m := ⟨i, hij.2.1⟩
        let M1 := Function.update M row (Function.update (M row) ⟨j, hij.2.2.1⟩ (-prm.big))
        let M2 := if prm.nC ≤ j then
            Function.update M1 row (fun y => if prm.nC ≤ y.val then -prm.big else M1 row y)
          else M1
        if rest ≠ [] ∧ pid ≤ nid then forbid prm k pid fc nid rest M2 else some M2
      else none
    else none

/-- Outcome of building one child. -/
inductive Child (K : Type*) (n : Nat) where
  | ub
  | impossible
  | node (x : Node K n)

/-- Body of the loop over partitions, lines 190-321: the child with partition id `k`. -/
def child {n : Nat} (prm : Prm K n) (parent : Node K n) (k : Nat) : Child K n :=
  let fc := freeCols parent.a k
  if hlen : fc.length = n - k ∧ k < n then
    let fixedScore : K := ∑ i : Fin n, if i.val < k then prm.C i (parent.a i) else 0
    let M0 : Mat K (n - k) := fun r c => prm.C ⟨k + r.val, by omega⟩ (fc.get (c.cast hlen.1.symm))
    let chain := (parent.id, parent.a) :: parent.chain
    match forbid prm k k fc k chain M0 with
    | none => .ub
    | some M =>
      if ∃ c : Fin (n - k), M ⟨0, by omega⟩ c ≠ -prm.big then
        match Hungarian.run M true prm.fuel with
        | .solved soln _ _ =>
          let a : Fin n → Fin n := fun i =>
            if h : i.val < k then parent.a i
            else fc.get ((soln ⟨i.val - k, by omega⟩).cast hlen.1.symm)
          let more : K := ∑ r : Fin (n - k), prm.C ⟨k + r.val, by omega⟩ (a ⟨k + r.val, by omega⟩)
          .node ⟨k, a, more + fixedScore, chain⟩
        | _ => .ub
      else .impossible
  else .ub

/-- Members that change: `k_`, `pq`, `bestScore_`. -/
structure St (K : Type*) [LinearOrder K] (n : Nat) (Q : PQ K n) where
  k : Nat
  pq : Q.H
  best : K

/-- Initial state, lines 107-120. -/
def start {n : Nat} (Q : PQ K n) : St K n Q := ⟨0, Q.empty, 0⟩

/-- What a call returns: the rank and the assignment with its score, or `-1` with no assignment and score 0. -/
inductive Ret (K : Type*) (n : Nat) where
  | found (rank : Nat) (a : Fin n → Fin n) (score : K)
  | noMore
  | ub

/-- Lines 178-186: one past the last partition id of the children. -/
def partitionMax {n : Nat} (prm : Prm K n) : Nat := if prm.nR = n then n - 1 else prm.nR

/-- The loop over the partitions, lines 188-323: push the children that have a solution. `none` is undefined behaviour. -/
def expand {n : Nat} (Q : PQ K n) (prm : Prm K n) (parent : Node K n) : List Nat → Q.H → Option Q.H
  | [], h => some h
  | k :: ks, h =>
    match child prm parent k with
    | .ub => none
    | .impossible => expand Q prm parent ks h
    | .node x => expand Q prm parent ks (Q.push h x)

/-- `Murty::findNextBest`, lines 141-336. -/
def findNextBest {n : Nat} (Q : PQ K n) (prm : Prm K n) (st : St K n Q) : Ret K n × St K n Q :=
  if st.k = 0 then
    match Hungarian.run prm.C true prm.fuel with
    | .solved soln cost _ => (.found 1 soln cost, ⟨1, Q.push st.pq ⟨0, soln, cost, []⟩, cost⟩)
    | _ => (.ub, st)
  else
    match Q.pop st.pq with
    | none => (.noMore, st)
    | some (parent, h) =>
      match expand Q prm parent ((List.range (partitionMax prm)).drop parent.id) h with
      | none => (.ub, st)
      | some h' =>
        match Q.pop h' with
        | none => (.noMore, { st with pq := h' })
        | some (x, _) => (.found (st.k + 1) x.a x.s, { st with k := st.k + 1, pq := h' })

/-- What the `i`-th call (counting from 0) returns. -/
def call {n : Nat} (Q : PQ K n) (prm : Prm K n) : St K n Q → Nat → Ret K n
  | st, 0 => (findNextBest Q prm st).1
  | st, i + 1 => call Q prm (findNextBest Q prm st).2 i

end Murty
end RFS
