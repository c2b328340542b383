import Mathlib.Order.Defs.LinearOrder
import Mathlib.Logic.Relation
import Mathlib.Data.List.FinRange

/-!
Model of `rfs::CostMatrixGeneral` (src/CostMatrix.cpp 36-231, include/CostMatrix.hpp 42-121).

Simplifications: `boost::connected_components` is a parameter, constrained by its documented contract (`IsComponents`): it
numbers the connected components of the graph `0 .. ncc-1`. The two arrays of vectors are functions of the slot number;
all accesses are below `ncc`. Matrix memory is reduced to the size of the block that was allocated, the contents being
determined by the index lists. The object needs at least one row or column (`nR_+nC_-1` wraps otherwise, line 106).
-/

namespace RFS
namespace Partition

variable {K : Type*} [LinearOrder K] {nR nC : Nat}

/-- Edges of the graph built in lines 99-105: row `i` and column `j` are joined when the entry is above the threshold. -/
inductive Edge (C : Fin nR → Fin nC → K) (thr : K) : Fin nR ⊕ Fin nC → Fin nR ⊕ Fin nC → Prop where
  | mk (i : Fin nR) (j : Fin nC) (h : thr < C i j) : Edge C thr (.inl i) (.inr j)

/-- Connectedness in the graph. -/
def Conn (C : Fin nR → Fin nC → K) (thr : K) : Fin nR ⊕ Fin nC → Fin nR ⊕ Fin nC → Prop := Relation.EqvGen (Edge C thr)

/-- Contract of `boost::connected_components` (line 109): a numbering of the components without gaps. `lab` is
`cc_results`. -/
structure IsComponents (C : Fin nR → Fin nC → K) (thr : K) (ncc : Nat) (lab : Fin nR ⊕ Fin nC → Nat) : Prop where
  lt : ∀ v, lab v < ncc
  onto : ∀ x < ncc, ∃ v, lab v = x
  conn : ∀ u v, lab u = lab v ↔ Conn C thr u v

/-- State of the merging loop: `components_i`, `components_j`, `combinedZeroPartition_`, `nMergedZeroPartitions`. -/
structure Comps (nR nC : Nat) where
  I : Nat → List (Fin nR)
  J : Nat → List (Fin nC)
  zero : Option Nat
  merged : Nat

/-- Lines 111-124: sort the vertices into their components. -/
def collect (lab : Fin nR ⊕ Fin nC → Nat) : Comps nR nC :=
  { I := fun x => (List.finRange nR).filter fun i => lab (.inl i) == x
    J := fun x => (List.finRange nC).filter fun j => lab (.inr j) == x
    zero := none
    merged := 0 }

/-- `components[n].swap(components[q])`. -/
def swapF {α : Type*} (f : Nat → α) (n q : Nat) : Nat → α :=
  fun p => if p = n then f q else if p = q then f n else f p

/-- The loop of lines 126-146. `none` is reading element 0 of an empty vector. -/
def mergeLoop (ncc : Nat) (s : Comps nR nC) (n : Nat) : Option (Comps nR nC) :=
  if n < ncc - s.merged then
    if s.I n = [] ∨ s.J n = [] then
      match s.zero with
      | none => mergeLoop ncc { s with zero := some n } (n + 1)
      | some z =>
        match s.I n, s.J n with
        | i :: _, _ =>
          let I := Function.update s.I z (s.I z ++ [i])
          mergeLoop ncc { I := swapF I n (ncc - (s.merged + 1)), J := swapF s.J n (ncc - (s.merged + 1)), zero := some z,
                          merged := s.merged + 1 } n
        | [], j :: _ =>
          let J := Function.update s.J z (s.J z ++ [j])
          mergeLoop ncc { I := swapF s.I n (ncc - (s.merged + 1)), J := swapF J n (ncc - (s.merged + 1)), zero := some z,
                          merged := s.merged + 1 } n
        | [], [] => none
    else mergeLoop ncc s (n + 1)
  else some s
termination_by ncc - s.merged - n

/-- The object after `partition()`: number of partitions, index lists, the zero partition, and for each partition the size
of the block allocated by `getPartition`, if any. -/
structure Obj (nR nC : Nat) where
  nP : Nat
  I : Nat → List (Fin nR)
  J : Nat → List (Fin nC)
  zero : Option Nat
  alloc : Nat → Option (Nat × Nat)

/-- `CostMatrixGeneral::partition`, lines 92-161. The object is `none` before the first call; later calls return the stored
number (lines 94-95). -/
def partition (ncc : Nat) (lab : Fin nR ⊕ Fin nC → Nat) (old : Option (Obj nR nC)) : Option (Obj nR nC) :=
  match old with
  | some o => some o
  | none =>
    match mergeLoop ncc (collect lab) 0 with
    | none => none
    | some s => some { nP := ncc - s.merged, I := s.I, J := s.J, zero := s.zero, alloc := fun _ => none }

/-- What `getPartition` hands out. -/
structure Part (K : Type*) (nR nC : Nat) where
  flag : Bool
  rows : List (Fin nR)
  cols : List (Fin nC)
  mat : Fin rows.length → Fin cols.length → K
  room : Nat × Nat

/-- `CostMatrixGeneral::getPartition`, lines 179-231 (after `partition()`), with the block size allocated. -/
def getPartition (C : Fin nR → Fin nC → K) (o : Obj nR nC) (p : Nat) (ext : Bool) : Part K nR nC × Obj nR nC :=
  let nr := (o.I p).length
  let nc := (o.J p).length
  let room := match o.alloc p with
    | some r => r
    | none => if ext then (nr + nc, nr + nc) else (nr, nc)
  ({ flag := decide (o.zero ≠ some p), rows := o.I p, cols := o.J p, mat := fun a b => C ((o.I p).get a) ((o.J p).get b),
     room := room }, { o with alloc := Function.update o.alloc p (some room) })

/-- `CostMatrixGeneral::getPartitionSize`, lines 164-177 (after `partition()`). -/
def getPartitionSize (o : Obj nR nC) (p : Nat) : Bool × Nat × Nat :=
  (decide (o.zero ≠ some p), (o.I p).length, (o.J p).length)

end Partition
end RFS
