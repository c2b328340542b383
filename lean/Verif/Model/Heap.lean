import Mathlib.Data.Multiset.AddSub
import Mathlib.Algebra.Order.Group.Multiset
import Mathlib.Algebra.BigOperators.Group.List.Basic

/-!
Model of who allocates and frees which block of memory: the assignment classes (src/CostMatrix.cpp, src/BruteForceAssignment.cpp, src/PermutationLexicographic.cpp, constructor and destructor of `Murty`),
the data association of `FastSLAM::updateMap`, `RFSPSOSLAM::optimizeParticles` and the simulators that run the batch optimiser.

The heap is the multiset of the blocks that are allocated and not yet freed; a block is known by its number, a new block has a number that was never used before. Freeing a block that is not allocated
(`Err.badFree`), reading beyond an array (`Err.outOfBounds`), reading a `bool` that was never written (`Err.uninit`), following a null pointer (`Err.null`) and building a graph whose largest vertex is
`nR + nC - 1` for `nR + nC = 0` (`Err.graph`) are outcomes of their own.

Simplifications: only explicit `new` and `delete` are modelled, what `std::vector`, `boost::shared_ptr` and Eigen allocate themselves is left out, and so are the numbers stored in the arrays (they are modelled in
`Partition`, `CostMatrixReduce`, `BruteForce`); a destructor first lists the blocks it deletes, in order, and then deletes them.
-/

namespace RFS
namespace Heap

/-- Undefined behaviour. -/
inductive Err
  | badFree
  | outOfBounds
  | uninit
  | null
  | graph
deriving DecidableEq, Repr

/-- The heap: number of the next block, blocks allocated. -/
structure H where
  next : Nat
  live : Multiset Nat

/-- `new`. -/
def new (h : H) : Nat × H := (h.next, ⟨h.next + 1, h.next ::ₘ h.live⟩)

/-- `k` times `new`. -/
def newMany : Nat → H → List Nat × H
  | 0, h => ([], h)
  | k + 1, h =>
    let a := new h
    let b := newMany k a.2
    (a.1 :: b.1, b.2)

/-- `delete`. -/
def free (h : H) (p : Nat) : Except Err H := if p ∈ h.live then .ok ⟨h.next, h.live.erase p⟩ else .error .badFree

/-- `delete` of the blocks of a list, in order. -/
def freeMany (ps : List Nat) (h : H) : Except Err H := ps.foldlM free h

/-- A matrix: the array of row pointers and what it holds. -/
structure Mat where
  arr : Nat
  rows : List Nat
deriving DecidableEq

/-- `C = new double*[r]; for(i < r) C[i] = new double[..]`. -/
def newMat (r : Nat) (h : H) : Mat × H :=
  let a := new h
  let b := newMany r a.2
  (⟨a.1, b.1⟩, b.2)

/-- `for(i < r) delete[] C[i]; delete[] C`. -/
def Mat.deletes (m : Mat) (r : Nat) : Except Err (List Nat) := if r ≤ m.rows.length then .ok (m.rows.take r ++ [m.arr]) else .error .outOfBounds

/-! ### CostMatrixGeneral -/

/-- What is stored for partition `p`: `components_i[p].size()` and `components_j[p].size()`, the flag `components_extendedAllocate_[p]` (`none` before the first write), the pointers `components_mat[p]`,
`components_rowIdx[p]` and `components_colIdx[p]`, which are set together (src/CostMatrix.cpp 203-224; `none` is `NULL`). -/
structure PCell where
  size : Nat × Nat
  ext : Option Bool
  mat : Option (Mat × Nat × Nat)

/-- What `partition()` allocates (lines 114-121, 150-157): `components_i`, `components_j`, `components_mat`, `components_rowIdx`, `components_colIdx`, `components_extendedAllocate_`. -/
structure Parts where
  ci : Nat
  cj : Nat
  cm : Nat
  cr : Nat
  cc : Nat
  ce : Nat
  cells : List PCell

/-- `class CostMatrixGeneral`, include/CostMatrix.hpp 107-120. -/
structure Gen where
  nR : Nat
  nC : Nat
  C : Mat
  part : Option Parts

/-- Constructor, src/CostMatrix.cpp 12-28. -/
def Gen.new (nR nC : Nat) (h : H) : Gen × H :=
  let a := newMat nR h
  (⟨nR, nC, a.1, none⟩, a.2)

/-- The calls a user can make on a matrix: `partition()`, whose result on the entries of the matrix is the list `a :: as` of the sizes of the partitions (there is at least one, see C11), `getPartitionSize(p)`,
`getPartition(p, .., ext)`. -/
inductive Op
  | partition (a : Nat × Nat) (as : List (Nat × Nat))
  | size (p : Nat)
  | get (p : Nat) (ext : Bool)

/-- `CostMatrixGeneral::partition`, lines 90-161. -/
def Gen.partition (o : Gen) (l : List (Nat × Nat)) (h : H) : Except Err (Gen × H) :=
  match o.part with
  | some _ => .ok (o, h)
  | none =>
    if o.nR + o.nC = 0 then .error .graph else
    let i := Heap.new h
    let j := Heap.new i.2
    let m := Heap.new j.2
    let r := Heap.new m.2
    let c := Heap.new r.2
    let e := Heap.new c.2
    .ok ({ o with part := some ⟨i.1, j.1, m.1, r.1, c.1, e.1, l.map fun n => ⟨n, none, none⟩⟩ }, e.2)

/-- `CostMatrixGeneral::getPartitionSize`, lines 164-177: the test for `NULL` does not return. -/
def Gen.getSize (o : Gen) (p : Nat) : Except Err (Nat × Nat) :=
  match o.part with
  | none => .error .null
  | some s => match s.cells[p]? with
    | none => .error .outOfBounds
    | some c => .ok c.size

/-- `CostMatrixGeneral::getPartition`, lines 179-231. -/
def Gen.get (o : Gen) (p : Nat) (ext : Bool) (h : H) : Except Err (Gen × H) :=
  match o.part with
  | none => .ok (o, h)
  | some s =>
    match s.cells[p]? with
    | none => .error .outOfBounds
    | some c =>
      match c.mat with
      | some _ => .ok ({ o with part := some { s with cells := s.cells.set p { c with ext := some ext } } }, h)
      | none =>
        let m := newMat (if ext then c.size.1 + c.size.2 else c.size.1) h
        let r := Heap.new m.2
        let d := Heap.new r.2
        .ok ({ o with part := some { s with cells := s.cells.set p ⟨c.size, some ext, some (m.1, r.1, d.1)⟩ } }, d.2)

/-- One call. -/
def Gen.step (s : Gen × H) : Op → Except Err (Gen × H)
  | .partition a as => s.1.partition (a :: as) s.2
  | .size p => (s.1.getSize p).map fun _ => s
  | .get p e => s.1.get p e s.2

/-- The blocks of `components_mat[p]` that the destructor deletes, lines 39-50. -/
def PCell.deletes (c : PCell) : Except Err (List Nat) :=
  match c.ext with
  | none => .error .uninit
  | some e => match c.mat with
    | none => .ok []
    | some m => m.1.deletes (if e then c.size.1 + c.size.2 else c.size.1)

/-- Lines 54-72 for partition `p`: `components_rowIdx[p]`, `components_colIdx[p]`. -/
def PCell.idx (c : PCell) : List Nat :=
  match c.mat with
  | none => []
  | some m => [m.2.1, m.2.2]

/-- The blocks that the destructor deletes, lines 30-82; the index arrays of the partitions are listed before the two vectors that hold them. -/
def Gen.deletes (o : Gen) : Except Err (List Nat) :=
  (o.C.deletes o.nR).bind fun c =>
    match o.part with
    | none => .ok c
    | some s => (s.cells.mapM PCell.deletes).map fun m => c ++ (m.flatten ++ [s.cm] ++ s.cells.flatMap PCell.idx ++ [s.cr, s.cc, s.ci, s.cj, s.ce])

/-- Destructor. -/
def Gen.delete (o : Gen) (h : H) : Except Err H := o.deletes.bind fun l => freeMany l h

/-- A matrix is constructed, used and destroyed. -/
def Gen.life (nR nC : Nat) (ops : List Op) (h : H) : Except Err H :=
  (ops.foldlM Gen.step (Gen.new nR nC h)).bind fun s => s.1.delete s.2

/-! ### CostMatrix -/

/-- `class CostMatrix`, include/CostMatrix.hpp 166-175; `red` is `C_reduced_`, `nRed` is `n_reduced_`, `maps` are `i_remap_` and `j_remap_` (allocated together, lines 351-354). -/
structure Sq where
  gen : Gen
  red : Option Mat
  nRed : Nat
  maps : Option (Nat × Nat)
  avail : Bool

/-- Calls on a `CostMatrix`: those of the base class, `reduce`, after which `i_reduced_` has `m` entries, `getCostMatrixReduced`. -/
inductive SqOp
  | base (o : Op)
  | reduce (m : Nat)
  | reduced

/-- Constructor, lines 238-250. -/
def Sq.new (n : Nat) (h : H) : Sq × H :=
  let a := Gen.new n n h
  (⟨a.1, none, 0, none, false⟩, a.2)

/-- `CostMatrix::reduce`, lines 323-343, when `i_reduced_` has `m` entries. -/
def Sq.reduce (o : Sq) (m : Nat) (h : H) : Sq × H :=
  if m ≠ 0 then
    let a := newMat m h
    ({ o with red := some a.1, nRed := if m = 1 then 0 else m, avail := true }, a.2)
  else ({ o with nRed := m, avail := true }, h)

/-- `CostMatrix::getCostMatrixReduced`, lines 346-354. -/
def Sq.reduced (o : Sq) (h : H) : Sq × H :=
  if o.avail then
    match o.maps with
    | some _ => (o, h)
    | none =>
      let a := Heap.new h
      let b := Heap.new a.2
      ({ o with maps := some (a.1, b.1) }, b.2)
  else (o, h)

/-- One call. -/
def Sq.step (s : Sq × H) : SqOp → Except Err (Sq × H)
  | .base op => (Gen.step (s.1.gen, s.2) op).map fun g => ({ s.1 with gen := g.1 }, g.2)
  | .reduce m => .ok (s.1.reduce m s.2)
  | .reduced => .ok (s.1.reduced s.2)

/-- Lines 260-263. -/
def mapDeletes : Option (Nat × Nat) → List Nat
  | none => []
  | some (i, j) => [i, j]

/-- Lines 252-265 and then the destructor of the base class. -/
def Sq.deletes (o : Sq) : Except Err (List Nat) :=
  (if 0 < o.nRed then match o.red with
    | none => Except.error Err.null
    | some m => m.deletes o.nRed
   else .ok []).bind fun a => o.gen.deletes.map fun b => a ++ mapDeletes o.maps ++ b

/-- Destructor. -/
def Sq.delete (o : Sq) (h : H) : Except Err H := o.deletes.bind fun l => freeMany l h

/-- A matrix is constructed, used and destroyed. -/
def Sq.life (n : Nat) (ops : List SqOp) (h : H) : Except Err H :=
  (ops.foldlM Sq.step (Sq.new n h)).bind fun s => s.1.delete s.2

/-! ### BruteForceLinearAssignment and PermutationLexicographic -/

/-- `class BruteForceLinearAssignment`: `a_`, `s_`, `nAssignments_`. -/
structure Brute where
  a : Option Mat
  s : Option Nat
  n : Nat

/-- Destructor, src/BruteForceAssignment.cpp 42-52, and the beginning of `run`, lines 56-64. -/
def Brute.deletes (b : Brute) : Except Err (List Nat) :=
  (match b.a with | none => Except.ok [] | some m => m.deletes b.n).map fun l => l ++ b.s.toList

/-- `BruteForceLinearAssignment::run` on a matrix with `n` assignments, lines 54-125: the results of the last call are deleted, an array is allocated for every assignment and one more, which is deleted (lines 86-91). -/
def Brute.run (b : Brute) (n : Nat) (h : H) : Except Err (Brute × H) :=
  b.deletes.bind fun l => (freeMany l h).bind fun h =>
    let o := newMany n h
    let x := Heap.new o.2
    (free x.2 x.1).map fun h =>
      let a := Heap.new h
      let s := Heap.new a.2
      (⟨some ⟨a.1, o.1⟩, some s.1, n⟩, s.2)

/-- An object is constructed, used for matrices with the given numbers of assignments, and destroyed. -/
def Brute.life (ns : List Nat) (h : H) : Except Err H :=
  (ns.foldlM (fun (s : Brute × H) n => s.1.run n s.2) (⟨none, none, 0⟩, h)).bind fun s => s.1.deletes.bind fun l => freeMany l s.2

/-- Constructor and destructor of `PermutationLexicographic`, src/PermutationLexicographic.cpp 53 and 66: the block `o_`. -/
def perm (h : H) : Nat × H := new h

/-- Constructor of `Murty`, src/MurtyAlgorithm.cpp 108-119: `C_t_`. -/
def murty (n : Nat) (h : H) : Mat × H := newMat n h

/-! ### FastSLAM -/

/-- Memory of `FastSLAM::updateMap` (include/FastSLAM.hpp 477-550 and 731-734): the likelihood matrix for `n = max(nM, nZ)`, of which `reduce` leaves `m` rows open, `assignments_fixed`, the matrix of `Murty`, one array
for each of the `k` hypotheses; all of it is deleted at the end of the function, `assignments_fixed` after the search. -/
def fastUpdate (n m k : Nat) (h : H) : Except Err H :=
  ([SqOp.reduce m].foldlM Sq.step (Sq.new n h)).bind fun s =>
    let af := Heap.new s.2
    (Sq.step (s.1, af.2) .reduced).bind fun s =>
      let mu := murty s.1.nRed s.2
      let da := newMany k mu.2
      (free da.2 af.1).bind fun h => (freeMany da.1 h).bind fun h => (mu.1.deletes s.1.nRed).bind fun l => (freeMany l h).bind fun h => s.1.delete h

/-! ### Optimisers -/

/-- `RFSCeresSLAM`: the object, `mModelPtr_`, `robotProcessModelPtr_` (include/RFSCeresSLAM.hpp 239-249). -/
structure Ceres where
  self : Nat
  mModel : Nat
  rModel : Nat

/-- `new RFSCeresSLAM()`. -/
def Ceres.new (h : H) : Ceres × H :=
  let a := Heap.new h
  let b := Heap.new a.2
  let c := Heap.new b.2
  (⟨a.1, b.1, c.1⟩, c.2)

/-- `delete` of a `RFSCeresSLAM` (lines 252-264). -/
def Ceres.delete (c : Ceres) (h : H) : Except Err H := freeMany [c.mModel, c.rModel, c.self] h

/-- The loop body of `RFSPSOSLAM::optimizeParticles` (include/RFSPSOSLAM.hpp 437-498): a `RFSCeresSLAM` whose two models are replaced by new ones, the array `parameters`; the `ceres::GradientProblem` owns the
`RFSCeresSLAM` and deletes it at the end of the body. -/
def optimiseOne (h : H) : Except Err H :=
  let c := Ceres.new h
  let m := new c.2
  let r := new m.2
  let p := new r.2
  Ceres.delete ⟨c.1.self, m.1, r.1⟩ p.2

/-- `optimizeParticles` with `n` particles. -/
def optimise : Nat → H → Except Err H
  | 0, h => .ok h
  | n + 1, h => (optimiseOne h).bind (optimise n)

/-- The simulators of the batch optimiser, src/rfsceresslam1dSim.cpp 92-102 and src/rfsceresslam2dSim.cpp 181-191: `ceresslam_`. -/
abbrev Sim := Option Ceres

/-- `run`, src/rfsceresslam1dSim.cpp 531-722 (2d: 631-841): `gtparams`, `initParams` (from `init()`), and with data association `params`; without, the `ceres::GradientProblem` that owns `ceresslam_`. -/
def Sim.run (useDA : Bool) (s : Sim) (h : H) : Except Err (Sim × H) :=
  match s with
  | none => .error .null
  | some c =>
    let g := new h
    let i := new g.2
    if useDA then .ok (none, (new i.2).2)
    else
      let p := new i.2
      ((c.delete p.2).bind fun h => free h p.1).map fun h => (none, h)

/-- Destructor. -/
def Sim.delete (s : Sim) (h : H) : Except Err H :=
  match s with
  | none => .ok h
  | some c => c.delete h

/-- `main` constructs the simulator, calls `run` if the configuration can be read, and destroys it on return (src/rfsceresslam1dSim.cpp 775-835); `runs` is how often `run` is called. -/
def Sim.life (useDA : Bool) (runs : Nat) (h : H) : Except Err H :=
  let c := Ceres.new h
  ((List.replicate runs ()).foldlM (fun (s : Sim × H) _ => Sim.run useDA s.1 s.2) (some c.1, c.2)).bind fun s => Sim.delete s.1 s.2

end Heap
end RFS
