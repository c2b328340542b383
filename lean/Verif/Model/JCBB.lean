import Mathlib.Algebra.Order.Field.Basic
import Mathlib.Data.List.Basic

/-!
Model of `rfs::JCBB` (include/JCBB.hpp): joint compatibility branch and bound.

A node of the interpretation tree is the list of associations from the node up to the root: the head belongs to the latest measurement,
`none` is the outlier index -1. The joint Mahalanobis distance and the chi-square gate (lines 381-467) are an arbitrary function: `gate p m`
is the distance of node `p` extended by landmark `m` if it passes the gate, and `none` otherwise. The priority queue holds shared pointers and
orders them by address, so any element may be taken next.
-/

namespace RFS
namespace JCBB

variable {K : Type*} [Field K] [LinearOrder K]

abbrev Path := List (Option Nat)

/-- `used_lmk_indices`, lines 355-368: the loop stops at the node whose parent is the root, so the association of the first measurement is
left out. -/
def used (p : Path) : List Nat := p.dropLast.filterMap id

/-- `getMahalanobisDist2` of a node: set at lines 471 and 507. -/
def nodeDist (gate : Path → Nat → Option K) : Path → K
  | [] => 0
  | none :: p => nodeDist gate p
  | some m :: p => (gate p m).getD 0

/-- `branchList_`, `nAssociations_best_`, `dist_mahalanobis2_best_`, `node_best_`. -/
structure St (K : Type*) where
  opn : List Path
  nBest : Nat
  dBest : K
  best : Option Path

/-- Body of the loop over the landmarks, lines 378-503. -/
def tryLmk (gate : Path → Nat → Option K) (nZ : Nat) (p : Path) (s : St K) (m : Nat) : St K :=
  if m ∈ used p then s
  else
    match gate p m with
    | none => s
    | some dist =>
      let q : Path := some m :: p
      let opn := if p.length + 1 < nZ then q :: s.opn else s.opn
      if s.nBest < (used p).length + 1 ∨ s.nBest = (used p).length + 1 ∧ s.dBest ≤ dist then
        ⟨opn, (used p).length + 1, dist, some q⟩
      else ⟨opn, s.nBest, s.dBest, s.best⟩

/-- Lines 505-518: the outlier node. -/
def tryOutlier (gate : Path → Nat → Option K) (nZ : Nat) (p : Path) (s : St K) : St K :=
  let q : Path := none :: p
  let opn := if p.length + 1 < nZ then q :: s.opn else s.opn
  if s.nBest = (used p).length + 1 ∧ s.dBest ≤ nodeDist gate p then ⟨opn, s.nBest, nodeDist gate p, some q⟩
  else ⟨opn, s.nBest, s.dBest, s.best⟩

/-- `branch`, lines 344-520; `nL` landmarks. -/
def branch (gate : Path → Nat → Option K) (nZ nL : Nat) (p : Path) (s : St K) : St K :=
  tryOutlier gate nZ p ((List.range nL).foldl (tryLmk gate nZ p) s)

/-- One pass of the loop of lines 293-297: some node is taken from the queue and branched. -/
inductive Step (gate : Path → Nat → Option K) (nZ nL : Nat) : St K → St K → Prop
  | mk (s : St K) (pre post : List Path) (p : Path) (h : s.opn = pre ++ p :: post) :
      Step gate nZ nL s (branch gate nZ nL p { s with opn := pre ++ post })

/-- State before the loop, lines 284-292; `big` is `DBL_MAX`. -/
def start (big : K) : St K := ⟨[[]], 0, big, none⟩

/-- Executions of the loop. -/
inductive Run (gate : Path → Nat → Option K) (nZ nL : Nat) (big : K) : St K → Prop
  | start : Run gate nZ nL big (start big)
  | step (s s' : St K) (h : Run gate nZ nL big s) (hs : Step gate nZ nL s s') : Run gate nZ nL big s'

/-- `hypothesis_best_`, lines 299-307: landmark of measurement `z`, `none` is -1. -/
def hypothesis (p : Path) (z : Nat) : Option Nat := (p.reverse[z]?).join

/-- The result of the constructor once the queue is empty; `none`: `node_best_` is NULL and line 304 dereferences it. -/
def result (s : St K) : Option (Nat → Option Nat) := s.best.map hypothesis

end JCBB
end RFS
