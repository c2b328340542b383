import Mathlib.Algebra.Order.Field.Basic
import Mathlib.Algebra.Order.Floor.Ring
import Mathlib.Algebra.BigOperators.Group.Finset.Basic
import Mathlib.Data.Fintype.BigOperators
import Mathlib.Data.List.FinRange
import Mathlib.Logic.Function.Basic

/-!
Model of `rfs::SpatialIndexTree` (include/SpatialIndexTree.hpp) and `rfs::Box` (include/SpatialIndexBox.hpp).

Simplifications: exact arithmetic over an ordered field; a datum is an element of `D` (a pointer, compared by identity) with a position
`pos` that does not change while it is stored; `size_` of a box is `minBoxSize · 2^k` and is stored as the level `k` (the root starts at
`2·minBoxSize`, boxes are only doubled and halved); a box without children has `nData_ = data_.size()` (both change together in `addData`
and `removeData`), a box with children holds no data of its own and its `nData_` is stored; counters of ancestors, which are raised and
lowered by the same amount while data moves from a box to its children or back, are shown with the net change. A tree is a value: parent
pointers are implied. Null dereference, `throw` and non-termination are the outcome `none`.
-/

namespace RFS
namespace SIT

variable {K : Type*} [Field K] [LinearOrder K] {D : Type*} {d : Nat}

/-- `Box`, include/SpatialIndexBox.hpp 48-188: lower corner, level, and either the stored data or a counter and the children. -/
inductive Tree (K D : Type*) (d : Nat) where
  | leaf (lo : Fin d → K) (k : Nat) (data : List D)
  | node (lo : Fin d → K) (k : Nat) (n : Nat) (ch : Fin (2 ^ d) → Tree K D d)

namespace Tree

/-- `getPos(POS_LOWER)`. -/
def lo : Tree K D d → Fin d → K
  | leaf lo _ _ => lo
  | node lo _ _ _ => lo

/-- Level: `size_ = minBoxSize · 2^level`. -/
def level : Tree K D d → Nat
  | leaf _ k _ => k
  | node _ k _ _ => k

/-- `getDataSize`, include/SpatialIndexBox.hpp 332-335. -/
def size : Tree K D d → Nat
  | leaf _ _ data => data.length
  | node _ _ n _ => n

/-- `getChildrenCount() == 0`. -/
def isLeaf : Tree K D d → Bool
  | leaf _ _ _ => true
  | node _ _ _ _ => false

/-- `data_`. -/
def data : Tree K D d → List D
  | leaf _ _ l => l
  | node _ _ _ _ => []

end Tree

/-- Parameters of the index: minimal box size and position of the data. -/
structure Idx (K D : Type*) (d : Nat) where
  mn : K
  pos : D → Fin d → K

variable (I : Idx K D d)

/-- `size_` of a box of level `k`. -/
def Idx.sz (k : Nat) : K := I.mn * 2 ^ k

/-- `Box::isInside(p)`, include/SpatialIndexBox.hpp 297-305, for a box given by corner and edge length. -/
def inside (lo : Fin d → K) (s : K) (p : Fin d → K) : Prop := ∀ i, lo i ≤ p i ∧ p i ≤ lo i + s

instance (lo : Fin d → K) (s : K) (p : Fin d → K) : Decidable (inside lo s p) := by unfold inside; infer_instance

/-- Lower corner of child `i` of a box at `lo` whose children have edge `h` (`branch`, include/SpatialIndexTree.hpp 359-369). -/
def childLo (lo : Fin d → K) (h : K) (i : Fin (2 ^ d)) : Fin d → K := fun t => lo t + (if i.val.testBit t then h else 0)

/-- Children created by `branch`, include/SpatialIndexTree.hpp 350-373, for a box of level `k + 1`. -/
def branch (lo : Fin d → K) (k : Nat) (data : Fin (2 ^ d) → List D) : Fin (2 ^ d) → Tree K D d :=
  fun i => .leaf (childLo lo (I.sz k) i) k (data i)

/-- One level of `search`, include/SpatialIndexTree.hpp 334-341: the first child that contains the point. -/
def firstInside (ch : Fin (2 ^ d) → Tree K D d) (p : Fin d → K) : Option (Fin (2 ^ d)) :=
  (List.finRange (2 ^ d)).find? fun i => decide (inside (ch i).lo (I.sz (ch i).level) p)

/-- Lines 222-228 of `addData`: the data of a box are put into its new children. -/
def distribute (ch : Fin (2 ^ d) → Tree K D d) : List D → (Fin (2 ^ d) → List D) → Option (Fin (2 ^ d) → List D)
  | [], f => some f
  | y :: ys, f =>
    match firstInside I ch (I.pos y) with
    | none => none
    | some c => distribute ch ys (Function.update f c (f c ++ [y]))

/-- The smallest box that `y` could go in, lines 210-215. -/
def smallestLo [FloorRing K] (y : Fin d → K) : Fin d → K := fun t => (⌊y t / I.mn⌋ : K) * I.mn

/-- `addData` once the leaf is found, lines 200-244. -/
def insertLeaf [FloorRing K] (x : D) : (lo : Fin d → K) → (k : Nat) → List D → Option (Tree K D d)
  | lo, 0, data => some (.leaf lo 0 (data ++ [x]))
  | lo, k + 1, [] => some (.leaf lo (k + 1) [x])
  | lo, k + 1, y :: ys =>
    if inside (smallestLo I (I.pos y)) I.mn (I.pos x) then some (.leaf lo (k + 1) (y :: ys ++ [x]))
    else
      match distribute I (branch I lo k fun _ => []) (y :: ys) (fun _ => []), firstInside I (branch I lo k fun _ => []) (I.pos x) with
      | some f, some c =>
        (insertLeaf x (childLo lo (I.sz k) c) k (f c)).map fun t =>
          .node lo (k + 1) (∑ i, (f i).length + 1) (Function.update (branch I lo k f) c t)
      | _, _ => none

/-- `search` followed by the insertion, and the counters on the way back (Box::addData, SpatialIndexBox.hpp 321-330). -/
def insert [FloorRing K] (x : D) : Tree K D d → Option (Tree K D d)
  | .leaf lo k data => insertLeaf I x lo k data
  | .node lo k n ch =>
    match firstInside I ch (I.pos x) with
    | none => none
    | some c => (insert x (ch c)).map fun t => .node lo k (n + 1) (Function.update ch c t)

/-- `getPos(POS_CENTER)`. -/
def center (t : Tree K D d) : Fin d → K := fun i => I.sz t.level / 2 + t.lo i

/-- One old child is hung below the new root, lines 175-194. `k` is the level of the new root's children. -/
def rehang (k : Nat) (ch : Fin (2 ^ d) → Tree K D d) (n : Nat) (old : Tree K D d) : Option ((Fin (2 ^ d) → Tree K D d) × Nat) :=
  match firstInside I ch (center I old) with
  | none => some (ch, n)
  | some c =>
    if old.size = 0 then some (ch, n)
    else
      match k, ch c with
      | k' + 1, .leaf lo kk _ =>
        let sub := branch I lo k' fun _ => []
        match firstInside I sub (center I old) with
        | none => some (Function.update ch c (.node lo kk 0 sub), n)
        | some j => some (Function.update ch c (.node lo kk old.size (Function.update sub j old)), n + old.size)
      | _, _ => none

/-- Replace the root by one twice as large, lines 169-194. -/
def grow : Tree K D d → Option (Tree K D d)
  | .leaf _ _ _ => none
  | .node _ k _ ch =>
    let nlo : Fin d → K := fun _ => -I.sz k
    ((List.finRange (2 ^ d)).foldlM (fun s i => rehang I k s.1 s.2 (ch i)) (branch I nlo k (fun _ => []), 0)).map
      fun s => .node nlo (k + 1) s.2 s.1

/-- `addData`, lines 159-250. -/
def addData [FloorRing K] : Nat → Tree K D d → D → Option (Tree K D d)
  | 0, _, _ => none
  | fuel + 1, root, x =>
    if inside root.lo (I.sz root.level) (I.pos x) then insert I x root
    else (grow I root).bind fun r => addData fuel r x

/-- The constructor and `clear`, lines 149-154 and 524-529. -/
def init : Tree K D d := .node (fun _ => -I.mn) 1 0 (branch I (fun _ => -I.mn) 0 fun _ => [])

/-- `Box::removeData(int)` on a box without children, SpatialIndexBox.hpp 347-376: the last datum replaces the removed one. -/
def eraseData [DecidableEq D] (data : List D) (x : D) : List D :=
  match data.getLast? with
  | none => data
  | some b => (data.set (data.idxOf x) b).dropLast

/-- The data of the only child with data, if no child has children and exactly one has data: lines 265-280 and 288-302. -/
def onlyChild (ch : Fin (2 ^ d) → Tree K D d) : Option (List D) :=
  if (List.finRange (2 ^ d)).all (fun i => (ch i).isLeaf) then
    match (List.finRange (2 ^ d)).filter fun i => decide (0 < (ch i).size) with
    | [i] => some (ch i).data
    | _ => none
  else none

/-- `removeData`, lines 252-310: found or not, the new tree, and whether the parent should be checked for simplification. -/
def removeRec [DecidableEq D] (x : D) : Tree K D d → (isRoot : Bool) → Option (Bool × Tree K D d × Bool)
  | .leaf lo k data, _ =>
    if x ∈ data then some (true, .leaf lo k (eraseData data x), true) else some (false, .leaf lo k data, false)
  | .node lo k n ch, isRoot =>
    match firstInside I ch (I.pos x) with
    | none => none
    | some c =>
      match removeRec x (ch c) false with
      | none => none
      | some (found, t, check) =>
        let ch' := Function.update ch c t
        let n' := if found then n - 1 else n
        if check ∧ isRoot = false then
          match onlyChild ch' with
          | some l => some (found, .leaf lo k l, true)
          | none => some (found, .node lo k n' ch', false)
        else some (found, .node lo k n' ch', false)

/-- `removeData`: a point outside the root box makes `search` return NULL, which is dereferenced. -/
def removeData [DecidableEq D] (root : Tree K D d) (x : D) : Option (Bool × Tree K D d) :=
  if inside root.lo (I.sz root.level) (I.pos x) then (removeRec I x root true).map fun r => (r.1, r.2.1) else none

/-- Lines 385-398 and 476-489: descend to the smallest box that contains both corners of the query box. -/
def descend (qmin qmax : Fin d → K) : Tree K D d → Tree K D d
  | .leaf lo k data => .leaf lo k data
  | .node lo k n ch =>
    match (List.finRange (2 ^ d)).find? fun i => decide (inside (ch i).lo (I.sz (ch i).level) qmin ∧
        inside (ch i).lo (I.sz (ch i).level) qmax) with
    | none => .node lo k n ch
    | some i => descend qmin qmax (ch i)

/-- `(qbox_max - x).minCoeff() >= 0 && (qbox_min - x).maxCoeff() <= 0`. -/
def inQuery (qmin qmax x : Fin d → K) : Prop := ∀ i, x i ≤ qmax i ∧ qmin i ≤ x i

instance (qmin qmax x : Fin d → K) : Decidable (inQuery qmin qmax x) := by unfold inQuery; infer_instance

/-- The traversal of lines 400-437 (the stack is popped in the order of the children). -/
def collect (qmin qmax : Fin d → K) : Tree K D d → List D
  | .leaf lo k data =>
    if inQuery qmin qmax (fun i => lo i + I.sz k) ∧ inQuery qmin qmax lo then data
    else data.filter fun x => decide (inQuery qmin qmax (I.pos x))
  | .node _ _ _ ch =>
    ((List.finRange (2 ^ d)).filter fun i => decide (0 < (ch i).size)).flatMap fun i => collect qmin qmax (ch i)

/-- `queryDataInBox`, lines 382-439 (the result vector starts empty). -/
def queryDataInBox (root : Tree K D d) (qmin qmax : Fin d → K) : List D := collect I qmin qmax (descend I qmin qmax root)

/-- Lines 454-464 of `queryClosestPt`: from a box with data take the first child with data until a leaf is reached. -/
def anyDatum : Tree K D d → Option D
  | .leaf _ _ data => data.head?
  | .node _ _ _ ch =>
    match (List.finRange (2 ^ d)).find? fun i => decide (0 < (ch i).size) with
    | none => none
    | some i => anyDatum (ch i)

/-- Lines 445-468: a stored datum near the query point; `none` at the root is the dereference of its missing parent. -/
def seed (q : Fin d → K) : Tree K D d → Option D
  | .leaf _ _ data => data.head?
  | .node lo k n ch =>
    match firstInside I ch q with
    | none => none
    | some c => if 0 < (ch c).size then seed q (ch c) else anyDatum (.node lo k n ch)

/-- `isWithinDistance`, SpatialIndexBox.hpp 390-397. -/
def withinDistance (t : Tree K D d) (q : Fin d → K) (r : K) : Prop :=
  inside (fun i => center I t i - (I.sz t.level + 2 * r) / 2) (I.sz t.level + 2 * r) q

instance (t : Tree K D d) (q : Fin d → K) (r : K) : Decidable (withinDistance I t q r) := by unfold withinDistance; infer_instance

/-- The traversal of lines 491-519 of `queryClosestPt`; the state is the best datum and its distance, `nd y` is `(y - qp).norm()`. -/
def visit (nd : D → K) (q : Fin d → K) : Tree K D d → D × K → D × K
  | .leaf _ _ data, s => data.foldl (fun s y => if nd y < s.2 then (y, nd y) else s) s
  | .node _ _ _ ch, s =>
    ((List.finRange (2 ^ d)).filter fun i => decide (withinDistance I (ch i) q s.2)).foldl (fun s i => visit nd q (ch i) s) s

/-- `queryClosestPt`, lines 441-522. `nrm` is the Euclidean norm. -/
def queryClosestPt (nrm : (Fin d → K) → K) (root : Tree K D d) (q : Fin d → K) : Option D :=
  match (if inside root.lo (I.sz root.level) q then seed I q root else anyDatum root) with
  | none => none
  | some y =>
    let nd := fun z => nrm fun i => I.pos z i - q i
    some (visit I nd q (descend I (fun i => q i - nd y) (fun i => q i + nd y) root) (y, nd y)).1

end SIT
end RFS
