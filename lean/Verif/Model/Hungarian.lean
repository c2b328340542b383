import Mathlib.Algebra.Order.Field.Basic
import Mathlib.Algebra.BigOperators.Group.Finset.Defs
import Mathlib.Data.Fintype.Basic
import Mathlib.Data.List.FinRange
import Mathlib.Logic.Function.Basic
import Mathlib.Algebra.BigOperators.Fin

/-!
Model of `rfs::HungarianMethod::run<double**>` (include/HungarianMethod.hpp 90-587).

Simplifications
* `double` is an arbitrary linearly ordered field `K` (exact arithmetic), the tolerances `1e-14`, `1e-12` are kept.
* An `n`-array indexed by `0..n-1` is a function on `Fin n`; the match value `-1` is `none`.
* The `debug` printing is left out.
* The breadth-first-search vertex code `0..n-1` / `n..2n-1` is the sum type `Fin n ⊕ Fin n`, and its parent array `p`
  is split in the parents of the X vertices (`px`) and of the Y vertices (`py`).
* `double a = DBL_MAX` followed by `fmin` is the minimum of the entries (`DBL_MAX` is the neutral element).
* `while(true)` and the inner `while` loops are functions with fuel; running out of fuel is the outcome `fuel`, so
  termination is a theorem (that outcome is never reached with the stated fuel).
* Array accesses out of bounds are the outcome `ub`.
-/

namespace RFS
namespace Hungarian

variable {K : Type*} [Field K] [LinearOrder K] {n : Nat}

/-- A square `double**`. -/
abbrev Mat (K : Type*) (n : Nat) := Fin n → Fin n → K

/-- The constant `1e-14` (lines 293, 538). -/
def tolS : K := 1 / 10 ^ 14

/-- The constant `1e-12` (lines 487, 500). -/
def tolE : K := 1 / 10 ^ 12

/-- Labels and matching: `lx`, `ly`, `xy`, `yx` (lines 94-97). -/
structure Core (K : Type*) (n : Nat) where
  lx : Fin n → K
  ly : Fin n → K
  xy : Fin n → Option (Fin n)
  yx : Fin n → Option (Fin n)

/-- The alternating tree data: `root`, `S`, `T`, `NS`, `slack` (lines 98-101, 109). They are completely rewritten when
a new root is picked, so `pickFreeVertex == true` is represented by the absence of a `Tree`. -/
structure Tree (K : Type*) (n : Nat) where
  root : Fin n
  S : Fin n → Bool
  T : Fin n → Bool
  NS : Fin n → Bool
  slack : Fin n → K

/-- Preprocessing, lines 122-150: the offset is the smallest entry (of the negated matrix when minimising), or `0` if no
entry is negative. -/
def offsetOf (C : Mat K n) : K :=
  (List.finRange n).foldl (fun o x =>
    (List.finRange n).foldl (fun o y => if C x y < o then C x y else o) o) 0

/-- Lines 122-150: negate if minimising, subtract the offset. Returns the working matrix and the offset. -/
def preprocess (C : Mat K n) (maximize : Bool) : Mat K n × K :=
  if maximize then
    let o := offsetOf C
    (fun x y => C x y - o, o)
  else
    let C' : Mat K n := fun x y => C x y * (-1)
    let o := offsetOf C'
    (fun x y => C' x y - o, o)

/-- Undo the preprocessing, lines 243-258. -/
def restore (W : Mat K n) (offset : K) (maximize : Bool) : Mat K n :=
  let W1 : Mat K n := if offset ≠ 0 then fun x y => W x y + offset else W
  if maximize then W1 else fun x y => W1 x y * (-1)

/-- Lines 165-172: scan a row, keep the largest entry seen (starting from `0`) and its last position. -/
def rowScan (C : Mat K n) (x : Fin n) : K × Option (Fin n) :=
  (List.finRange n).foldl (fun st y => if st.1 ≤ C x y then (C x y, some y) else st) (0, none)

/-- One iteration of step 1, lines 163-193. `none`: `xy[x]` is still `-1` and `yx[-1]` would be read. -/
def initRow (C : Mat K n) (c : Core K n) (x : Fin n) : Option (Core K n) :=
  let r := rowScan C x
  let lx := Function.update c.lx x r.1
  let ly := Function.update c.ly x 0
  match r.2 with
  | none => none
  | some y =>
    let xy := Function.update c.xy x (some y)
    match c.yx y with
    | none => some ⟨lx, ly, xy, Function.update c.yx y (some x)⟩
    | some xt =>
      if C xt y < C x y then
        some ⟨lx, ly, Function.update xy xt none, Function.update c.yx y (some x)⟩
      else
        some ⟨lx, ly, Function.update xy x none, c.yx⟩

/-- Step 1, lines 113-120 and 162-195. -/
def init (C : Mat K n) : Option (Core K n) :=
  (List.finRange n).foldlM (initRow C) ⟨fun _ => 0, fun _ => 0, fun _ => none, fun _ => none⟩

/-- `lx[x] + ly[y] - C[x][y]`. -/
def sl (C : Mat K n) (c : Core K n) (x y : Fin n) : K := c.lx x + c.ly y - C x y

/-- Step 2, lines 226-240 and 285-297: the first unmatched `x` becomes the root. `none`: the matching is perfect. -/
def pickRoot (C : Mat K n) (c : Core K n) : Option (Tree K n) :=
  match (List.finRange n).find? (fun x => (c.xy x).isNone) with
  | none => none
  | some x => some
      { root := x
        S := fun x' => decide (x' = x)
        T := fun _ => false
        NS := fun y => decide (|sl C c x y| < tolS)
        slack := fun y => if |sl C c x y| < tolS then 0 else sl C c x y }

/-- `fmin` over the slack of the vertices outside `T`, lines 343-349. -/
def minSlack (t : Tree K n) : Option K :=
  (List.finRange n).foldl (fun a y =>
    if t.T y then a else
      match a with
      | none => some (t.slack y)
      | some b => some (min b (t.slack y))) none

/-- Step 3, lines 322-396: label update when `N(S) == T`. -/
def updateLabels (c : Core K n) (t : Tree K n) : Option (Core K n × Tree K n) :=
  if ∀ y, t.NS y = t.T y then
    match minSlack t with
    | none => none
    | some a =>
      let slack' := fun y => if t.T y then t.slack y else t.slack y - a
      some ({ c with lx := fun x => if t.S x then c.lx x - a else c.lx x
                     ly := fun y => if t.T y then c.ly y + a else c.ly y },
            { t with slack := slack'
                     NS := fun y => t.NS y || decide (slack' y = 0) })
  else some (c, t)

/-- Breadth-first search data: queue, `x_q`, `y_q`, `p` (lines 103-106). -/
structure Bfs (n : Nat) where
  queue : List (Fin n ⊕ Fin n)
  xq : Fin n → Bool
  yq : Fin n → Bool
  px : Fin n → Option (Fin n)
  py : Fin n → Option (Fin n)

/-- Children of an X vertex, lines 483-495. -/
def childrenX (C : Mat K n) (c : Core K n) (b : Bfs n) (x : Fin n) : List (Fin n) :=
  (List.finRange n).filter fun y => decide (|sl C c x y| < tolE) && !(b.yq y) && decide (c.xy x ≠ some y)

/-- Children of a Y vertex, lines 496-510. -/
def childrenY (C : Mat K n) (c : Core K n) (S : Fin n → Bool) (b : Bfs n) (y : Fin n) : List (Fin n) :=
  (List.finRange n).filter fun x =>
    decide (|sl C c x y| < tolE) && S x && !(b.xq x) && decide (c.yx y = some x)

/-- Expanding an X vertex taken from the front of the queue, lines 480-495. -/
def expandX (C : Mat K n) (c : Core K n) (b : Bfs n) (x : Fin n) (rest : List (Fin n ⊕ Fin n)) : Bfs n :=
  let new := childrenX C c b x
  { b with queue := rest ++ new.map Sum.inr
           yq := fun y => b.yq y || decide (y ∈ new)
           py := fun y => if y ∈ new then some x else b.py y }

/-- Expanding a Y vertex taken from the front of the queue, lines 480-482 and 496-510. -/
def expandY (C : Mat K n) (c : Core K n) (S : Fin n → Bool) (b : Bfs n) (y : Fin n) (rest : List (Fin n ⊕ Fin n)) :
    Bfs n :=
  let new := childrenY C c S b y
  { b with queue := rest ++ new.map Sum.inl
           xq := fun x => b.xq x || decide (x ∈ new)
           px := fun x => if x ∈ new then some y else b.px x }

/-- Breadth-first search, lines 413-514. `none`: out of fuel; `some none`: queue exhausted; `some (some b)`: target at the
front of the queue. (The tests of different children in lines 483-510 do not influence one another, so the loop over the
children is the list of those passing the test.) -/
def bfs (C : Mat K n) (c : Core K n) (S : Fin n → Bool) (target : Fin n) : Nat → Bfs n → Option (Option (Bfs n))
  | 0, _ => none
  | fuel + 1, b =>
    match b.queue with
    | [] => some none
    | v :: rest =>
      if v = Sum.inr target then some (some b) else
      match v with
      | Sum.inl x => bfs C c S target fuel (expandX C c b x rest)
      | Sum.inr y => bfs C c S target fuel (expandY C c S b y rest)

/-- Initial search state, lines 416-427. -/
def bfsInit (root : Fin n) : Bfs n :=
  { queue := [Sum.inl root], xq := fun x => decide (x = root), yq := fun _ => false,
    px := fun _ => none, py := fun _ => none }

/-- Augmentation along the parent pointers, lines 441-473. `none`: out of fuel or `p[...] == -1` used as an index. -/
def augment (root : Fin n) (b : Bfs n) : Nat → Core K n → Fin n → Option (Core K n)
  | 0, _, _ => none
  | fuel + 1, c, y =>
    match b.py y with
    | none => none
    | some x =>
      let c' := { c with xy := Function.update c.xy x (some y), yx := Function.update c.yx y (some x) }
      if x = root then some c' else
      match b.px x with
      | none => none
      | some y' => augment root b fuel c' y'

/-- What one pass of the `while(true)` loop does. -/
inductive Out (K : Type*) (n : Nat) where
  | solved (c : Core K n)
  | cont (c : Core K n) (t : Option (Tree K n))
  | noPath
  | ub

/-- Step 4, lines 398-583. -/
def step4 (C : Mat K n) (c : Core K n) (t : Tree K n) : Out K n :=
  match (List.finRange n).find? (fun y => t.NS y && !(t.T y)) with
  | none => .ub
  | some y =>
    match c.yx y with
    | none =>
      match bfs C c t.S y (2 * n + 1) (bfsInit t.root) with
      | none => .ub
      | some none => .noPath
      | some (some b) =>
        match augment t.root b (n + 1) c y with
        | none => .ub
        | some c' => .cont c' none
    | some xt =>
      .cont c (some
        { t with
          S := Function.update t.S xt true
          T := Function.update t.T y true
          NS := fun y' => t.NS y' || decide (|sl C c xt y'| < tolS)
          slack := fun y' => if sl C c xt y' < t.slack y' then sl C c xt y' else t.slack y' })

/-- Steps 3 and 4 with a given tree. -/
def step34 (C : Mat K n) (c : Core K n) (t : Tree K n) : Out K n :=
  match updateLabels c t with
  | none => .ub
  | some (c', t') => step4 C c' t'

/-- One pass of the loop, lines 224-587. -/
def pass (C : Mat K n) (c : Core K n) : Option (Tree K n) → Out K n
  | none =>
    match pickRoot C c with
    | none => .solved c
    | some t => step34 C c t
  | some t => step34 C c t

/-- What the function returns: `solved soln cost C` is `return true` with the output arguments and the caller's matrix
afterwards; `noPath` is `return false`. -/
inductive Result (K : Type*) (n : Nat) where
  | solved (soln : Fin n → Fin n) (cost : K) (C : Mat K n)
  | noPath
  | ub
  | fuel

/-- The `while(true)` loop, lines 224-587, with the final bookkeeping of lines 241-281. -/
def loop (W : Mat K n) (offset : K) (maximize : Bool) : Nat → Core K n → Option (Tree K n) → Result K n
  | 0, _, _ => .fuel
  | fuel + 1, c, t =>
    match pass W c t with
    | .solved c' =>
      if h : ∀ x, (c'.xy x).isSome then
        let C := restore W offset maximize
        let soln := fun x => (c'.xy x).get (h x)
        .solved soln ((List.finRange n).foldl (fun s x => s + C x (soln x)) 0) C
      else .ub
    | .cont c' t' => loop W offset maximize fuel c' t'
    | .noPath => .noPath
    | .ub => .ub

/-- `HungarianMethod::run`, lines 90-589. -/
def run (C : Mat K n) (maximize : Bool) (fuel : Nat) : Result K n :=
  let p := preprocess C maximize
  match init p.1 with
  | none => .ub
  | some c => loop p.1 p.2 maximize fuel c none

end Hungarian
end RFS
