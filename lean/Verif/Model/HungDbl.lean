import Verif.Model.Hungarian
import Verif.Model.Dbl

/-!
Model of `rfs::HungarianMethod::run<double**>` (include/HungarianMethod.hpp 90-587) with the rounding of `double`.

`Verif.Model.Hungarian` computes exactly. Here every addition and subtraction of the function is followed by the rounding
`rd` (a parameter; `Dbl.rnd` is the rounding of `double`), and the two tolerances are the doubles written `1e-14` and
`1e-12`. The parts of the function without arithmetic are those of `Verif.Model.Hungarian`: `offsetOf` (smallest entry,
lines 122-150), `init` (step 1, lines 162-195: comparisons and copies), `minSlack` (lines 343-349), `bfsInit`, `augment`
(lines 441-473). The multiplications by `-1` are exact.

Simplifications: those of `Verif.Model.Hungarian` (except exact arithmetic) and of `Verif.Model.Dbl` (no overflow and no
subnormal numbers). `lx[x] + ly[y] - C[x][y]` is evaluated from left to right with a rounding after each operation (no
fused or extended precision operations).
-/

namespace RFS
namespace HungDbl
open Hungarian

variable {K : Type*} [Field K] [LinearOrder K] {n : Nat}

/-- Preprocessing, lines 122-150. -/
def preprocess (rd : K → K) (C : Mat K n) (maximize : Bool) : Mat K n × K :=
  if maximize then
    let o := offsetOf C
    (fun x y => rd (C x y - o), o)
  else
    let C' : Mat K n := fun x y => C x y * (-1)
    let o := offsetOf C'
    (fun x y => rd (C' x y - o), o)

/-- Undo the preprocessing, lines 243-258. -/
def restore (rd : K → K) (W : Mat K n) (offset : K) (maximize : Bool) : Mat K n :=
  let W1 : Mat K n := if offset ≠ 0 then fun x y => rd (W x y + offset) else W
  if maximize then W1 else fun x y => W1 x y * (-1)

/-- `lx[x] + ly[y] - C[x][y]` (lines 292, 487, 500, 537). -/
def sl (rd : K → K) (C : Mat K n) (c : Core K n) (x y : Fin n) : K := rd (rd (c.lx x + c.ly y) - C x y)

/-- Step 2, lines 226-240 and 285-297. -/
def pickRoot (rd : K → K) (C : Mat K n) (c : Core K n) : Option (Tree K n) :=
  match (List.finRange n).find? (fun x => (c.xy x).isNone) with
  | none => none
  | some x => some
      { root := x
        S := fun x' => decide (x' = x)
        T := fun _ => false
        NS := fun y => decide (|sl rd C c x y| < rd tolS)
        slack := fun y => if |sl rd C c x y| < rd tolS then 0 else sl rd C c x y }

/-- Step 3, lines 322-396. -/
def updateLabels (rd : K → K) (c : Core K n) (t : Tree K n) : Option (Core K n × Tree K n) :=
  if ∀ y, t.NS y = t.T y then
    match minSlack t with
    | none => none
    | some a =>
      let slack' := fun y => if t.T y then t.slack y else rd (t.slack y - a)
      some ({ c with lx := fun x => if t.S x then rd (c.lx x - a) else c.lx x
                     ly := fun y => if t.T y then rd (c.ly y + a) else c.ly y },
            { t with slack := slack'
                     NS := fun y => t.NS y || decide (slack' y = 0) })
  else some (c, t)

/-- Children of an X vertex, lines 483-495. -/
def childrenX (rd : K → K) (C : Mat K n) (c : Core K n) (b : Bfs n) (x : Fin n) : List (Fin n) :=
  (List.finRange n).filter fun y => decide (|sl rd C c x y| < rd tolE) && !(b.yq y) && decide (c.xy x ≠ some y)

/-- Children of a Y vertex, lines 496-510. -/
def childrenY (rd : K → K) (C : Mat K n) (c : Core K n) (S : Fin n → Bool) (b : Bfs n) (y : Fin n) : List (Fin n) :=
  (List.finRange n).filter fun x =>
    decide (|sl rd C c x y| < rd tolE) && S x && !(b.xq x) && decide (c.yx y = some x)

/-- Expanding an X vertex, lines 480-495. -/
def expandX (rd : K → K) (C : Mat K n) (c : Core K n) (b : Bfs n) (x : Fin n) (rest : List (Fin n ⊕ Fin n)) : Bfs n :=
  let new := childrenX rd C c b x
  { b with queue := rest ++ new.map Sum.inr
           yq := fun y => b.yq y || decide (y ∈ new)
           py := fun y => if y ∈ new then some x else b.py y }

/-- Expanding a Y vertex, lines 480-482 and 496-510. -/
def expandY (rd : K → K) (C : Mat K n) (c : Core K n) (S : Fin n → Bool) (b : Bfs n) (y : Fin n)
    (rest : List (Fin n ⊕ Fin n)) : Bfs n :=
  let new := childrenY rd C c S b y
  { b with queue := rest ++ new.map Sum.inl
           xq := fun x => b.xq x || decide (x ∈ new)
           px := fun x => if x ∈ new then some y else b.px x }

/-- Breadth-first search, lines 413-514. -/
def bfs (rd : K → K) (C : Mat K n) (c : Core K n) (S : Fin n → Bool) (target : Fin n) :
    Nat → Bfs n → Option (Option (Bfs n))
  | 0, _ => none
  | fuel + 1, b =>
    match b.queue with
    | [] => some none
    | v :: rest =>
      if v = Sum.inr target then some (some b) else
      match v with
      | Sum.inl x => bfs rd C c S target fuel (expandX rd C c b x rest)
      | Sum.inr y => bfs rd C c S target fuel (expandY rd C c S b y rest)

/-- Step 4, lines 398-583. -/
def step4 (rd : K → K) (C : Mat K n) (c : Core K n) (t : Tree K n) : Out K n :=
  match (List.finRange n).find? (fun y => t.NS y && !(t.T y)) with
  | none => .ub
  | some y =>
    match c.yx y with
    | none =>
      match bfs rd C c t.S y (2 * n + 1) (bfsInit t.root) with
      | none => .ub
      | some none => .noPath
      | some (some b) =>
        match augment t.root b (n + 1) c y with
        | none => .ub
        | some c' => .cont c' none
    | some xt =>
      .cont c (some
        { t with
          S := Function.update t.S xt true
          T := Function.update t.T y true
          NS := fun y' => t.NS y' || decide (|sl rd C c xt y'| < rd tolS)
          slack := fun y' => if sl rd C c xt y' < t.slack y' then sl rd C c xt y' else t.slack y' })

/-- Steps 3 and 4 with a given tree, lines 300-583. -/
def step34 (rd : K → K) (C : Mat K n) (c : Core K n) (t : Tree K n) : Out K n :=
  match updateLabels rd c t with
  | none => .ub
  | some (c', t') => step4 rd C c' t'

/-- One pass of the loop, lines 224-587. -/
def pass (rd : K → K) (C : Mat K n) (c : Core K n) : Option (Tree K n) → Out K n
  | none =>
    match pickRoot rd C c with
    | none => .solved c
    | some t => step34 rd C c t
  | some t => step34 rd C c t

/-- The `while(true)` loop, lines 224-587, with the final bookkeeping of lines 241-281. -/
def loop (rd : K → K) (W : Mat K n) (offset : K) (maximize : Bool) :
    Nat → Core K n → Option (Tree K n) → Result K n
  | 0, _, _ => .fuel
  | fuel + 1, c, t =>
    match pass rd W c t with
    | .solved c' =>
      if h : ∀ x, (c'.xy x).isSome then
        let C := restore rd W offset maximize
        let soln := fun x => (c'.xy x).get (h x)
        .solved soln ((List.finRange n).foldl (fun s x => rd (s + C x (soln x))) 0) C
      else .ub
    | .cont c' t' => loop rd W offset maximize fuel c' t'
    | .noPath => .noPath
    | .ub => .ub

/-- `HungarianMethod::run`, lines 90-589. -/
def run (rd : K → K) (C : Mat K n) (maximize : Bool) (fuel : Nat) : Result K n :=
  let p := preprocess rd C maximize
  match init p.1 with
  | none => .ub
  | some c => loop rd p.1 p.2 maximize fuel c none

end HungDbl
end RFS
