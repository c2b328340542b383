import Verif.Model.Hungarian

/-!
Model of `rfs::CostMatrix` (square matrices, `reduce` / `getCostMatrixReduced`) and of the specialisation
`HungarianMethod::run<CostMatrix>` (src/CostMatrix.cpp 236-373, src/HungarianMethod.cpp 36-69).

Simplifications: exact arithmetic over an ordered field, index `-1` is `none`, memory management is left out except for
the one array that can be overrun (`i_remap_`, `j_remap_` have `n_` entries, see `getReduced`). The object is a value
carrying all the members that survive from one call to the next.
-/

namespace RFS
namespace CostMat
open Hungarian (Mat)

variable {K : Type*} [Field K] [LinearOrder K] {n : Nat}

/-- Members of `class CostMatrix`, include/CostMatrix.hpp 107-109 and 166-175. `Cred` carries its own dimension. -/
structure CM (K : Type*) (n : Nat) where
  C : Mat K n
  af : Fin n → Option (Fin n)
  ar : Fin n → Option (Fin n)
  iRed : List (Fin n)
  jRed : List (Fin n)
  nRed : Nat
  Cred : Option ((m : Nat) × Mat K m)
  avail : Bool

/-- Constructor, src/CostMatrix.cpp 238-250. -/
def mk (C : Mat K n) : CM K n :=
  { C := C, af := fun _ => none, ar := fun _ => none, iRed := [], jRed := [], nRed := 0, Cred := none, avail := false }

/-- Local arrays of `reduce` together with the members it changes in its first loop. -/
structure Scan (K : Type*) (n : Nat) where
  C : Mat K n
  ni : Fin n → Nat
  nj : Fin n → Nat
  af : Fin n → Option (Fin n)
  ar : Fin n → Option (Fin n)

/-- The test of line 281: the entry is at or beyond the limit. -/
def beyond (lim : K) (minVal : Bool) (c : K) : Bool := (decide (lim ≤ c) && !minVal) || (decide (c ≤ lim) && minVal)

/-- Body of the double loop, lines 281-298. -/
def scanStep (lim : K) (minVal : Bool) (s : Scan K n) (p : Fin n × Fin n) : Scan K n :=
  let i := p.1
  let j := p.2
  if beyond lim minVal (s.C i j) then
    { s with C := Function.update s.C i (Function.update (s.C i) j lim) }
  else
    let ni := Function.update s.ni i (s.ni i + 1)
    let nj := Function.update s.nj j (s.nj j + 1)
    let af := if ni i = 1 ∧ nj j = 1 then Function.update s.af i (some j) else s.af
    let ar := if ni i = 1 ∧ nj j = 1 then Function.update s.ar j (some i) else s.ar
    let af := if 1 < ni i then Function.update af i none else af
    let ar := if 1 < nj j then Function.update ar j none else ar
    { s with ni := ni, nj := nj, af := af, ar := ar }

/-- All index pairs in the order of the double loop. -/
def pairs (n : Nat) : List (Fin n × Fin n) :=
  (List.finRange n).flatMap fun i => (List.finRange n).map fun j => (i, j)

/-- Lines 269-301. -/
def scan (cm : CM K n) (lim : K) (minVal : Bool) : Scan K n :=
  (pairs n).foldl (scanStep lim minVal) ⟨cm.C, fun _ => 0, fun _ => 0, cm.af, cm.ar⟩

/-- Lines 304-308: drop a fixed assignment whose column has other candidates. -/
def keepAf (s : Scan K n) (i : Fin n) : Option (Fin n) :=
  match s.af i with
  | none => none
  | some j => if s.nj j ≠ 1 then none else some j

/-- Lines 309-313. -/
def keepAr (s : Scan K n) (j : Fin n) : Option (Fin n) :=
  match s.ar j with
  | none => none
  | some i => if s.ni i ≠ 1 then none else some i

/-- `CostMatrix::reduce`, src/CostMatrix.cpp 267-344. `none` is the failing assertion of line 322. -/
def reduce (cm : CM K n) (lim : K) (minVal : Bool) : Option (CM K n) :=
  let s := scan cm lim minVal
  let af := keepAf s
  let ar := keepAr s
  let iRed := cm.iRed ++ (List.finRange n).filter fun i => (af i).isNone
  let jRed := cm.jRed ++ (List.finRange n).filter fun j => (ar j).isNone
  if h : iRed.length = jRed.length then
    let m := iRed.length
    let Cred : Mat K m := fun a b => s.C (iRed.get a) (jRed.get (b.cast h))
    let cm' : CM K n :=
      { C := s.C, af := af, ar := ar, iRed := iRed, jRed := jRed, nRed := m,
        Cred := if m ≠ 0 then some ⟨m, Cred⟩ else cm.Cred, avail := true }
    if h1 : m = 1 then
      some { cm' with
        af := Function.update af (iRed.get ⟨0, by omega⟩) (some (jRed.get ⟨0, by omega⟩)), nRed := 0 }
    else some cm'
  else none

/-- What `getCostMatrixReduced` hands out: the size, the matrix pointer, the fixed assignments, their score and the index
maps. -/
structure Reduced (K : Type*) (n : Nat) where
  size : Nat
  C : Option ((m : Nat) × Mat K m)
  fixed : Fin n → Option (Fin n)
  score : K
  iMap : List (Fin n)
  jMap : List (Fin n)

/-- Outcome of `getCostMatrixReduced`. -/
inductive GetOut (K : Type*) (n : Nat) where
  | unavailable
  | overrun
  | ok (r : Reduced K n)

/-- `CostMatrix::getCostMatrixReduced`, src/CostMatrix.cpp 346-373. `unavailable` is the return value `-1`; `overrun` is
writing past the end of the `n_` entries of `i_remap_` (lines 365-368). -/
def getReduced (cm : CM K n) : GetOut K n :=
  if cm.avail then
    if n < cm.nRed then .overrun else
    .ok { size := cm.nRed
          C := cm.Cred
          fixed := cm.af
          score := (List.finRange n).foldl (fun s i => match cm.af i with | none => s | some j => s + cm.C i j) 0
          iMap := cm.iRed.take cm.nRed
          jMap := cm.jRed.take cm.nRed }
  else .unavailable

/-- Outcome of `HungarianMethod::run<CostMatrix>`: the returned flag with the output arguments (`soln`, `cost`), or
undefined behaviour. -/
inductive RunOut (K : Type*) (n : Nat) where
  | ret (flag : Bool) (soln : Fin n → Option (Fin n)) (cost : K)
  | ub

/-- Write the reduced solution into `soln`, src/HungarianMethod.cpp 53-55. -/
def remap (iMap jMap : List (Fin n)) {m : Nat} (τ : Fin m → Fin m) (fixed : Fin n → Option (Fin n)) :
    Fin n → Option (Fin n) :=
  (List.finRange m).foldl (fun soln a =>
    match iMap[a.val]?, jMap[(τ a).val]? with
    | some i, some j => Function.update soln i (some j)
    | _, _ => soln) fixed

/-- `HungarianMethod::run<CostMatrix>`, src/HungarianMethod.cpp 36-69. The inner solver runs with the given fuel. -/
def runCM (cm : CM K n) (maximize : Bool) (fuel : Nat) : RunOut K n :=
  match getReduced cm with
  | .overrun => .ub
  | .unavailable =>
    match Hungarian.run cm.C maximize fuel with
    | .solved soln cost _ => .ret true (fun x => some (soln x)) cost
    | .noPath => .ret false (fun _ => none) 0
    | _ => .ub
  | .ok r =>
    if 1 < r.size then
      match r.C with
      | none => .ub
      | some ⟨_, Cr⟩ =>
        match Hungarian.run Cr maximize fuel with
        | .solved τ score _ => .ret false (remap r.iMap r.jMap τ r.fixed) (r.score + score)
        | .noPath => .ret false r.fixed 0
        | _ => .ub
    else if r.size = 0 then .ret true r.fixed r.score
    else
      match Hungarian.run cm.C maximize fuel with
      | .solved soln cost _ => .ret true (fun x => some (soln x)) cost
      | .noPath => .ret false r.fixed 0
      | _ => .ub

end CostMat
end RFS
