import Mathlib.Algebra.Order.Field.Basic
import Mathlib.Algebra.BigOperators.Group.List.Basic
import Mathlib.Data.List.Basic

/-!
Model of `rfs::GaussianMixture` (include/GaussianMixture.hpp 51-599), at the level of values: a component owns the mean and
covariance of its landmark, `none` is the null pointer. (Aliasing and memory management of the copies are in
`Verif.Model.GMHeap`.)

Simplifications: exact arithmetic over an ordered field; landmarks of dimension `d` are a mean and a covariance (time stamps and
descriptors are not touched by this class); the Mahalanobis distance is an arbitrary function of two landmarks; `std::sort` is any
function meeting its contract (`IsSort`); `int n_` is an integer without bounds. Access outside `gList_` is the outcome `none`.
-/

namespace RFS
namespace GM

/-- Mean and covariance of a landmark. -/
structure Lm (K : Type*) (d : Nat) where
  x : Fin d → K
  S : Fin d → Fin d → K

/-- `struct Gaussian`, lines 60-64. -/
structure Gauss (K : Type*) (d : Nat) where
  lm : Option (Lm K d)
  w : K
  wp : K

/-- Members, lines 213-215. -/
structure GMix (K : Type*) (d : Nat) where
  n : Int
  g : List (Gauss K d)
  sorted : Bool

variable {K : Type*} [Field K] [LinearOrder K] {d : Nat}

/-- Default constructor, lines 251-255. -/
def empty : GMix K d := ⟨0, [], false⟩

/-- `addGaussian(p, w, allocateMem)` with a non-null landmark, lines 297-314. -/
def addGaussian (m : GMix K d) (l : Lm K d) (w : K) : GMix K d :=
  ⟨m.n + 1, m.g ++ [⟨some l, w, 0⟩], false⟩

/-- `addGM(other, w)`, lines 316-330: the new value of this mixture and of the other one. -/
def addGM (m o : GMix K d) (w : K) : GMix K d × GMix K d :=
  (⟨m.n + o.n, m.g ++ o.g.map (fun e => { e with w := e.w * w }), false⟩, ⟨0, [], o.sorted⟩)

/-- `multiplyWeights`, lines 331-336. -/
def multiplyWeights (m : GMix K d) (w : K) : GMix K d :=
  { m with g := m.g.map fun e => { e with w := e.w * w } }

/-- `removeGaussian`, lines 362-374. -/
def removeGaussian (m : GMix K d) (i : Nat) : Option (GMix K d) :=
  match m.g[i]? with
  | none => none
  | some e =>
    match e.lm with
    | none => some { m with sorted := false }
    | some _ => some ⟨m.n - 1, m.g.set i ⟨none, 0, 0⟩, false⟩

/-- `addGaussian(idx, p, w, allocateMem)` (protected), lines 338-360. -/
def addGaussianAt (m : GMix K d) (i : Nat) (l : Lm K d) (w : K) : Option (GMix K d) :=
  match removeGaussian m i with
  | none => none
  | some m1 => some ⟨m1.n + 1, m1.g.set i ⟨some l, w, 0⟩, false⟩

/-- `getGaussianCount`, lines 377-380. -/
def getGaussianCount (m : GMix K d) : Int := m.n

/-- `getWeightSum`, lines 382-389: the loop runs over indices below `n_`. -/
def getWeightSum (m : GMix K d) : Option K :=
  (List.range m.n.toNat).foldlM (fun s i => (m.g[i]?).map fun e => s + e.w) 0

/-- `setWeight`, lines 391-396. -/
def setWeight (m : GMix K d) (i : Nat) (w : K) : Option (GMix K d) :=
  match m.g[i]? with
  | none => none
  | some e => some ⟨m.n, m.g.set i ⟨e.lm, w, e.w⟩, false⟩

/-- `updateGaussian`, lines 427-444; `none` when an index equal to the size passes the test `idx > size` and is read. -/
def updateGaussian (m : GMix K d) (i : Nat) (l : Lm K d) (w : K) : Option (Bool × GMix K d) :=
  if m.g.length < i then some (false, { m with sorted := false })
  else
    match m.g[i]? with
    | none => none
    | some e =>
      match e.lm with
      | none => some (false, { m with sorted := false })
      | some _ => some (true, ⟨m.n, m.g.set i ⟨some l, if w < 0 then e.w else w, e.w⟩, false⟩)

/-- The mean and covariance of two merged components, lines 500-514. -/
def mergeLm (w1 w2 f : K) (l1 l2 : Lm K d) : Lm K d :=
  let wm := w1 + w2
  let xm : Fin d → K := fun a => (l1.x a * w1 + l2.x a * w2) / wm
  { x := xm
    S := fun a b => (w1 * (l1.S a b + f * (xm a - l1.x a) * (xm b - l1.x b)) +
          w2 * (l2.S a b + f * (xm a - l2.x a) * (xm b - l2.x b))) / wm }

/-- `merge(idx1, idx2, t, f_inflation)`, lines 471-527; `maha` is `mahalanobisDist2`. -/
def merge2 (maha : Lm K d → Lm K d → K) (t f : K) (m : GMix K d) (i j : Nat) : Option (Bool × GMix K d) :=
  match m.g[i]?, m.g[j]? with
  | some e1, some e2 =>
    match e1.lm, e2.lm with
    | some l1, some l2 =>
      if t * t < maha l1 l2 ∧ t * t < maha l2 l1 then some (false, { m with sorted := false })
      else if e1.w + e2.w = 0 then some (false, { m with sorted := false })
      else
        (removeGaussian { m with g := m.g.set i ⟨some (mergeLm e1.w e2.w f l1 l2), e1.w + e2.w, 0⟩ } j).map fun m' => (true, m')
    | _, _ => some (false, { m with sorted := false })
  | _, _ => none

/-- The inner loop of `merge(t, f)`, lines 458-464, over the given indices. -/
def mergeInner (maha : Lm K d → Lm K d → K) (t f : K) (i : Nat) : List Nat → Nat × GMix K d → Option (Nat × GMix K d)
  | [], s => some s
  | j :: js, s =>
    match merge2 maha t f s.2 i j with
    | none => none
    | some (b, m') => mergeInner maha t f i js (if b then s.1 + 1 else s.1, m')

/-- The outer loop, lines 453-466; `N` is the size of `gList_`. -/
def mergeOuter (maha : Lm K d → Lm K d → K) (t f : K) (N : Nat) : List Nat → Nat × GMix K d → Option (Nat × GMix K d)
  | [], s => some s
  | i :: is, s =>
    match s.2.g[i]? with
    | none => none
    | some e =>
      match e.lm with
      | none => mergeOuter maha t f N is s
      | some _ =>
        match mergeInner maha t f i ((List.range N).drop (i + 1)) s with
        | none => none
        | some s' => mergeOuter maha t f N is s'

/-- `merge(t, f_inflation)`, lines 446-468: number of merges and the new mixture. -/
def merge (maha : Lm K d → Lm K d → K) (t f : K) (m : GMix K d) : Option (Nat × GMix K d) :=
  mergeOuter maha t f m.g.length (List.range m.g.length) (0, { m with sorted := false })

/-- Contract of `std::sort` with `weightCompare` (lines 594-597): a rearrangement in non-increasing order of weight. -/
def IsSort (srt : List (Gauss K d) → List (Gauss K d)) : Prop :=
  ∀ l, (srt l).Perm l ∧ (srt l).Pairwise fun a b => b.w ≤ a.w

/-- `sortByWeight`, lines 575-581. -/
def sortByWeight (srt : List (Gauss K d) → List (Gauss K d)) (m : GMix K d) : GMix K d :=
  if m.sorted then m else { m with g := srt m.g, sorted := true }

/-- The binary search of `prune`, lines 548-557, with fuel. `ws` are the weights. `none`: out of fuel or out of bounds. -/
def bsearch (ws : List K) (t : K) : Nat → Nat → Nat → Nat → Nat → K → Option (Nat × K)
  | 0, _, _, _, _, _ => none
  | fuel + 1, mn, mx, idx, old, w =>
    if idx = old then some (idx, w)
    else
      let mx' := if w ≤ t then idx else mx
      let mn' := if w ≤ t then mn else idx
      let idx' := (mx' + mn') / 2
      match ws[idx']? with
      | none => none
      | some w' => bsearch ws t fuel mn' mx' idx' idx w'

/-- The scan of lines 558-563. -/
def scanUp (ws : List K) (t : K) : Nat → Nat → K → Option Nat
  | 0, _, _ => none
  | fuel + 1, idx, w =>
    if t ≤ w then
      match ws[idx + 1]? with
      | none => some (idx + 1)
      | some w' => scanUp ws t fuel (idx + 1) w'
    else some idx

/-- The loop of lines 565-569: remove the Gaussians from `idx` on. -/
def removeFrom (m : GMix K d) : List Nat → Option (GMix K d)
  | [] => some m
  | i :: is =>
    match removeGaussian m i with
    | none => none
    | some m' => removeFrom m' is

/-- `prune`, lines 529-573: number of entries dropped and the new mixture. -/
def prune (srt : List (Gauss K d) → List (Gauss K d)) (t : K) (m : GMix K d) : Option (Nat × GMix K d) :=
  let m := { m with sorted := false }
  if m.g.length < 1 then some (0, m)
  else
    let m1 := sortByWeight srt m
    let ws := m1.g.map Gauss.w
    let mx := m1.g.length - 1
    let idx := mx / 2
    match ws[idx]? with
    | none => none
    | some w =>
      match bsearch ws t (m1.g.length + 2) 0 mx idx (idx + 1) w with
      | none => none
      | some (i0, w0) =>
        match scanUp ws t (m1.g.length + 1) i0 w0 with
        | none => none
        | some i1 =>
          match removeFrom m1 ((List.range m1.g.length).drop i1) with
          | none => none
          | some m2 =>
            let k := m1.g.length - i1
            some (k, { m2 with g := m2.g.take (m2.g.length - k) })

/-- `normalizeWeights`, lines 582-593, again over indices below `n_`. `none`: out of bounds. (Division by a zero sum is left to
the properties.) -/
def normalizeWeights (m : GMix K d) : Option (GMix K d) :=
  match getWeightSum m with
  | none => none
  | some s => some { m with g := m.g.mapIdx fun i e => if (i : Int) < m.n then { e with w := e.w / s } else e }

end GM
end RFS
