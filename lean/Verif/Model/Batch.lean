import Mathlib.Order.Defs.LinearOrder
import Mathlib.Algebra.Group.Pi.Basic
import Mathlib.Tactic.TypeStar

/-!
Model of the bookkeeping of the batch optimisers `RFSCeresSLAM` (include/RFSCeresSLAM.hpp) and `RFSPSOSLAM` (include/RFSPSOSLAM.hpp): filing measurements by
time, the layout of the parameter vector, the initial map, and the assembly of the cost and its gradient.

Simplifications: an input or a measurement is its time and its content; time stamps are elements of a linear order (C01-C03); vectors are functions on `Fin`.
-/

namespace RFS
namespace Batch

/-! ### Measurements and times -/

/-- What became of a call: it returned, the program ended through `std::exit`, or the behaviour is undefined. -/
inductive Res (α : Type*) where
  | ok (a : α)
  | exit
  | ub

/-- `inputs_` (their times), `time_` and `Z_` (RFSCeresSLAM.hpp 227-230, RFSPSOSLAM.hpp 234-236). -/
structure TL (τ M : Type*) where
  inputs : List τ
  time : List τ
  Z : List (List M)

variable {τ M : Type*}

/-- `Z_.resize(n)`. -/
def resizeZ (n : Nat) (Z : List (List M)) : List (List M) := Z.take n ++ List.replicate (n - Z.length) []

/-- `addInput`, RFSCeresSLAM.hpp 267-278, RFSPSOSLAM.hpp 280-288: `std::sort(begin, begin)` sorts an empty range. -/
def addInput (u : τ) (s : TL τ M) : TL τ M := ⟨s.inputs ++ [u], s.time ++ [u], resizeZ (s.inputs.length + 2) s.Z⟩

/-- `setInputs`, RFSCeresSLAM.hpp 280-295, RFSPSOSLAM.hpp 293-304; `zero` is `TimeStamp(0)`. -/
def setInputs (zero : τ) (U : List τ) (s : TL τ M) : TL τ M := ⟨U, zero :: U, resizeZ (U.length + 1) s.Z⟩

variable [LinearOrder τ]

/-- `std::lower_bound(begin, end, t)`: the first position not before `t`; `none` if the range is not partitioned with respect to `t` (undefined behaviour). -/
def lowerBound (l : List τ) (t : τ) : Option Nat :=
  if (l.dropWhile fun x => decide (x < t)).all fun x => decide (¬ x < t) then some (l.takeWhile fun x => decide (x < t)).length else none

/-- `addMeasurement`, RFSCeresSLAM.hpp 305-321, RFSPSOSLAM.hpp 308-320: `*it` is read even if `it` is the end. -/
def addMeasurement (t : τ) (z : M) (s : TL τ M) : Res (TL τ M) :=
  match lowerBound s.time t with
  | none => .ub
  | some k =>
    match s.time[k]? with
    | none => .ub
    | some t' => if t' ≠ t then .exit else if k < s.Z.length then .ok { s with Z := s.Z.modify k (· ++ [z]) } else .ub

/-- `addMeasurement` of a vector, RFSCeresSLAM.hpp 324-340, RFSPSOSLAM.hpp 621-627. -/
def addMeasurements : List (τ × M) → TL τ M → Res (TL τ M)
  | [], s => .ok s
  | z :: zs, s =>
    match addMeasurement z.1 z.2 s with
    | .ok s' => addMeasurements zs s'
    | .exit => .exit
    | .ub => .ub

/-! ### The parameter vector -/

variable {K : Type*} {P D : Nat}

/-- `NumParameters`, RFSCeresSLAM.hpp 431-436, for a trajectory of at least one pose. -/
def numParameters (P D : Nat) (T M : Nat) : Nat := (T - 1) * P + M * D

/-- The writes of the two loops of `init`, RFSCeresSLAM.hpp 349-359, in order: position and value. The same loops are in RFSPSOSLAM.hpp 461-471. -/
def paramWrites (traj : List (Fin P → K)) (lms : List (Fin D → K)) : List (Nat × K) :=
  (traj.zipIdx.drop 1).flatMap (fun x => (List.finRange P).map fun d => ((x.2 - 1) * P + d.1, x.1 d)) ++
    lms.zipIdx.flatMap (fun x => (List.finRange D).map fun d => ((traj.length - 1) * P + x.2 * D + d.1, x.1 d))

/-- `init`, RFSCeresSLAM.hpp 342-361, after trajectory and map: the array allocated, each element written or (`none`) not; no result if a write is outside. -/
def initParams (traj : List (Fin P → K)) (lms : List (Fin D → K)) : Option (List (Option K)) :=
  (paramWrites traj lms).foldlM (fun a w => if w.1 < a.length then some (a.set w.1 (some w.2)) else none)
    (List.replicate (numParameters P D traj.length lms.length) none)

/-- The reads of `Evaluate`, RFSCeresSLAM.hpp 477-495, for `T` poses and `M` landmarks; no result if a read is outside. Also RFSPSOSLAM.hpp 484-496. -/
def readParams [Zero K] (P D : Nat) (T M : Nat) (ps : List K) : Option (List (Fin P → K) × List (Fin D → K)) :=
  if ps.length < numParameters P D T M ∨ T = 0 then none
  else some ((List.range T).map (fun k d => if k = 0 then 0 else ps.getD ((k - 1) * P + d.1) 0),
    (List.range M).map (fun m d => ps.getD ((T - 1) * P + m * D + d.1) 0))

/-! ### The initial map -/

variable {L Zt : Type*}

/-- Lines 384-392: the number of landmarks named by data associations. The measurements of all times in order, each with its data association. -/
def namedSize (zs : List (Zt × Int)) : Nat :=
  zs.foldl (fun n z => if 0 ≤ z.2 ∧ (n : Int) ≤ z.2 then z.2.toNat + 1 else n) 0

/-- Lines 393-408: `none` is a default-constructed landmark, the Boolean the flag `initialized`. No result: access outside. -/
def initNamed (inv : Zt → L) (zs : List (Zt × Int)) (s : List (Option L × Bool)) : Option (List (Option L × Bool)) :=
  zs.foldlM (fun s z =>
    if 0 ≤ z.2 then
      match s[z.2.toNat]? with
      | none => none
      | some (_, true) => some s
      | some (_, false) => some (s.set z.2.toNat (some (inv z.1), true))
    else some s) s

/-- Lines 410-421: `draw j` tells whether the `j`-th random number is below `mapFromMeasurementProb_`. -/
def addFree (inv : Zt → L) (draw : Nat → Bool) (zs : List (Zt × Int)) (s : List (Option L) × Nat) : List (Option L) × Nat :=
  zs.foldl (fun s z => if z.2 = -1 then (if draw s.2 then s.1 ++ [some (inv z.1)] else s.1, s.2 + 1) else s) s

/-- `initMap`, RFSCeresSLAM.hpp 378-428. `inv` is `inverseMeasure` from the pose of the measurement's time. -/
def initMap (inv : Zt → L) (draw : Nat → Bool) (zs : List (Zt × Int)) : Option (List (Option L)) :=
  (initNamed inv zs (List.replicate (namedSize zs) (none, false))).map fun s => (addFree inv draw zs (s.map Prod.fst, 0)).1

/-! ### Cost and gradient -/

section cost
variable {V W R : Type*} [AddCommGroup V] [AddCommGroup W] [AddCommGroup R]

/-- `trajectory_gradient.segment<PoseDim>(PoseDim * k) += v`. -/
def addSeg (g : Nat → V) (k : Nat) (v : V) : Nat → V := fun i => if i = k then g i + v else g i

/-- The accumulated log likelihood, trajectory gradient (segments) and landmark gradient. -/
structure Acc (V W R : Type*) where
  l : R
  tg : Nat → V
  lg : W

variable (proc : Nat → R × V) (meas : Nat → R × V × W)

/-- One pass of the first loop, lines 538-545. `proc k` is the value and gradient of `logLikelihood(trajectory_[k], trajectory_[k-1], inputs_[k-1],
time_[k] - time_[k-1])`. -/
def procStep (s : Acc V W R) (k : Nat) : Acc V W R :=
  { s with l := s.l + (proc k).1, tg := addSeg (addSeg s.tg (k - 1) (proc k).2) (k - 2) (-(proc k).2) }

/-- One pass of the second loop, lines 547-554. `meas k` is the value and the gradients of `rfsMeasurementLogLikelihood(k, …)`. -/
def measStep (s : Acc V W R) (k : Nat) : Acc V W R :=
  ⟨s.l + (meas k).1, addSeg s.tg (k - 1) (meas k).2.1, s.lg + (meas k).2.2⟩

/-- `rfsMeasurementLikelihood(trajectory_gradient, landmark_gradient)`, lines 518-558, for `T` poses, `nT` elements of `time_` and `nI` inputs. No result: `time_`,
`inputs_` or `trajectory_` read outside. -/
def total (T nT nI : Nat) : Option (Acc V W R) :=
  if T < 2 ∨ nT < T ∨ nI + 1 < T then none
  else
    let s0 : Acc V W R := ⟨0 + (meas 0).1, fun _ => 0, 0 + (meas 0).2.2⟩
    let s1 : Acc V W R := { s0 with l := s0.l + (proc 1).1, tg := addSeg s0.tg 0 (proc 1).2 }
    let s2 := (List.range' 2 (T - 2)).foldl (procStep proc) s1
    some ((List.range' 1 (T - 1)).foldl (measStep meas) s2)

/-- `Evaluate`, lines 497-512: cost and gradient. -/
def evaluate (T nT nI : Nat) : Option (R × (Nat → V) × W) := (total proc meas T nT nI).map fun s => (-s.l, fun k => -s.tg k, -s.lg)
end cost

end Batch
end RFS
