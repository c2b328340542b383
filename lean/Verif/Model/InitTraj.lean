import Verif.Model.Motion

/-!
Model of `RFSCeresSLAM::initTrajectory` (include/RFSCeresSLAM.hpp, lines 363-377), the dead reckoning that `init` (lines 342-361) begins with.

Simplifications: those of `Verif.Model.Motion`. The motion model is any function from the old content of the new pose, the previous pose, the input and the time between them to the new pose; `none` is signed overflow in it. `draw k m Q` is the
sample that `RandomVec::sample` draws in round `k`. The `assert` of line 374 is left out (positions are real numbers).
-/

namespace RFS
namespace InitTraj
open TimeStamp Motion

variable {n : Nat} {U : Type}

/-- What can go wrong: signed overflow of a time, an uninitialised covariance. -/
inductive Bad
  | overflow
  | uninit
deriving DecidableEq

/-- A default constructed pose, include/RandomVec.hpp 85-95. -/
def origin : St n := ⟨0, 0, zero⟩

/-- `trajectory_.resize(m)`. -/
def resize (m : Nat) (old : List (St n)) : List (St n) := old.take m ++ List.replicate (m - old.length) origin

/-- Lines 369-375 for one input: the new pose, from the old content `sk` of its place and the previous pose. -/
noncomputable def next (step : St n → St n → U → TS → Option (St n)) (Q : Option (Matrix (Fin n) (Fin n) ℝ)) (draw : (Fin n → ℝ) → Matrix (Fin n) (Fin n) ℝ → (Fin n → ℝ)) (sk skm : St n) (u : TS × U) : Except Bad (St n) :=
  match sub u.1 skm.t with
  | none => .error .overflow
  | some dT =>
    match step sk skm u.2 dT with
    | none => .error .overflow
    | some s =>
      match sample Q s draw true with
      | .uninit => .error .uninit
      | .ok s' => .ok { s' with S := 0 }

/-- Lines 369-375: `k` is the number of rounds done, `prev` the pose of the last, `rest` the places still to fill. -/
noncomputable def fill (step : St n → St n → U → TS → Option (St n)) (Q : Option (Matrix (Fin n) (Fin n) ℝ)) (draw : Nat → (Fin n → ℝ) → Matrix (Fin n) (Fin n) ℝ → (Fin n → ℝ)) :
    Nat → St n → List (St n) → List (TS × U) → Except Bad (List (St n))
  | k, prev, sk :: rest, u :: us =>
    match next step Q (draw k) sk prev u with
    | .error e => .error e
    | .ok s =>
      match fill step Q draw (k + 1) s rest us with
      | .error e => .error e
      | .ok l => .ok (s :: l)
  | _, _, rest, _ => .ok rest

/-- `initTrajectory`, lines 363-377; `old` is `trajectory_` before. -/
noncomputable def initTrajectory (step : St n → St n → U → TS → Option (St n)) (Q : Option (Matrix (Fin n) (Fin n) ℝ)) (draw : Nat → (Fin n → ℝ) → Matrix (Fin n) (Fin n) ℝ → (Fin n → ℝ)) (inputs : List (TS × U)) (old : List (St n)) :
    Except Bad (List (St n)) :=
  match resize (inputs.length + 1) old with
  | [] => .ok []
  | s0 :: rest =>
    match fill step Q draw 0 { s0 with S := 0 } rest inputs with
    | .error e => .error e
    | .ok l => .ok ({ s0 with S := 0 } :: l)

end InitTraj
end RFS
