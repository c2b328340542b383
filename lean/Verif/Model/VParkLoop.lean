import Verif.Model.Sim
import Mathlib.Algebra.Order.Field.Basic

/-!
Model of the message loop of the Victoria Park programs (src/rbphdslam_VictoriaPark.cpp 455-577; src/fastslam_VictoriaPark.cpp 448-566 is the same but for the last argument of
`predict`) and of the dead reckoning (326-357): the calls of the filter that a log of messages leads to.

Simplifications: times are elements of an ordered field instead of time stamps (`TimeStamp.lean`); added clutter (555-579) is left out here (`Sim.lean`); `none` is undefined behaviour (an
index outside of a vector).
-/

namespace RFS
namespace VParkLoop

variable {K Z : Type} [Field K] [LinearOrder K] [DecidableEq K]

/-- `SensorManagerMsg::Type`, src/rbphdslam_VictoriaPark.cpp 188; the field is cast from an integer (213), any other value is ignored by the loop like GPS. -/
inductive Kind
  | gps
  | input
  | lidar
deriving DecidableEq

/-- `SensorManagerMsg`, src/rbphdslam_VictoriaPark.cpp 186-191; `idx` after `msg.idx--` (214). -/
structure Msg (K : Type) where
  t : K
  kind : Kind
  idx : Nat
deriving DecidableEq

/-- What the loop calls: `predict(u, dt, false, noise, birth)` after `setNoise(q * diag(varlm))`, and `update(Z)` after `setLaserScan(scan)`. -/
inductive Call (K Z : Type)
  | predict (u : K × K) (dt : K) (noise birth : Bool) (q : K)
  | update (zs : List Z) (scan : List K)

/-- `motionInputs_`, `lidarScans_`, `scale_ur_`. -/
structure Data (K : Type) where
  inputs : List (K × K)
  scans : List (List K)
  scale : K

/-- `isInInitialStationaryState`, `t_km`, `u_km`, `zIdx` (the measurements from there on) and `birthGaussianCheck`, src/rbphdslam_VictoriaPark.cpp 456-465. -/
structure St (K Z : Type) where
  still : Bool
  tkm : K
  ukm : K × K
  rest : List (K × Z)
  birth : Bool

/-- The state before the first message, src/rbphdslam_VictoriaPark.cpp 456-465 (`u_km` is default-constructed: zero). -/
def init (ms : List (K × Z)) : St K Z := ⟨true, 0, (0, 0), ms, true⟩

/-- The body of the loop, src/rbphdslam_VictoriaPark.cpp 502-627. -/
def step (D : Data K) (s : St K Z) (m : Msg K) : Option (List (Call K Z) × St K Z) :=
  let dt := m.t - s.tkm
  let p := Call.predict s.ukm dt (!s.still) s.birth (dt * dt)
  match m.kind with
  | .gps => some ([], s)
  | .input => (D.inputs[m.idx]?).map fun u =>
      ([p], ⟨if u.1 ≠ 0 then false else s.still, m.t, (u.1, u.2 * D.scale), s.rest, false⟩)
  | .lidar => (D.scans[m.idx]?).map fun scan =>
      let c := Sim.collect m.t s.rest
      ([p, Call.update c.1 scan], ⟨s.still, m.t, s.ukm, c.2, true⟩)

/-- The loop over the messages, src/rbphdslam_VictoriaPark.cpp 471-632. -/
def loop (D : Data K) : St K Z → List (Msg K) → Option (List (Call K Z))
  | _, [] => some []
  | s, m :: ms => (step D s m).bind fun r => (loop D r.2 ms).map fun cs => r.1 ++ cs

/-- `run`, src/rbphdslam_VictoriaPark.cpp 455-632. -/
def run (D : Data K) (zs : List (K × Z)) (ms : List (Msg K)) : Option (List (Call K Z)) := loop D (init zs) ms

/-- `deadReckoning`, src/rbphdslam_VictoriaPark.cpp 331-349: the inputs and times of the calls of `step`; `none`: there is no message, or an index outside of `motionInputs_`. -/
def deadLoop (D : Data K) : K → K × K → List (Msg K) → Option (List ((K × K) × K))
  | _, _, [] => some []
  | tkm, ukm, m :: ms =>
    if m.kind = .input then
      (D.inputs[m.idx]?).bind fun u => (deadLoop D m.t u ms).map fun r => ((ukm.1, ukm.2 * D.scale), m.t - tkm) :: r
    else deadLoop D tkm ukm ms

/-- `deadReckoning`. -/
def dead (D : Data K) (ms : List (Msg K)) : Option (List ((K × K) × K)) := (ms[0]?).bind fun m => deadLoop D m.t (0, 0) ms

end VParkLoop
end RFS
