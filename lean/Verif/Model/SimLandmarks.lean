import Verif.Model.BatchSim

/-!
`generateLandmarks` of the simulators as a whole, with the numbers of the random stream that it reads.

Exact real arithmetic; `drand48()` is a stream of reals read at a position that is passed along, as in `Sim`. `none` is a pose outside of `groundtruth_pose_`, which is read unchecked.
The covariance of the landmark is left out (`newLandmark`), and so is the descriptor of src/rfspsoorbslam1dSim.cpp 252, which comes from another generator (C154).
-/

namespace RFS
namespace SimLmk
open Motion

/-- The landmarks created at the steps `ks`, include/RBPHDSLAM_2D.hpp 446-461 (the same in include/RBLMBSLAM_2D.hpp, src/fastslam2dSim.cpp, src/rfspsoslam2dSim.cpp 253-266 and
src/rfsceresslam2dSim.cpp): two numbers each. The poses are those of `groundtruth_pose_`. -/
noncomputable def landmarksAt (kind : Sim.Kind) (rMax : ℝ) (u : Nat → ℝ) (poses : List (Fin 3 → ℝ)) : List Nat → Nat → Option (List (Fin 2 → ℝ) × Nat)
  | [], pos => some ([], pos)
  | k :: ks, pos =>
    (poses[k]?).bind fun x => (landmarksAt kind rMax u poses ks (pos + 2)).map fun r => (Sim.newLandmark kind rMax x (u pos) (u (pos + 1)) :: r.1, r.2)

/-- `generateLandmarks`, include/RBPHDSLAM_2D.hpp 429-467. -/
noncomputable def generate2d (kind : Sim.Kind) (rMax : ℝ) (u : Nat → ℝ) (kMax nLandmarks : Nat) (poses : List (Fin 3 → ℝ)) (pos : Nat) : Option (List (Fin 2 → ℝ) × Nat) :=
  (Sim.landmarkSteps kMax nLandmarks).bind fun ks => landmarksAt kind rMax u poses ks pos

/-- The 1-D landmarks created at the steps `ks`, src/rfsceresslam1dSim.cpp 264-275, src/rfspsoslam1dSim.cpp, src/rfspsoorbslam1dSim.cpp 247-258: one number each. -/
def landmarksAt1 (rMax : ℝ) (u : Nat → ℝ) (poses : List ℝ) : List Nat → Nat → Option (List ℝ × Nat)
  | [], pos => some ([], pos)
  | k :: ks, pos => (poses[k]?).bind fun x => (landmarksAt1 rMax u poses ks (pos + 1)).map fun r => ((Meas.rng1dInv 0 x (u pos * rMax)).1 :: r.1, r.2)

/-- `generateLandmarks`, src/rfsceresslam1dSim.cpp 251-284. -/
def generate1d (rMax : ℝ) (u : Nat → ℝ) (kMax nLandmarks : Nat) (poses : List ℝ) (pos : Nat) : Option (List ℝ × Nat) :=
  landmarksAt1 rMax u poses (BatchSim.landmarkSteps kMax nLandmarks) pos

/-- `generateLandmarks`, src/rfspsoorbslam1dSim.cpp 233-264. -/
def generateOrb (rMax : ℝ) (u : Nat → ℝ) (kMax nLandmarks : Nat) (poses : List ℝ) (pos : Nat) : Option (List ℝ × Nat) :=
  (BatchSim.landmarkStepsOrb kMax nLandmarks).bind fun ks => landmarksAt1 rMax u poses ks pos

end SimLmk
end RFS
