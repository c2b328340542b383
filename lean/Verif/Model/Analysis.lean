import Verif.Model.TimeStamp
import Verif.Model.OSPA
import Mathlib.Analysis.Real.Pi.Bounds
import Mathlib.Algebra.Order.Field.Basic

/-!
Model of the error analysis of simulation runs (`src/analysis2dSim.cpp`) and of the logs that it reads (written by `run` of the simulators).

A log file is the list of the records that are still to be read; one record has always been read ahead and is held in member variables (`cur`).
Text formatting is modelled only where it loses information: `%f` keeps six digits (`Rounds6`), and records of nine columns are read as streams of numbers (`nextRec`).
-/

namespace RFS
namespace Analysis
open TimeStamp

variable {K : Type} [Field K] [LinearOrder K]

/-- A line of `particlePose.dat`: time, index, pose and weight, src/analysis2dSim.cpp 114, 178. -/
structure PRec (K : Type) where
  t : K
  id : Nat
  x : K
  y : K
  r : K
  w : K

/-- A line of `landmarkEst.dat`, src/analysis2dSim.cpp 118, 198: time, index of the particle, position, covariance, weight. -/
structure LRec (K : Type) where
  t : K
  pid : Nat
  x : K
  y : K
  sxx : K
  sxy : K
  syy : K
  w : K

/-- `fabs(p_t_ - t_currentStep_) < 1e-12`, src/analysis2dSim.cpp 161, 186. -/
def sameTime (a b : K) : Prop := |a - b| < 1 / 10 ^ 12

instance (a b : K) : Decidable (sameTime a b) := by unfold sameTime; infer_instance

/-- The members that the particle loop writes: `w_sum_`, `w_hi`, `i_hi_` (`none`: not written yet), `particles_`. -/
structure PSt (K : Type) where
  wSum : K
  wHi : K
  iHi : Option Nat
  parts : List (PRec K)

/-- The body of the particle loop, src/analysis2dSim.cpp 162-176. `particles_[p_id_]` is accessed after the record is appended: out of range is `none`. -/
def stepP (s : PSt K) (p : PRec K) : Option (PSt K) :=
  if p.id < s.parts.length + 1 then
    some ⟨s.wSum + p.w, if s.wHi < p.w then p.w else s.wHi, if s.wHi < p.w then some p.id else s.iHi, s.parts ++ [p]⟩
  else none

/-- The loops over the records of a step, src/analysis2dSim.cpp 161-180 and 186-201: while the record held in the members has the time of the step, it is processed and the next one read;
at the end of the file the last record stays in the members. -/
def readLoop {R S : Type} (time : R → K) (step : S → R → Option S) (t : K) : S → R → List R → Option (S × R × List R)
  | s, c, [] => if sameTime (time c) t then (step s c).map fun s' => (s', c, []) else some (s, c, [])
  | s, c, n :: rest => if sameTime (time c) t then (step s c).bind fun s' => readLoop time step t s' n rest else some (s, c, n :: rest)

/-- The particle loop, src/analysis2dSim.cpp 161-180. -/
def readP (t : K) : PSt K → PRec K → List (PRec K) → Option (PSt K × PRec K × List (PRec K)) := readLoop PRec.t stepP t

/-- `W_THRESHOLD`, src/analysis2dSim.cpp 183. -/
def wThreshold : K := 3 / 4

/-- The body of the landmark loop, src/analysis2dSim.cpp 187-196: the estimated map and `cardEst_`. Reading `i_hi_` before it was ever written is undefined (`none`). -/
def stepL (iHi : Option Nat) (s : List (LRec K) × K) (l : LRec K) : Option (List (LRec K) × K) :=
  iHi.map fun i => if l.pid = i then (if wThreshold ≤ l.w then s.1 ++ [l] else s.1, s.2 + l.w) else s

/-- The landmark loop, src/analysis2dSim.cpp 186-201. -/
def readL (iHi : Option Nat) (t : K) : List (LRec K) × K → LRec K → List (LRec K) → Option ((List (LRec K) × K) × LRec K × List (LRec K)) := readLoop LRec.t (stepL iHi) t

/-- What `readNextStepData` leaves for the calculations of a step. -/
structure Step (K : Type) where
  parts : List (PRec K)
  wSum : K
  iHi : Option Nat
  map : List (LRec K)
  card : K

/-- The read position of both logs and the index that stays from the step before. -/
structure Pos (K : Type) where
  iHi : Option Nat
  pCur : PRec K
  pRest : List (PRec K)
  lCur : LRec K
  lRest : List (LRec K)

/-- `readNextStepData` for the ground-truth time `t`, src/analysis2dSim.cpp 149-206. -/
def readStep (q : Pos K) (t : K) : Option (Step K × Pos K) :=
  (readP t ⟨0, 0, q.iHi, []⟩ q.pCur q.pRest).bind fun a =>
  (readL a.1.iHi t ([], 0) q.lCur q.lRest).map fun b =>
  (⟨a.1.parts, a.1.wSum, a.1.iHi, b.1.1, b.1.2⟩, ⟨a.1.iHi, a.2.1, a.2.2, b.2.1, b.2.2⟩)

/-- The loop of `main`, src/analysis2dSim.cpp 401-424, over the times of the ground-truth file. -/
def readAll : Pos K → List K → Option (List (Step K))
  | _, [] => some []
  | q, t :: ts => (readStep q t).bind fun a => (readAll a.2 ts).map fun l => a.1 :: l

/-- The weight index that `run` of a simulator logs the map of, include/RBPHDSLAM_2D.hpp 813-822: `i_w_max`, `w_max` over the particles from index `i` on. -/
def iwMaxFrom : List K → Nat → Nat → K → Nat
  | [], _, best, _ => best
  | w :: ws, i, best, wMax => if wMax < w then iwMaxFrom ws (i + 1) i w else iwMaxFrom ws (i + 1) best wMax

/-- `i_w_max`. -/
def iwMax (ws : List K) : Nat := iwMaxFrom ws 0 0 0

/-- What `printf("%f")` and `fscanf("%lf")` do to a number together: a multiple of `10⁻⁶` nearest to it. -/
def Rounds6 (rd : K → K) : Prop := ∀ x, (∃ n : Int, rd x = n / 10 ^ 6) ∧ |rd x - x| ≤ 1 / (2 * 10 ^ 6) ∧ ∀ n : Int, |rd x - x| ≤ |(n : K) / 10 ^ 6 - x|

/-- The particle log of one step, include/RBPHDSLAM_2D.hpp 815-824: the records of the particles in the order of their indices, written with six digits. -/
def logP (rd : K → K) (t : K) (ps : List (K × K × K × K)) : List (PRec K) :=
  (List.range ps.length).zip ps |>.map fun a => ⟨rd t, a.1, rd a.2.1, rd a.2.2.1, rd a.2.2.2.1, rd a.2.2.2.2⟩

/-- The records written before the first step, include/RBPHDSLAM_2D.hpp 730-735: time 0 and weight 1. -/
def logP0 (rd : K → K) (ps : List (K × K × K)) : List (PRec K) :=
  (List.range ps.length).zip ps |>.map fun a => ⟨rd 0, a.1, rd a.2.1, rd a.2.2.1, rd a.2.2.2, 1⟩

/-- The landmark log of one step, include/RBPHDSLAM_2D.hpp 829-843: the map of particle `i_w_max`. -/
def logL (rd : K → K) (t : K) (i : Nat) (m : List (K × K × K × K × K × K)) : List (LRec K) :=
  m.map fun a => ⟨rd t, i, rd a.1, rd a.2.1, rd a.2.2.1, rd a.2.2.2.1, rd a.2.2.2.2.1, rd a.2.2.2.2.2⟩

/-- `map_e_M_[i].getTime().getTimeAsDouble() <= t_currentStep_`, src/analysis2dSim.cpp 216-220 and 238-242, for a landmark whose third column is `f`
(`MM(x, y, TimeStamp(t))`, 141-142); `none`: the number does not fit. -/
def counted (f : ℚ) (t : ℚ) : Option Bool := (setTimeD f).map fun s => decide (getTimeAsDouble s ≤ t)

/-- `map_e_k_M`: the landmarks that count at time `t`. -/
def observable {α : Type} (t : ℚ) : List (α × ℚ) → Option (List α)
  | [] => some []
  | m :: ms => (counted m.2 t).bind fun b => (observable t ms).map fun r => if b then m.1 :: r else r

/-- `calcLandmarkError`, src/analysis2dSim.cpp 229-250: COLA with cutoff 0.2 and order 1 between the estimated map and the landmarks that count. -/
noncomputable def landmarkError (est gt : List (ℝ × ℝ)) (fuel : Nat) : Option (Option ℝ) :=
  (OSPA.make est.length gt.length (fun i j => √((est[i].1 - gt[j].1) * (est[i].1 - gt[j].1) + (est[i].2 - gt[j].2) * (est[i].2 - gt[j].2))) (1 / 5) 1 fuel).map fun o =>
    (OSPA.colaError o true true).value

open Real in
/-- The angle error, src/analysis2dSim.cpp 256-260 and 294-297. -/
noncomputable def angleErr (a b : ℝ) : ℝ := if π < a - b then a - b - 2 * π else if a - b < -π then a - b + 2 * π else a - b

/-- The errors of one particle against the true pose: `ex`, `ey`, `er` and the distance, src/analysis2dSim.cpp 292-302. -/
noncomputable def errOf (gt : ℝ × ℝ × ℝ) (p : PRec ℝ) : Fin 4 → ℝ :=
  ![p.x - gt.1, p.y - gt.2.1, angleErr p.r gt.2.2, √((p.x - gt.1) * (p.x - gt.1) + (p.y - gt.2.1) * (p.y - gt.2.1))]

/-- The loop of `calcPoseError` with `getAverageError`, src/analysis2dSim.cpp 279-308. -/
noncomputable def sumErr (gt : ℝ × ℝ × ℝ) (ps : List (PRec ℝ)) : Fin 4 → ℝ := ps.foldl (fun e p => fun i => e i + errOf gt p i * p.w) 0

/-- `calcPoseError` with `getAverageError`, src/analysis2dSim.cpp 266-318. A sum of weights of zero is a division by zero (`none`). -/
noncomputable def avgErr (gt : ℝ × ℝ × ℝ) (s : Step ℝ) : Option (Fin 4 → ℝ) := if s.wSum = 0 then none else some fun i => sumErr gt s.parts i / s.wSum

/-- `calcPoseError` without `getAverageError`: the error of `particles_[i_hi_]`, zero if there is none, src/analysis2dSim.cpp 281-283 and 304-306. -/
noncomputable def bestErr (gt : ℝ × ℝ × ℝ) (s : Step ℝ) : Option (Fin 4 → ℝ) := s.iHi.map fun i => match s.parts[i]? with
  | some p => errOf gt p
  | none => 0

/-- A record of the landmark file read from the stream of its numbers: the columns in the order of the format string, src/analysis2dSim.cpp 198. The integer
column is taken as a number. Fewer than eight numbers: the call fails. -/
def nextRec : List K → Option ((K × K × (Fin 6 → K)) × List K)
  | a :: b :: c0 :: c1 :: c2 :: c3 :: c4 :: c5 :: rest => some ((a, b, ![c0, c1, c2, c3, c4, c5]), rest)
  | _ => none

/-- All the records of a stream. -/
def allRecs : Nat → List K → List (K × K × (Fin 6 → K))
  | 0, _ => []
  | n + 1, l => match nextRec l with
    | some (r, rest) => r :: allRecs n rest
    | none => []

/-- The numbers that a line of the PHD simulator holds, include/RBPHDSLAM_2D.hpp 838-841. -/
def colsPHD (r : K × K × (Fin 6 → K)) : List K := [r.1, r.2.1, r.2.2 0, r.2.2 1, r.2.2 2, r.2.2 3, r.2.2 4, r.2.2 5]

/-- Those of the LMB and CB-MeMBer simulators, include/RBLMBSLAM_2D.hpp 844-847, src/rbcbmemberslam2dSim.cpp 628-631: the existence probability of the track comes before the weight. -/
def colsLMB (p : K) (r : K × K × (Fin 6 → K)) : List K := [r.1, r.2.1, r.2.2 0, r.2.2 1, r.2.2 2, r.2.2 3, r.2.2 4, p, r.2.2 5]

end Analysis
end RFS
