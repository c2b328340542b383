import Mathlib.Algebra.Order.Ring.Int
import Mathlib.Data.List.Basic

/-!
Model of `Timer` (src/Timer.cpp 39-66), of the timers of the filters (include/RBPHDFilter.hpp 417-685, include/RBLMBFilter.hpp 276-300 and 428-885, include/RBCBMeMBerFilter.hpp 280-303 and 428-650, include/FastSLAM.hpp 366-432 and
435-730) and of the line "Total" that the programs print from them (e.g. include/RBPHDSLAM_2D.hpp 879-893, src/rblmbslam2dSim.cpp 666-680, src/fastslam2dSim.cpp 665-679).

A program is the list of what it does with timers, with the passing of time in between: how long each part takes is arbitrary. The clock is wall time; cpu times are treated in the same way by the class, with the cpu time of the process
as the clock. Times are integers (nanoseconds) without bounds. `boost::timer::cpu_timer` is modelled after its documentation: the constructor starts it; `stop` on a stopped timer and `resume` on a running one do nothing.
Reading the clock takes no time; a call of a filter is not interrupted by an exception. Parallel regions are lists of all that happens in them, in the order of time: with more than one thread only `stop` of one timer (include/RBPHDFilter.hpp 580, 669) happens there.
-/

namespace RFS
namespace Timing

/-- Timers of the filters: `timer_predict_`, `timer_mapUpdate_`, `timer_mapUpdate_kf_` (`timer_mapUpdate_KF_`), `timer_particleWeighting_` (`timer_weighting_`), `timer_mapMerge_`, `timer_mapPrune_`, `timer_particleResample_`; of `FastSLAM` alone:
`timer_dataAssoc_`, `timer_mapManage_`. -/
inductive Name
  | predict
  | mapUpdate
  | kf
  | weighting
  | merge
  | prune
  | resample
  | assoc
  | manage
deriving DecidableEq

/-- A `cpu_timer`: `m_is_stopped` and `m_times.wall`, which is the time of the start if it runs, the time measured if it is stopped. -/
structure Tm where
  stopped : Bool
  t : ℤ

/-- `cpu_timer::start`. -/
def Tm.start (now : ℤ) : Tm := ⟨false, now⟩

/-- `cpu_timer::stop`. -/
def Tm.stop (now : ℤ) (c : Tm) : Tm := if c.stopped then c else ⟨true, now - c.t⟩

/-- `cpu_timer::resume`. -/
def Tm.resume (now : ℤ) (c : Tm) : Tm := if c.stopped then ⟨false, now - c.t⟩ else c

/-- `cpu_timer::elapsed`. -/
def Tm.elapsed (now : ℤ) (c : Tm) : ℤ := if c.stopped then c.t else now - c.t

/-- `Timer::Timer`, Timer.cpp 39-41: constructed at `a`, stopped at `b`. -/
def Tm.new (a b : ℤ) : Tm := (Tm.start a).stop b

/-- What a program does: time passes, or a timer is called. -/
inductive Ev
  | work (d : Nat)
  | start (n : Name)
  | stop (n : Name)
  | resume (n : Name)
deriving DecidableEq

structure World where
  now : ℤ
  tm : Name → Tm

def step (w : World) : Ev → World
  | .work d => { w with now := w.now + d }
  | .start n => { w with tm := fun m => if m = n then Tm.start w.now else w.tm m }
  | .stop n => { w with tm := fun m => if m = n then (w.tm n).stop w.now else w.tm m }
  | .resume n => { w with tm := fun m => if m = n then (w.tm n).resume w.now else w.tm m }

def exec (evs : List Ev) (w : World) : World := evs.foldl step w

/-- `Timer::elapsed`, Timer.cpp 61-65. -/
def World.elapsed (w : World) (n : Name) : ℤ := (w.tm n).elapsed w.now

/-! ### The random finite set filters -/

/-- How long the parts of `updateMap` take for a particle (RBPHDFilter.hpp 545-735): up to line 573, the sum of the weights (lines 574-581), the table (582-588), the Kalman filter part (589-661), the weight (663-670), the rest. `map`: there are landmarks. -/
structure PartDur where
  map : Bool
  first : Nat
  sum : Nat
  table : Nat
  kf : Nat
  weight : Nat
  rest : Nat

/-- How long the parts of an `update` take. -/
structure UpdDur where
  /-- Whether there are measurements. -/
  some : Bool
  setup : Nat
  copy : Nat
  parts : List PartDur
  weighting : Nat
  merge : Nat
  prune : Nat
  resample : Nat

/-- `RBPHDFilter` (with `useClusterProcess_` or not); `RBLMBFilter` and `RBCBMeMBerFilter`. -/
inductive Kind
  | phd (cluster : Bool)
  | mb

/-- Events only if there is one thread. -/
def when (b : Bool) (l : List Ev) : List Ev := if b then l else []

/-- The parts of a particle's weighting in `updateMap` with the cluster process, lines 573-581 and 663-670: `stop` is called in any case. -/
def clusterEvs (k : Kind) (one : Bool) (d : Nat) : List Ev :=
  match k with
  | .phd true => when one [.resume .weighting] ++ [.work d, .stop .weighting]
  | _ => [.work d]

/-- `updateMap`, RBPHDFilter.hpp 545-735, RBLMBFilter.hpp 516-884, RBCBMeMBerFilter.hpp 514-650. In the latter two the timer of the Kalman filter part is stopped before the weight is computed. -/
def updateMapEvs (k : Kind) (one : Bool) (p : PartDur) : List Ev :=
  if p.map then
    match k with
    | .phd _ => [.work p.first] ++ clusterEvs k one p.sum ++ [.work p.table] ++ when one [.resume .kf] ++ [.work p.kf] ++ clusterEvs k one p.weight ++ when one [.stop .kf] ++ [.work p.rest]
    | .mb => [.work p.first, .work p.sum, .work p.table] ++ when one [.resume .kf] ++ [.work p.kf] ++ when one [.stop .kf] ++ [.work p.weight, .work p.rest]
  else [.work p.first]

/-- The loop over the particles: with one thread one after the other; with several threads what happens is `par`. -/
def mapEvs (k : Kind) (one : Bool) (ps : List PartDur) (par : List Ev) : List Ev := if one then ps.flatMap (updateMapEvs k one) else par

/-- A loop with a timer of its own, used with one thread only. -/
def loopEvs (one : Bool) (n : Name) (d : Nat) : List Ev := when one [.resume n] ++ [.work d] ++ when one [.stop n]

/-- The loop of `importanceWeighting`, RBPHDFilter.hpp 484-496. -/
def weightEvs (k : Kind) (one : Bool) (d : Nat) : List Ev :=
  match k with
  | .phd false => loopEvs one .weighting d
  | _ => []

/-- `update`, RBPHDFilter.hpp 446-542, RBLMBFilter.hpp 428-513, RBCBMeMBerFilter.hpp 428-510. `one`: `nThreads_ == 1`. -/
def updateEvs (k : Kind) (one : Bool) (u : UpdDur) (par : List Ev) : List Ev :=
  [.work u.setup] ++
    if u.some then
      [.work u.copy] ++ when (!one) [.resume .mapUpdate] ++ when one [.resume .mapUpdate] ++ mapEvs k one u.parts par ++ when one [.stop .mapUpdate] ++ weightEvs k one u.weighting ++ loopEvs one .merge u.merge ++
        loopEvs one .prune u.prune ++ when (!one) [.stop .mapUpdate] ++ [.resume .resample, .work u.resample, .stop .resample]
    else []

/-- What the program does with a filter: anything else, a call of `predict`, a call of `update`. -/
inductive Call
  | other (d : Nat)
  | predict (d : Nat)
  | update (u : UpdDur) (par : List Ev)

/-- `predict`: RBPHDFilter.hpp 417-443, RBLMBFilter.hpp 276-300, RBCBMeMBerFilter.hpp 280-303, FastSLAM.hpp 366-387. -/
def predictEvs (d : Nat) : List Ev := [.resume .predict, .work d, .stop .predict]

def callEvs (k : Kind) (one : Bool) : Call → List Ev
  | .other d => [.work d]
  | .predict d => predictEvs d
  | .update u par => updateEvs k one u par

/-- A run of a program. -/
def runEvs (k : Kind) (one : Bool) (cs : List Call) : List Ev := cs.flatMap (callEvs k one)

/-- The line "Total" of the programs with RB-PHD, LMB and CB-MeMBer filters. -/
def total (w : World) : ℤ := w.elapsed .predict + w.elapsed .mapUpdate + w.elapsed .weighting + w.elapsed .merge + w.elapsed .prune + w.elapsed .resample

/-! ### FastSLAM -/

/-- Durations of a data association hypothesis, FastSLAM.hpp 578-728: up to line 594, Kalman filter, map management, weighting. -/
structure HypDur where
  first : Nat
  kf : Nat
  manage : Nat
  weight : Nat

/-- Durations of `FastSLAM::updateMap`: up to line 450, data association (to line 576), the hypotheses, the rest. -/
structure FPart where
  first : Nat
  assoc : Nat
  hyps : List HypDur
  rest : Nat

structure FUpd where
  some : Bool
  setup : Nat
  copy : Nat
  parts : List FPart
  resample : Nat

/-- The loop over the hypotheses. The timers are compiled only without OpenMP (`omp`). -/
def hypEvs (omp : Bool) (h : HypDur) : List Ev :=
  [.work h.first] ++ when (!omp) [.resume .kf] ++ [.work h.kf] ++ when (!omp) [.stop .kf, .resume .manage] ++ [.work h.manage] ++ when (!omp) [.stop .manage, .resume .weighting] ++ [.work h.weight] ++ when (!omp) [.stop .weighting]

/-- `FastSLAM::updateMap`, FastSLAM.hpp 435-730. -/
def fMapEvs (omp : Bool) (p : FPart) : List Ev :=
  [.work p.first] ++ when (!omp) [.resume .assoc] ++ [.work p.assoc] ++ when (!omp) [.stop .assoc] ++ p.hyps.flatMap (hypEvs omp) ++ [.work p.rest]

/-- `FastSLAM::update`, FastSLAM.hpp 389-432. With several threads the time of the loop is less than the sum of the times of the iterations: `save` is the duration of the loop then. -/
def fUpdateEvs (omp : Bool) (save : Option Nat) (u : FUpd) : List Ev :=
  [.work u.setup] ++
    if u.some then
      [.work u.copy, .resume .mapUpdate] ++ (match omp, save with
        | true, some d => [.work d]
        | _, _ => u.parts.flatMap (fMapEvs omp)) ++ [.stop .mapUpdate, .resume .resample, .work u.resample, .stop .resample]
    else []

inductive FCall
  | other (d : Nat)
  | predict (d : Nat)
  | update (u : FUpd) (save : Option Nat)

def fCallEvs (omp : Bool) : FCall → List Ev
  | .other d => [.work d]
  | .predict d => predictEvs d
  | .update u save => fUpdateEvs omp save u

def fRunEvs (omp : Bool) (cs : List FCall) : List Ev := cs.flatMap (fCallEvs omp)

/-- The line "Total" of the programs with FastSLAM, src/fastslam2dSim.cpp 665-679, src/fastslam_VictoriaPark.cpp 681-695. -/
def fTotal (w : World) : ℤ := w.elapsed .predict + w.elapsed .assoc + w.elapsed .kf + w.elapsed .weighting + w.elapsed .manage + w.elapsed .resample

end Timing
end RFS
