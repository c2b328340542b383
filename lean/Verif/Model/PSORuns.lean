import Verif.Model.PSO
import Verif.Model.Batch
import Mathlib.Algebra.Order.Floor.Defs
import Mathlib.Order.BoundedOrder.Basic

/-!
Model of a whole run of the particle swarm programs: `RFSPSOSLAM::init`, `moveParticles` with its trajectories, `optimizeParticles` (include/RFSPSOSLAM.hpp 362-501, 629-686) and the loops of
`src/rfspsoslam1dSim.cpp` (513-634), `src/rfspsoslam2dSim.cpp` (528-649) and `src/rfspsoorbslam1dSim.cpp` (518-640) with what they write to their files.

Simplifications: exact arithmetic over an ordered field; the likelihood of a trajectory and a map (lines 722-735), the motion model, the inverse measurement model, the assignment of `OSPA` and the
optimiser `ceres::Solve` are arbitrary functions; a trajectory is the list of the means of its poses (time stamps and covariances are left out); the iterations of the parallel loop of `optimizeParticles`
touch their own particle and objects of their own, so the loop is a map over the particles; the progress bar is left out. `none`: undefined behaviour or an exception that nobody catches (`at(0)`).
-/

namespace RFS
namespace PSORuns
open PSO

variable {K Λ Z : Type} {P d n : Nat}

/-- `trajectory`, `trajectory_velocity` and `inputs` of a particle (include/RFSPSOParticle.hpp 54-59). -/
structure Traj (K : Type) (P : Nat) where
  pos : List (Fin P → K)
  vel : List (Fin P → K)
  inp : List (Fin P → K)

/-- A particle with its trajectory. -/
abbrev Pt (K Λ : Type) (P d : Nat) := Part (Traj K P) (Fin d → K) Λ

/-- The models: likelihood of a trajectory and a map; a step of the motion model; inverse measurement; distance and assignment of `OSPA`. -/
structure Env (K Λ Z : Type) (P d : Nat) where
  lik : List (Fin P → K) → List (Fin d → K) → Λ
  step : (Fin P → K) → (Fin P → K) → Fin P → K
  inv : (Fin P → K) → Z → Fin d → K
  dist : (Fin d → K) → (Fin d → K) → K
  asg : List (Fin d → K) → List (Fin d → K) → Nat → Nat

/-- Members of `config`: those of `Verif.Model.PSO`, the number of neighbours, `use_global`, `mapFromMeasurementProb_`. -/
structure RCfg (K : Type) where
  lm : PSO.Cfg K
  nb : Nat
  useGlobal : Bool
  prob : K

/-- What changes during a run: the particles with the best one, `topology_`, the read position of the random numbers. -/
structure St (K Λ : Type) (P d n : Nat) where
  obj : Obj n (Traj K P) (Fin d → K) Λ
  top : List (List Nat)
  rp : Nat

section init
variable [Field K] [LinearOrder K]

/-- Lines 648-652: the trajectory along the sampled inputs `us`, from the default pose. -/
def along (step : (Fin P → K) → (Fin P → K) → Fin P → K) : (Fin P → K) → List (Fin P → K) → List (Fin P → K)
  | x, [] => [x]
  | x, u :: us => x :: along step (step x u) us

/-- `initTrajectories` for one particle, lines 642-658; `us` are the inputs `sample` draws. -/
def initTraj (step : (Fin P → K) → (Fin P → K) → Fin P → K) (us : List (Fin P → K)) : Traj K P :=
  ⟨along step 0 us, List.replicate (us.length + 1) 0, us⟩

/-- Lines 668-678: the landmarks made from measurements for one particle. -/
def initLms (inv : (Fin P → K) → Z → Fin d → K) (prob : K) (rnd : Nat → K) (pos : List (Fin P → K)) (Zs : List (List Z)) (rp : Nat) : Option (List (Fin d → K) × Nat) :=
  (List.range pos.length).foldlM (fun s k =>
    match pos[k]?, Zs[k]? with
    | some x, some zs => some (zs.foldl (fun s z => (if rnd s.2 < prob then s.1 ++ [inv x z] else s.1, s.2 + 1)) s)
    | _, _ => none) ([], rp)

/-- A particle after `initTrajectories` and `initMaps`; likelihoods are minus infinity (include/RFSPSOParticle.hpp 61-62). -/
def initPart [Bot Λ] (t : Traj K P) (lms : List (Fin d → K)) : Pt K Λ P d := PSO.initMap 0 lms ⟨t, [], [], t, [], [], ⊥, ⊥⟩

/-- Lines 664-686 for all particles. -/
def initParts [Bot Λ] (env : Env K Λ Z P d) (cfg : RCfg K) (rnd : Nat → K) (us : Fin n → List (Fin P → K)) (Zs : List (List Z)) (l : List (Fin n))
    (s : (Fin n → Pt K Λ P d) × Nat) : Option ((Fin n → Pt K Λ P d) × Nat) :=
  l.foldlM (fun s i => (initLms env.inv cfg.prob rnd (initTraj env.step (us i)).pos Zs s.2).map fun r =>
    (Function.update s.1 i (initPart (initTraj env.step (us i)) r.1), r.2)) s

variable [FloorSemiring K]

/-- `updateTopology`, lines 321-357, with the random numbers it draws: `rand_k = floor(drand48() * nParticles_)`. -/
def newTop (cfg : RCfg K) (n : Nat) (rnd : Nat → K) (top : List (List Nat)) (rp : Nat) : Option (List (List Nat) × Nat) :=
  (updateTopology cfg.useGlobal n cfg.nb (fun i j => ⌊rnd (rp + i * cfg.nb + j) * n⌋₊) top).map fun t => (t, if cfg.useGlobal then rp else rp + n * cfg.nb)

/-- `init`, lines 629-638, of a new object. -/
def init [Bot Λ] (env : Env K Λ Z P d) (cfg : RCfg K) (rnd : Nat → K) (us : Fin n → List (Fin P → K)) (Zs : List (List Z)) : Option (St K Λ P d n) :=
  let p0 : Pt K Λ P d := ⟨⟨[], [], []⟩, [], [], ⟨[], [], []⟩, [], [], ⊥, ⊥⟩
  (initParts env cfg rnd us Zs (List.finRange n) (fun _ => p0, 0)).bind fun s =>
    (newTop cfg n rnd [] s.2).map fun t => ⟨⟨s.1, p0, false⟩, t.1, t.2⟩

/-! ### Moving -/

/-- Lines 403-417, one pose: velocity, position, read position. `other`: another particle attracts this one. -/
def movePose (cfg : PSO.Cfg K) (rnd : Nat → K) (other : Bool) (v p b g : Fin P → K) (rp : Nat) : (Fin P → K) × (Fin P → K) × Nat :=
  let c := if other then 2 else 1
  let v' : Fin P → K := fun k =>
    let own := v k * cfg.w + cfg.phiP * (rnd rp * 10 + rnd (rp + 2 + k * c)) / 11 * (b k - p k)
    if other then own + cfg.phiG * (rnd (rp + 1) * 10 + rnd (rp + 2 + k * c + 1)) / 11 * (g k - p k) else own
  (v', fun k => p k + v' k, rp + 2 + P * c)

/-- The loop of lines 402-418: the poses of the particle, its own best trajectory, the best trajectory of the attracting particle. -/
def moveTraj (cfg : PSO.Cfg K) (rnd : Nat → K) (other : Bool) (t best glob : Traj K P) (rp : Nat) : Option (Traj K P × Nat) :=
  (List.range t.pos.length).foldlM (fun s k =>
    match s.1.vel[k]?, s.1.pos[k]?, best.pos[k]?, (if other then glob.pos[k]? else s.1.pos[k]?) with
    | some v, some p, some b, some g =>
      let r := movePose cfg rnd other v p b g s.2
      some ({ s.1 with vel := s.1.vel.set k r.1, pos := s.1.pos.set k r.2.1 }, r.2.2)
    | _, _, _, _ => none) (t, rp)

/-- Lines 402-426: particle `p`, attracted by `a`. -/
def movePt (env : Env K Λ Z P d) (cfg : RCfg K) (rnd : Nat → K) (other : Bool) (p a : Pt K Λ P d) (rp : Nat) : Option (Pt K Λ P d × Nat) :=
  (moveTraj cfg.lm rnd other p.traj p.bestTraj a.bestTraj rp).bind fun t =>
    movePart cfg.lm env.dist rnd env.asg (fun _ _ _ => t.1) p a t.2

/-- `topology_[i]` as particles. -/
def neighbours (n : Nat) (top : List (List Nat)) (i : Nat) : Option (List (Fin n)) :=
  (top[i]?).bind fun l => l.mapM fun j => if h : j < n then some ⟨j, h⟩ else none

variable [LinearOrder Λ]

/-- Lines 371-428, particle `i`. -/
def moveOne (env : Env K Λ Z P d) (cfg : RCfg K) (rnd : Nat → K) (top : List (List Nat)) (s : (Fin n → Pt K Λ P d) × Nat) (i : Fin n) :
    Option ((Fin n → Pt K Λ P d) × Nat) :=
  (neighbours n top i).bind fun nb =>
    let a := attractor s.1 i nb
    (movePt env cfg rnd (decide (a ≠ i)) (s.1 i) (s.1 a) s.2).map fun r => (Function.update s.1 i r.1, r.2)

/-- `moveParticles`, lines 362-430. -/
def move (env : Env K Λ Z P d) (cfg : RCfg K) (rnd : Nat → K) (s : St K Λ P d n) : Option (St K Λ P d n) :=
  (if s.obj.improved then some (s.top, s.rp) else newTop cfg n rnd s.top s.rp).bind fun t =>
    ((List.finRange n).foldlM (moveOne env cfg rnd t.1) (s.obj.parts, t.2)).map fun r => ⟨{ s.obj with parts := r.1 }, t.1, r.2⟩

end init

/-! ### Optimising -/

section opt
variable [AddGroup K]

/-- Lines 484-486: the poses but the first, read back from the parameters `ps`. -/
def posBack (pos : List (Fin P → K)) (ps : Nat → K) : List (Fin P → K) := pos.mapIdx fun k x => if k = 0 then x else fun e => ps ((k - 1) * P + e)

/-- Line 487: the inputs, as differences of poses. -/
def inpBack (pos inp : List (Fin P → K)) : List (Fin P → K) :=
  inp.mapIdx fun k u => match pos[k]?, pos[k + 1]? with
    | some x, some y => fun e => y e - x e
    | _, _ => u

/-- Lines 492-496. -/
def lmsBack (T : Nat) (lms : List (Fin d → K)) (ps : Nat → K) : List (Fin d → K) := lms.mapIdx fun m _ e => ps ((T - 1) * P + m * d + e)

/-- An iteration of `optimizeParticles`, lines 437-495: `solve` is `ceres::Solve`, which changes the array of parameters in place. (The objective reads the second pose: include/RFSCeresSLAM.hpp 531-535.) -/
def optPart (solve : List K → Nat → K) (p : Pt K Λ P d) : Option (Pt K Λ P d) :=
  if p.traj.pos.length < 2 ∨ p.traj.inp.length + 1 < p.traj.pos.length then none
  else
    (Batch.initParams p.traj.pos p.lms).bind fun ps => (ps.mapM id).map fun ps =>
      let pos := posBack p.traj.pos (solve ps)
      { p with traj := ⟨pos, p.traj.vel, inpBack pos p.traj.inp⟩, lms := lmsBack (P := P) p.traj.pos.length p.lms (solve ps) }

/-- `optimizeParticles`, lines 432-499. -/
def optimize (solve : Fin n → List K → Nat → K) (s : St K Λ P d n) : Option (St K Λ P d n) :=
  if ∀ i, (optPart (solve i) (s.obj.parts i)).isSome then
    some { s with obj := { s.obj with parts := fun i => (optPart (solve i) (s.obj.parts i)).getD (s.obj.parts i) } }
  else none
end opt

/-! ### The programs -/

section run
variable [Field K] [LinearOrder K] [FloorSemiring K] [LinearOrder Λ]

/-- How the threads run an evaluation. -/
structure Sched (n : Nat) where
  thread : Fin n → Nat
  evs : List (Ev n)

/-- `evaluateLikelihoods`. (The flag for a data race is the subject of C54.) -/
def evalAll (env : Env K Λ Z P d) (h0 : 0 < n) (σ : Sched n) (s : St K Λ P d n) : St K Λ P d n :=
  { s with obj := (evaluate (fun t l => env.lik t.pos l) σ.thread h0 σ.evs s.obj).1 }

/-- The programs: `src/rfspsoslam1dSim.cpp` and `src/rfspsoslam2dSim.cpp`, which are alike, and `src/rfspsoorbslam1dSim.cpp`. -/
inductive Prog
  | sim
  | orb
deriving DecidableEq

/-- What is outside the program: random numbers, thread schedules (two evaluations in an iteration at most), the results of the optimiser. -/
structure World (K : Type) (n : Nat) where
  rnd : Nat → K
  sched : Nat → Nat → Sched n
  solve : Nat → Fin n → List K → Nat → K

/-- An iteration: rfspsoslam1dSim.cpp 549-552 and rfspsoslam2dSim.cpp 564-567; rfspsoorbslam1dSim.cpp 560-566. `every` is `optimizeEveryIterations_`. -/
def body (pr : Prog) (env : Env K Λ Z P d) (cfg : RCfg K) (W : World K n) (h0 : 0 < n) (every : Int) (it : Nat) (s : St K Λ P d n) : Option (St K Λ P d n) :=
  let opt := decide (0 < every ∧ (it : Int) % every = 0)
  match pr with
  | .sim => (if opt then optimize (W.solve it) s else some s).bind fun s => move env cfg W.rnd (evalAll env h0 (W.sched it 0) s)
  | .orb =>
    let s := evalAll env h0 (W.sched it 0) s
    (if opt then (optimize (W.solve it) s).map (evalAll env h0 (W.sched it 1)) else some s).bind fun s => move env cfg W.rnd s

/-- What the files hold: a line of `particlePose.dat` is iteration, likelihood and trajectory, a line of `landmarkEst.dat` iteration and landmarks, each in the order of the particles. -/
structure Files (K Λ : Type) (P d : Nat) where
  pose : List (Nat × Λ × List (Fin P → K))
  lms : List (Nat × List (Fin d → K))
  best : List (Nat × Λ × List (Fin P → K))

/-- The lines written in an iteration: rfspsoslam1dSim.cpp 517-545 and 581-608, rfspsoslam2dSim.cpp 532-560 and 596-623, rfspsoorbslam1dSim.cpp 528-556 and 595-622. Nothing is ever written to `bestParticlePose.dat`. -/
def log (it : Nat) (s : St K Λ P d n) (f : Files K Λ P d) : Files K Λ P d :=
  { f with pose := f.pose ++ (List.finRange n).map fun i => (it, (s.obj.parts i).cur, (s.obj.parts i).traj.pos)
           lms := f.lms ++ (List.finRange n).map fun i => (it, (s.obj.parts i).lms) }

/-- The values of `iteration` with which the body of `for(iteration++; iteration < maxiter_; iteration++)` (`<=` in rfspsoorbslam1dSim.cpp 559) is run, `iteration` being 0 before. -/
def iterations (pr : Prog) (maxiter : Int) : List Nat :=
  (List.range' 1 (maxiter.toNat + 1)).takeWhile fun it => match pr with
    | .sim => decide ((it : Int) < maxiter)
    | .orb => decide ((it : Int) ≤ maxiter)

/-- The state and the files before the loop: rfspsoslam1dSim.cpp 513-545, rfspsoslam2dSim.cpp 528-560, rfspsoorbslam1dSim.cpp 518-556. -/
def start [Bot Λ] (pr : Prog) (env : Env K Λ Z P d) (cfg : RCfg K) (W : World K n) (h0 : 0 < n) (us : Fin n → List (Fin P → K)) (Zs : List (List Z)) :
    Option (St K Λ P d n × Files K Λ P d) :=
  (init env cfg W.rnd us Zs).map fun s =>
    let s := match pr with
      | .sim => s
      | .orb => evalAll env h0 (W.sched 0 0) s
    (s, log 0 s ⟨[], [], []⟩)

/-- The loop. -/
def loop (pr : Prog) (env : Env K Λ Z P d) (cfg : RCfg K) (W : World K n) (h0 : 0 < n) (every : Int) (its : List Nat) (s : St K Λ P d n × Files K Λ P d) :
    Option (St K Λ P d n × Files K Λ P d) :=
  its.foldlM (fun s it => (body pr env cfg W h0 every it s.1).map fun t => (t, log it t s.2)) s

/-- The run up to the end of the loop. -/
def optimise [Bot Λ] (pr : Prog) (env : Env K Λ Z P d) (cfg : RCfg K) (W : World K n) (h0 : 0 < n) (every maxiter : Int) (us : Fin n → List (Fin P → K)) (Zs : List (List Z)) :
    Option (St K Λ P d n × Files K Λ P d) :=
  (start pr env cfg W h0 us Zs).bind fun s => loop pr env cfg W h0 every (iterations pr maxiter) s

/-- The end: rfspsoslam1dSim.cpp 616-620 and rfspsoslam2dSim.cpp 631-635, rfspsoorbslam1dSim.cpp 626-634. The first particle gets the true trajectory and map; the first two programs evaluate all particles again, the third
one computes the likelihood only. The likelihood printed. -/
def truth (pr : Prog) (env : Env K Λ Z P d) (σ : Sched n) (h0 : 0 < n) (gt : List (Fin P → K)) (gl : List (Fin d → K)) (s : St K Λ P d n) : St K Λ P d n × Λ :=
  let i0 : Fin n := ⟨0, h0⟩
  let p := s.obj.parts i0
  let s1 : St K Λ P d n := { s with obj := { s.obj with parts := Function.update s.obj.parts i0 { p with traj := { p.traj with pos := gt }, lms := gl } } }
  match pr with
  | .sim => (evalAll env h0 σ s1, ((evalAll env h0 σ s1).obj.parts i0).cur)
  | .orb => (s1, env.lik gt gl)

end run
end PSORuns
end RFS
