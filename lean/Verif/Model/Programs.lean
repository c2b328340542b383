import Verif.Model.Sim

/-!
Model of the main programs as far as random numbers are concerned: when they seed `drand48`, call `initializeGaussianGenerators`, generate data, construct the filter and run it.

What the programs do with the numbers is arbitrary: data generation and filter run are computations that draw numbers (`Draws`), the run may depend on the data. The distribution of the work over the threads
is part of such a computation: it says which thread draws next. `drand48` and `lrand48` share one state; engines and distributions are abstract. Drawing without a generator (index out of range in `RandomVec::sample`) is
undefined (`none`). Both options, trajectory number and seed, are given by the user. The two extra generators of the amplitude program (seeded by `rand()`), which no other program has, are left out.
-/

namespace RFS
namespace Programs

/-- A computation that draws numbers of type `V`: from `drand48`, or from the normal distribution of a thread (`RandomVec::sample`, include/RandomVec.hpp 598-645). -/
inductive Draws (V A : Type) where
  | ret (a : A)
  | uniform (k : V → Draws V A)
  | normal (thread : Nat) (k : V → Draws V A)

/-- Library functions: `srand48`, `drand48`, `lrand48`, the constructor of `boost::mt19937`, `boost::normal_distribution`. -/
structure Lib (S G N V : Type) where
  srand : Nat → S
  drand : S → V × S
  lrand : S → Nat × S
  mt : Nat → G
  fresh : N
  norm : N → G → V × N × G

/-- State of `drand48`, `randomGenerators_`, `gaussianGenerators_` (src/GaussianGenerators.cpp 37-40). -/
structure State (S G N : Type) where
  rng : S
  engines : List G
  normals : List N

variable {S G N V A : Type}

/-- The loop of `initializeGaussianGenerators`, src/GaussianGenerators.cpp 48-52. -/
def pushGens (l : Lib S G N V) : Nat → State S G N → State S G N
  | 0, s => s
  | n + 1, s => pushGens l n ⟨(l.lrand s.rng).2, s.engines ++ [l.mt (l.lrand s.rng).1], s.normals ++ [l.fresh]⟩

/-- `initializeGaussianGenerators`, src/GaussianGenerators.cpp 42-55. -/
def init (l : Lib S G N V) (nThreads : Nat) (s : State S G N) : State S G N := pushGens l nThreads { s with normals := [] }

/-- The numbers drawn by a computation. -/
def exec (l : Lib S G N V) : Draws V A → State S G N → Option (A × State S G N)
  | .ret a, s => some (a, s)
  | .uniform k, s => exec l (k (l.drand s.rng).1) { s with rng := (l.drand s.rng).2 }
  | .normal t k, s =>
    match s.engines[t]?, s.normals[t]? with
    | some g, some n => exec l (k (l.norm n g).1) { s with engines := s.engines.set t (l.norm n g).2.2, normals := s.normals.set t (l.norm n g).2.1 }
    | _, _ => none

/-- What a main program does, in order. `setup`: the filter is constructed (`ParticleFilter`, include/ParticleFilter.hpp 241-242, seeds with the time). -/
inductive Stmt where
  | setup
  | srandTraj
  | srandSeed
  | srandTime
  | init
  | gen
  | run
deriving DecidableEq

/-- What the program is given: trajectory number, seed, time, generation of data, filter run. -/
structure Env (V D R : Type) where
  traj : Nat
  seed : Nat
  time : Nat
  gen : Draws V D
  run : D → Draws V R

variable {D R : Type}

/-- Execution of a program; `d` are the data (`d0` for programs that read them from files), `r` the result of the run. -/
def execProg (l : Lib S G N V) (nThreads : Nat) (e : Env V D R) : List Stmt → State S G N → D → Option R → Option (D × Option R)
  | [], _, d, r => some (d, r)
  | .setup :: p, s, d, r => execProg l nThreads e p { s with rng := l.srand e.time } d r
  | .srandTraj :: p, s, d, r => execProg l nThreads e p { s with rng := l.srand e.traj } d r
  | .srandSeed :: p, s, d, r => execProg l nThreads e p { s with rng := l.srand e.seed } d r
  | .srandTime :: p, s, d, r => execProg l nThreads e p { s with rng := l.srand e.time } d r
  | .init :: p, s, d, r => execProg l nThreads e p (Programs.init l nThreads s) d r
  | .gen :: p, s, _, r => (exec l e.gen s).bind fun q => execProg l nThreads e p q.2 q.1 r
  | .run :: p, s, d, _ => (exec l (e.run d) s).bind fun q => execProg l nThreads e p q.2 d (some q.1)

/-- The start of the process: `rng0` is the state `drand48` starts with. -/
def start (rng0 : S) : State S G N := ⟨rng0, [], []⟩

/-- src/rbphdslam2dSim.cpp 75-91 with `generateTrajectory` of include/RBPHDSLAM_2D.hpp 333-334. -/
def rbphdslam2dSim : List Stmt := [.setup, .srandTraj, .init, .gen, .srandSeed, .init, .run]

/-- src/rblmbslam2dSim.cpp 148-149, 790-808. -/
def rblmbslam2dSim : List Stmt := [.srandTraj, .init, .gen, .setup, .srandSeed, .init, .run]

/-- src/rbcbmemberslam2dSim.cpp 149-150, 793-810. -/
def rbcbmemberslam2dSim : List Stmt := [.srandTraj, .init, .gen, .setup, .srandSeed, .run]

/-- src/rbphdslam6dSim.cpp 187-188, 1012-1030. -/
def rbphdslam6dSim : List Stmt := [.srandTraj, .init, .gen, .setup, .srandSeed, .run]

/-- src/fastslam2dSim.cpp 144, 830-847. -/
def fastslam2dSim : List Stmt := [.srandTraj, .gen, .setup, .srandSeed, .run]

/-- src/rbphdslam2dSim_amplitude.cpp 152-153, 748-761. -/
def rbphdslam2dSim_amplitude : List Stmt := [.srandTraj, .init, .gen, .setup, .srandTime, .run]

/-- src/rbphdslam_VictoriaPark.cpp 868-882. -/
def rbphdslam_VictoriaPark : List Stmt := [.setup, .srandSeed, .init, .run]

/-- src/fastslam_VictoriaPark.cpp 856-869. -/
def fastslam_VictoriaPark : List Stmt := [.setup, .srandSeed, .run]

/-- src/rbphdslamCityTrees10000.cpp 78-97. -/
def rbphdslamCityTrees10000 : List Stmt := [.setup, .srandSeed, .init, .run]

/-- src/rblmbslamCityTrees10000.cpp 78-97. -/
def rblmbslamCityTrees10000 : List Stmt := [.setup, .srandSeed, .init, .run]

/-- src/rfspsoslam1dSim.cpp 141-142, 722-740; src/rfspsoorbslam1dSim.cpp 144-145, 738-756; src/rfspsoslam2dSim.cpp 145-146, 742-760; src/rfsceresslam1dSim.cpp 160-161, 808-829;
src/rfsceresslam2dSim.cpp 253-254, 934-955. -/
def batchSim : List Stmt := [.srandTraj, .init, .gen, .srandSeed, .init, .run]

end Programs
end RFS
