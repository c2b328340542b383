import Mathlib.Algebra.Order.Field.Basic
import Mathlib.Algebra.BigOperators.Group.List.Basic
import Mathlib.Data.List.Basic
import Mathlib.Logic.Function.Basic

/-!
Model of `rfs::ParticleFilter` (include/ParticleFilter.hpp) and `rfs::Particle` (include/Particle.hpp).

Simplifications: exact arithmetic over an ordered field; pose, covariance, trajectory and extra data of a particle are one opaque
state of type `S`, copied as a whole (`Particle::copy`, Particle.hpp 217-223; `*data_` must exist); ids are natural numbers;
`nParticles_` is the length of `particleSet_`; `drand48()` is an arbitrary number of `[0, 1)` given as argument. Access outside an
array is the outcome `none`.
-/

namespace RFS
namespace PF

/-- `Particle`, include/Particle.hpp 145-148. -/
structure Part (S K : Type*) where
  st : S
  id : Nat
  parent : Nat
  w : K
deriving DecidableEq

variable {S K : Type*} [Field K] [LinearOrder K]

/-- `addParticles`, include/ParticleFilter.hpp 246-276: the new particles have ids `0, …, n-1`. -/
def addParticles (P : List (Part S K)) (n : Nat) (x0 : S) (w0 : K) : List (Part S K) :=
  P ++ (List.range n).map fun i => ⟨x0, i, i, if w0 < 0 then 0 else w0⟩

/-- `copyParticle`, lines 278-301. -/
def copyParticle (P : List (Part S K)) (idx n : Nat) (w : K) : Option (List (Part S K)) :=
  match P[idx]? with
  | none => none
  | some p =>
    let w' := if w < 0 then p.w else w
    let p' : Part S K := { p with w := w' }
    some (P.set idx p' ++ (List.range n).map fun i => { p' with id := P.length + i })

/-- `normalizeWeights`, lines 360-371. -/
def normalizeWeights (P : List (Part S K)) : List (Part S K) :=
  P.map fun p => { p with w := p.w / (P.map Part.w).sum }

/-- The test of lines 414-422 on normalised weights: `true` when no resampling is needed. `t` is `effNParticles_t_`, `tp` is
`effNParticles_t_percent_`. -/
def enough (P : List (Part S K)) (t tp : K) : Prop :=
  t < 1 / (P.map fun p => p.w * p.w).sum ∧ tp < 1 / (P.map fun p => p.w * p.w).sum / P.length

instance (P : List (Part S K)) (t tp : K) : Decidable (enough P t tp) := by unfold enough; infer_instance

/-- The inner `while` of lines 443-447: index and cumulative weight. -/
def advance (ws : List K) (sp : K) : Nat → Nat → K → Option (Nat × K)
  | 0, _, _ => none
  | fuel + 1, idx, cum =>
    if cum < sp then
      match ws[idx + 1]? with
      | none => none
      | some w => advance ws sp fuel (idx + 1) (cum + w)
    else some (idx, cum)

/-- The sampling loop of lines 441-452: the list `sampled_idx`; the number of samples still to draw comes first. -/
def sampleLoop (ws : List K) (interval : K) : Nat → K → Nat → K → Option (List Nat)
  | 0, _, _, _ => some []
  | k + 1, sp, idx, cum =>
    match advance ws sp (ws.length + 1) idx cum with
    | none => none
    | some (idx', cum') => (sampleLoop ws interval k (sp + interval) idx' cum').map (idx' :: ·)

/-- Lines 429-452: draw `n` indices with offset `u`. -/
def sample (ws : List K) (n : Nat) (u : K) : Option (List Nat) :=
  match ws[0]? with
  | none => none
  | some w0 => sampleLoop ws (1 / (n : K)) n (1 / (n : K) * u) 0 w0

/-- The inner `while` of lines 477-480: the next slot that was not sampled. -/
def nextFree (flag : Nat → Bool) (N : Nat) : Nat → Nat → Option Nat
  | 0, _ => none
  | fuel + 1, i => if i < N then (if flag i then nextFree flag N fuel (i + 1) else some i) else none

/-- The loop of lines 457-487. `prev` is `idx_prev` (none in the first pass), the state is the particle list and
`next_unsampled_idx`. The source is looked up in the current particle list. -/
def copyLoop (flag : Nat → Bool) (n : Nat) : List Nat → Option Nat → List (Part S K) × Nat → Option (List (Part S K))
  | [], _, s => some s.1
  | idx :: L, prev, s =>
    match s.1[idx]? with
    | none => none
    | some p =>
      if idx < n ∧ prev ≠ some idx then
        copyLoop flag n L (some idx) (s.1.set idx { p with parent := p.id }, s.2)
      else
        match nextFree flag s.1.length (s.1.length + 1) s.2 with
        | none => none
        | some f => copyLoop flag n L (some idx) (s.1.set f { p with parent := p.id }, f + 1)

/-- `resample(n, force)`, lines 407-500. The first component is the returned value. -/
def resample (P0 : List (Part S K)) (n0 : Nat) (force : Bool) (t tp u : K) : Option (Bool × List (Part S K)) :=
  let P := normalizeWeights P0
  if force = false ∧ enough P t tp then some (false, P)
  else
    let n := if n0 = 0 ∨ P.length < n0 then P.length else n0
    match sample (P.map Part.w) n u with
    | none => none
    | some L =>
      match copyLoop (fun i => decide (i ∈ L)) n L none (P, 0) with
      | none => none
      | some P' => some (true, (P'.take n).map fun p => { p with w := 1 })

/-! ### propagate -/

/-- State of the parallel loop of `propagate`, lines 336-347: the particles' states and the shared variables `x_km`, `x_k`; for every
iteration the number of statements already executed. -/
structure PrSt (S : Type*) where
  P : Nat → S
  xkm : S
  xk : S
  pc : Nat → Nat

/-- One statement of iteration `i`: line 344, 345 or 346. `f i` is the sampled motion of iteration `i`. (Statements are taken as
atomic; in C++ the conflicting accesses are a data race.) -/
def prStep (f : Nat → S → S) (s : PrSt S) (i : Nat) : PrSt S :=
  match s.pc i with
  | 0 => { s with xkm := s.P i, pc := Function.update s.pc i 1 }
  | 1 => { s with xk := f i s.xkm, pc := Function.update s.pc i 2 }
  | 2 => { s with P := Function.update s.P i s.xk, pc := Function.update s.pc i 3 }
  | _ => s

/-- Execution of a schedule (a list of iteration numbers). -/
def propagate (f : Nat → S → S) (s : PrSt S) (sched : List Nat) : PrSt S := sched.foldl (prStep f) s

end PF
end RFS
