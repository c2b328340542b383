import Mathlib.Data.Real.Basic
import Mathlib.Order.BoundedOrder.Basic

/-!
Model of `RFSPSOSLAM` (include/RFSPSOSLAM.hpp): `evaluateLikelihoods`, `updateTopology`, `moveParticles`, `updateLandmarkVelocity`, `init`, and of
`RFSPSOParticle` (include/RFSPSOParticle.hpp).

Likelihoods are elements of a linear order with least element (minus infinity); NaN does not arise. `rfsMeasurementLikelihood` is an arbitrary function of
trajectory and map. `drand48` is a stream of arbitrary numbers with a read position. Trajectories are not taken apart. The assignments that `OSPA` returns
are arbitrary arrays. An access outside a container is the outcome `none`.
-/

namespace RFS
namespace PSO

/-! ### The parallel evaluation -/

/-- The two steps of an iteration of the parallel loop, lines 694-712: the likelihood is written; the critical section is executed. -/
inductive Ev (n : Nat) where
  | eval (i : Fin n)
  | crit (i : Fin n)
deriving DecidableEq

/-- Shared state of the loop: `currentLikelihood` of the particles, `besti`, iterations whose critical section is over, and whether a particle's likelihood
was read by a thread that is not synchronised with the one that writes it (a data race: undefined behaviour). -/
structure EvSt (n : Nat) (Λ : Type) where
  cur : Fin n → Λ
  besti : Fin n
  done : Fin n → Bool
  race : Bool

variable {n : Nat} {Λ : Type} [LinearOrder Λ]

/-- One step. `thread` is the thread that executes an iteration, `val` the likelihood `rfsMeasurementLikelihood` gives. The critical section reads
`particles_[besti].currentLikelihood`, which is ordered after its write if the critical section of `besti` came before or on the same thread. -/
def evStep (thread : Fin n → Nat) (val : Fin n → Λ) (s : EvSt n Λ) : Ev n → EvSt n Λ
  | .eval i => { s with cur := Function.update s.cur i (val i) }
  | .crit i =>
    { s with besti := if s.cur s.besti < s.cur i then i else s.besti
             done := Function.update s.done i true
             race := s.race || !(s.done s.besti || decide (thread s.besti = thread i)) }

/-- The parallel loop, lines 692-712. `old` are the likelihoods of the previous evaluation; `besti` starts at 0. -/
def evRun (thread : Fin n → Nat) (val old : Fin n → Λ) (h0 : 0 < n) (sched : List (Ev n)) : EvSt n Λ :=
  sched.foldl (evStep thread val) ⟨old, ⟨0, h0⟩, fun _ => false, false⟩

/-- The order in which `#pragma omp parallel for` may execute the steps: all, each once; an iteration's likelihood before its critical section; the
iterations of a thread one after the other in increasing order. -/
structure Schedule (thread : Fin n → Nat) (sched : List (Ev n)) : Prop where
  nodup : sched.Nodup
  all : ∀ e, e ∈ sched
  iter : ∀ i, sched.idxOf (.eval i) < sched.idxOf (.crit i)
  thr : ∀ i j, thread i = thread j → i < j → sched.idxOf (.crit i) < sched.idxOf (.eval j)

/-- `RFSPSOParticle`, include/RFSPSOParticle.hpp 54-63. `T` is the type of trajectory with inputs, `L` of landmarks. -/
structure Part (T L Λ : Type) where
  traj : T
  lms : List L
  vel : List L
  bestTraj : T
  bestLms : List L
  bestVel : List L
  cur : Λ
  best : Λ

variable {T L : Type}

/-- Lines 695-705, the part of an iteration that only touches its particle. -/
def evalPart (lik : T → List L → Λ) (p : Part T L Λ) : Part T L Λ :=
  let p := { p with cur := lik p.traj p.lms }
  if p.best < p.cur then { p with best := p.cur, bestTraj := p.traj, bestLms := p.lms, bestVel := p.vel } else p

/-- `particles_`, `bestParticle_`, `hasImproved_`. -/
structure Obj (n : Nat) (T L Λ : Type) where
  parts : Fin n → Part T L Λ
  bestP : Part T L Λ
  improved : Bool

/-- `evaluateLikelihoods`, lines 689-720, under a given schedule of the parallel loop; with the flag for a data race. -/
def evaluate (lik : T → List L → Λ) (thread : Fin n → Nat) (h0 : 0 < n) (sched : List (Ev n)) (o : Obj n T L Λ) : Obj n T L Λ × Bool :=
  let parts := fun i => evalPart lik (o.parts i)
  let s := evRun thread (fun i => lik (o.parts i).traj (o.parts i).lms) (fun i => (o.parts i).cur) h0 sched
  if o.bestP.cur < (parts s.besti).cur then (⟨parts, parts s.besti, true⟩, s.race) else (⟨parts, o.bestP, false⟩, s.race)

/-! ### Topology -/

/-- Lines 349-353: particle `i` informs `rand_k`, the integer part of a random number times the number of particles. -/
def inform (i : Nat) (top : List (List Nat)) (k : Nat) : Option (List (List Nat)) :=
  (top[k]?).bind fun l => (l.getLast?).map fun b => if b ≠ i then top.set k (l ++ [i]) else top

/-- `updateTopology`, lines 321-362. `pick i j` is `rand_k` in iteration `i`, `j`. The global topology is set up when the number of particles has changed. -/
def updateTopology (useGlobal : Bool) (n K : Nat) (pick : Nat → Nat → Nat) (top : List (List Nat)) : Option (List (List Nat)) :=
  if useGlobal then (if top.length ≠ n then some (List.replicate n (List.range n)) else some top)
  else (List.range n).foldlM (fun t i => (List.range K).foldlM (fun t j => inform i t (pick i j)) t) ((List.range n).map fun i => [i])

/-- Lines 374-381: the index of the particle whose best solution attracts particle `i`. -/
def attractor (parts : Fin n → Part T L Λ) (i : Fin n) (nb : List (Fin n)) : Fin n :=
  (nb.foldl (fun s j => if s.2 < (parts j).cur then (j, (parts j).cur) else s) (i, (parts i).best)).1

/-! ### Landmarks -/

variable {K : Type} [Field K] [LinearOrder K] {d : Nat}

/-- The configuration read by `updateLandmarkVelocity`, lines 79-105. -/
structure Cfg (K : Type) where
  c : K
  w : K
  phiP : K
  cardP : K
  phiG : K
  cardG : K

/-- State of the loop of lines 542-576: velocities, `todelete`, `toadd_particle`, `toadd_global`, read position of the random numbers. -/
structure VelSt (K : Type) (d : Nat) where
  vel : List (Fin d → K)
  del : List Bool
  addP : List Bool
  addG : List Bool
  pos : Nat

/-- `v[dim] += phi * drand48() * (target[dim] - lm[dim])` for every dimension, lines 556-558 and 568-570. -/
def attract (rnd : Nat → K) (pos : Nat) (phi : K) (target lm v : Fin d → K) : Fin d → K := fun k => v k + phi * rnd (pos + k) * (target k - lm k)

/-- Lines 546-559, attraction by the particle's own best map: velocity, whether the landmark is flagged, the index matched, read position. -/
def ownPart (cfg : Cfg K) (dist : (Fin d → K) → (Fin d → K) → K) (rnd : Nat → K) (best : List (Fin d → K)) (j : Nat) (lm v : Fin d → K) (pos : Nat) :
    (Fin d → K) × Bool × Option Nat × Nat :=
  match best[j]? with
  | none => (v, decide (rnd pos < cfg.cardP), none, pos + 1)
  | some b =>
    if cfg.c ≤ dist b lm then (v, decide (rnd pos < cfg.cardP), none, pos + 1)
    else (attract rnd (pos + 1) cfg.phiP b lm v, decide (rnd pos < 1 / 20), some j, pos + 1 + d)

/-- Lines 560-571, attraction by the best map of the neighbourhood. -/
def globalPart (cfg : Cfg K) (dist : (Fin d → K) → (Fin d → K) → K) (rnd : Nat → K) (best : List (Fin d → K)) (j : Nat) (lm v : Fin d → K) (pos : Nat) :
    (Fin d → K) × Bool × Option Nat × Nat :=
  match best[j]? with
  | none => (v, decide (rnd pos < cfg.cardG), none, pos + 1)
  | some b =>
    if cfg.c ≤ dist b lm then (v, decide (rnd pos < cfg.cardG), none, pos + 1)
    else (attract rnd pos cfg.phiG b lm v, false, some j, pos + d)

/-- `flags[j] = false` if there is a match. -/
def clear (flags : List Bool) : Option Nat → List Bool
  | none => flags
  | some j => flags.set j false

/-- One pass of the loop of lines 542-576, landmark `i`; `sp`, `sg` are the assignments of `OSPA`. -/
def velStep (cfg : Cfg K) (dist : (Fin d → K) → (Fin d → K) → K) (rnd : Nat → K) (lms own glob : List (Fin d → K)) (sp sg : Nat → Nat) (s : VelSt K d) (i : Nat) :
    Option (VelSt K d) :=
  match lms[i]?, s.vel[i]? with
  | some lm, some v =>
    let a := ownPart cfg dist rnd own (sp i) lm (fun k => v k * cfg.w) s.pos
    let b := globalPart cfg dist rnd glob (sg i) lm a.1 a.2.2.2
    some ⟨s.vel.set i b.1, s.del.set i (a.2.1 || b.2.1), clear s.addP a.2.2.1, clear s.addG b.2.2.1, b.2.2.2⟩
  | _, _ => none

/-- `l[i] = l[l.size() - 1]; l.pop_back();`, lines 583-586. -/
def removeAt {α : Type} (l : List α) (i : Nat) : List α :=
  match l.getLast? with
  | none => l
  | some x => (l.set i x).dropLast

/-- The loop of lines 581-588 from index `i - 1` down to 0. -/
def removeLoop {α : Type} (del : List Bool) : Nat → List α × List α → List α × List α
  | 0, s => s
  | i + 1, s => removeLoop del i (if del[i]? = some true then (removeAt s.1 i, removeAt s.2 i) else s)

/-- The loops of lines 589-596 and 597-604: flagged landmarks of a best map are added with their velocities if a random number is below `card`. -/
def addLoop {α : Type} (card : K) (rnd : Nat → K) (flags : List Bool) (best bestVel : List α) (s : List α × List α × Nat) : Option (List α × List α × Nat) :=
  (List.range best.length).foldlM (fun s i =>
    if flags[i]? = some true then
      (if rnd s.2.2 < card then
        match best[i]?, bestVel[i]? with
        | some b, some v => some (s.1 ++ [b], s.2.1 ++ [v], s.2.2 + 1)
        | _, _ => none
      else some (s.1, s.2.1, s.2.2 + 1))
    else some s) s

/-- `updateLandmarkVelocity`, lines 504-618: landmarks, velocities and read position. `own`, `ownVel` are the particle's best map, `glob`, `globVel` that of the
best particle of the neighbourhood. -/
def updateVel (cfg : Cfg K) (dist : (Fin d → K) → (Fin d → K) → K) (rnd : Nat → K) (sp sg : Nat → Nat) (own ownVel glob globVel : List (Fin d → K))
    (lms vel : List (Fin d → K)) (pos : Nat) : Option (List (Fin d → K) × List (Fin d → K) × Nat) :=
  ((List.range lms.length).foldlM (velStep cfg dist rnd lms own glob sp sg)
    ⟨vel, List.replicate lms.length false, List.replicate own.length true, List.replicate glob.length true, pos⟩).bind fun s =>
    let r := removeLoop s.del lms.length (lms, s.vel)
    (addLoop cfg.cardP rnd s.addP own ownVel (r.1, r.2, s.pos)).bind fun t => addLoop cfg.cardG rnd s.addG glob globVel t

/-! ### Moving the particles -/

/-- Lines 420-426, one particle: attracted by particle `a`. `asg` gives the assignment of `OSPA` between two maps, `mt` moves the trajectory, lines 402-418. -/
def movePart {T Λ : Type} (cfg : Cfg K) (dist : (Fin d → K) → (Fin d → K) → K) (rnd : Nat → K) (asg : List (Fin d → K) → List (Fin d → K) → Nat → Nat)
    (mt : T → T → T → T) (p a : Part T (Fin d → K) Λ) (pos : Nat) : Option (Part T (Fin d → K) Λ × Nat) :=
  (updateVel cfg dist rnd (asg p.lms p.bestLms) (asg p.lms a.bestLms) p.bestLms p.bestVel a.bestLms a.bestVel p.lms p.vel pos).bind fun r =>
    if r.1.length ≤ r.2.1.length then
      some ({ p with traj := mt p.traj p.bestTraj a.bestTraj, lms := List.zipWith (fun l v => l + v) r.1 r.2.1, vel := r.2.1 }, r.2.2)
    else none

/-- `moveParticles`, lines 363-430, with the topology `top` (`none` for an index outside). -/
def moveParticles {T Λ : Type} [LinearOrder Λ] {n : Nat} (cfg : Cfg K) (dist : (Fin d → K) → (Fin d → K) → K) (rnd : Nat → K)
    (asg : List (Fin d → K) → List (Fin d → K) → Nat → Nat) (mt : T → T → T → T) (top : Fin n → List (Fin n)) (parts : Fin n → Part T (Fin d → K) Λ)
    (pos : Nat) : Option ((Fin n → Part T (Fin d → K) Λ) × Nat) :=
  (List.finRange n).foldlM (fun s i =>
    (movePart cfg dist rnd asg mt (s.1 i) (s.1 (attractor s.1 i (top i))) s.2).map fun r => (Function.update s.1 i r.1, r.2)) (parts, pos)

/-- `initMaps` for one particle, lines 663-687: `new` are the landmarks made from measurements. `resize` keeps or cuts and fills with `dflt`. -/
def initMap {T L Λ : Type} (dflt : L) (new : List L) (p : Part T L Λ) : Part T L Λ :=
  let lms := p.lms ++ new
  let rs := fun (l : List L) => l.take lms.length ++ List.replicate (lms.length - l.length) dflt
  { p with lms := lms, vel := rs p.vel, bestVel := rs p.bestVel, bestLms := lms }

end PSO
end RFS
