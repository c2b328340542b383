import Verif.Model.LMB
import Verif.Model.ParticleFilter

/-!
Model of the bookkeeping between `predict` and `update` that `RBCBMeMBerFilter` (include/RBCBMeMBerFilter.hpp 279-366, 427-510) and `RBLMBFilter`
(include/RBLMBFilter.hpp 276-367, 428-513) share word for word, and of the first filter as a whole.

Simplifications: those of the parts (`Verif.Model.CBMeMBer`, `Verif.Model.GMBernoulli`, `Verif.Model.ParticleFilter`). The map update of a particle, followed by merging and
pruning, is a function of its pose, the scan and its map, so the parallel loops over the particles are maps over the list; the sampled motion of the particles
is an arbitrary function (races in `propagate` are in C32). Timers are left out; counters have no upper bound. Undefined behaviour is
an error: reading a measurement that does not exist (`meas`), the list of unused measurements of a particle that has none (`index`), anything else (`map`). Reading freed memory while a
track is copied onto itself (C26) leaves an arbitrary mixture and is recorded in the flag `ub` of the filter.
-/

namespace RFS
namespace MBF

inductive Err
  | meas
  | index
  | map
deriving DecidableEq

/-- What distinguishes the filters. `D` is the map of a particle, `B` an entry of `unused_measurements_` (with the entry of `birthPe_` in `RBLMBFilter`). `upd x Zs m` is `updateMap`, `mergeGM`,
`pruneTracks`, `pruneGM` for a particle at `x` with map `m`: flag, map, unused measurements; `lik` is the value returned by `updateMap`, with which the weight is
multiplied; `idx` is the index of the measurement; `born x b z m` adds the birth track; `still` propagates the landmarks. -/
structure Ops (X D Z B K : Type*) where
  upd : X → List Z → D → Option (Bool × D × List B)
  lik : X → List Z → D → K
  idx : B → Nat
  born : X → B → Z → D → D
  still : D → Option D
  minUpd : Nat

/-- State of a particle: pose and map. -/
structure PState (X D : Type*) where
  x : X
  m : D

/-- `particleSet_`, `measurements_`, `unused_measurements_` (with `birthPe_`), `nUpdatesSinceResample`, and whether freed memory was read. -/
structure Filt (X D Z B K : Type*) where
  parts : List (PF.Part (PState X D) K)
  meas : List Z
  unused : List (List B)
  nUpd : Nat
  ub : Bool

variable {X D Z B K : Type*} [Field K] [LinearOrder K]

/-- The constructors, RBCBMeMBerFilter.hpp 336-366 and RBLMBFilter.hpp 335-367: `n` particles of weight 1 at `x0` with map `m0`. -/
def ctor (n : Nat) (x0 : X) (m0 : D) : Filt X D Z B K := ⟨PF.addParticles [] n ⟨x0, m0⟩ 1, [], List.replicate n [], 0, false⟩

/-- The `while` of `addBirthTracks`, RBCBMeMBerFilter.hpp 309-330 and RBLMBFilter.hpp 306-328, for a particle at `x`. The list is given from its back. -/
def birthLoop (o : Ops X D Z B K) (meas : List Z) (x : X) : List B → D → Except Err D
  | [], m => .ok m
  | b :: bs, m =>
    match meas[o.idx b]? with
    | none => .error .meas
    | some z => birthLoop o meas x bs (o.born x b z m)

/-- The loop over the particles, RBCBMeMBerFilter.hpp 307-332 and RBLMBFilter.hpp 304-330. -/
def birthAll (o : Ops X D Z B K) (meas : List Z) : List (PF.Part (PState X D) K) → List (List B) → Except Err (List (PF.Part (PState X D) K))
  | [], _ => .ok []
  | _ :: _, [] => .error .index
  | p :: ps, u :: us =>
    match birthLoop o meas p.st.x u.reverse p.st.m with
    | .error e => .error e
    | .ok m =>
      match birthAll o meas ps us with
      | .error e => .error e
      | .ok ps' => .ok ({ p with st := ⟨p.st.x, m⟩ } :: ps')

/-- `predict`, RBCBMeMBerFilter.hpp 280-303 and RBLMBFilter.hpp 276-300: births, then the sampled motion `move i` of particle `i`, then the landmarks. -/
def predict (o : Ops X D Z B K) (move : Nat → X → X) (f : Filt X D Z B K) : Except Err (Filt X D Z B K) :=
  match birthAll o f.meas f.parts f.unused with
  | .error e => .error e
  | .ok ps =>
    match ps.zipIdx.mapM fun q => (o.still q.1.st.m).map fun m => ({ q.1 with st := ⟨move q.2 q.1.st.x, m⟩ } : PF.Part (PState X D) K) with
    | none => .error .map
    | some ps' => .ok { f with parts := ps', unused := f.unused.mapIdx fun i u => if i < f.parts.length then [] else u }

/-- `updateMap`, merging and pruning of every particle, RBCBMeMBerFilter.hpp 456-490 and RBLMBFilter.hpp 456-491: for each particle the flag, the particle with its new map and weight, and its unused
measurements. -/
def updAll (o : Ops X D Z B K) (Zs : List Z) (ps : List (PF.Part (PState X D) K)) : Option (List (Bool × PF.Part (PState X D) K × List B)) :=
  ps.mapM fun p => (o.upd p.st.x Zs p.st.m).map fun r =>
    (r.1, { p with st := ⟨p.st.x, r.2.1⟩, w := o.lik p.st.x Zs p.st.m * p.w }, r.2.2)

/-- `update`, RBCBMeMBerFilter.hpp 428-510 and RBLMBFilter.hpp 428-513. `t`, `tp`, `r` are the thresholds and the random number of `resample`. -/
def update (o : Ops X D Z B K) (t tp r : K) (Zs : List Z) (f : Filt X D Z B K) : Except Err (Filt X D Z B K) :=
  if Zs.length = 0 then .ok { f with nUpd := f.nUpd + 1, meas := Zs }
  else if f.unused.length < f.parts.length then .error .index
  else
    match updAll o Zs f.parts with
    | none => .error .map
    | some us =>
      let f1 : Filt X D Z B K :=
        { parts := us.map fun u => u.2.1, meas := Zs, unused := us.map (fun u => u.2.2) ++ f.unused.drop f.parts.length, nUpd := f.nUpd + 1,
          ub := f.ub || us.any fun u => u.1 }
      if o.minUpd ≤ f1.nUpd then
        match PF.resample f1.parts 0 false t tp r with
        | none => .error .index
        | some (true, P) => .ok { f1 with parts := P, nUpd := 0 }
        | some (false, P) => .ok { f1 with parts := PF.normalizeWeights P }
      else .ok { f1 with parts := PF.normalizeWeights f1.parts }

/-- A call of the user. -/
inductive Cmd (X Z K : Type*)
  | predict (move : Nat → X → X)
  | update (t tp r : K) (Zs : List Z)

def step (o : Ops X D Z B K) (f : Filt X D Z B K) : Cmd X Z K → Except Err (Filt X D Z B K)
  | .predict move => predict o move f
  | .update t tp r Zs => update o t tp r Zs f

/-- A sequence of calls. -/
def exec (o : Ops X D Z B K) : List (Cmd X Z K) → Filt X D Z B K → Except Err (Filt X D Z B K)
  | [], f => .ok f
  | c :: cs, f =>
    match step o f c with
    | .error e => .error e
    | .ok f' => exec o cs f'

/-! ### The CB-MeMBer filter -/

open GM GMB

/-- Members of `Config` (include/RBCBMeMBerFilter.hpp 84-123) used here. -/
structure Cfg (K : Type*) where
  birthPE : K
  mergeT : K
  mergeF : K
  pruneT : K
  trackT : K
  minUpd : Nat

/-- Lines 293-297 of `predict` for one Gaussian, `f` is `staticStep`: `none` is an index out of range or a null pointer. -/
def stillStep {d : Nat} (f : Lm K d → Lm K d) (m : GMix K d) (i : Nat) : Option (GMix K d) :=
  match m.g[i]? with
  | none => none
  | some e => e.lm.map fun l => { m with g := m.g.set i { e with lm := some (f l) } }

/-- The loop of lines 291-299 of `predict` over the tracks of a particle. -/
def stillTracks {d : Nat} (f : Lm K d → Lm K d) (ts : List (Track K d)) : Option (List (Track K d)) :=
  ts.mapM fun t => ((List.range t.gm.n.toNat).foldlM (stillStep f) t.gm).map fun m => { t with gm := m }

/-- `updateMap`, `mergeGM`, `pruneTracks`, `pruneGM` of one particle, RBCBMeMBerFilter.hpp 456-490. `garb` and `garb2` are what copies of a track onto itself leave behind. -/
def cbmUpd {d : Nat} (cfg : Cfg K) (env : X → (Zs : List Z) → CBM.Env K d Zs.length) (maha : Lm K d → Lm K d → K)
    (srt : List (Gauss K d) → List (Gauss K d)) (garb garb2 : X → List Z → Nat → GMix K d) (x : X) (Zs : List Z) (ts : List (Track K d)) :
    Option (Bool × List (Track K d) × List Nat) :=
  (CBM.updateMap (env x Zs) (garb x Zs) ts).bind fun r =>
    (mergeGM maha cfg.mergeT cfg.mergeF r.2.1).bind fun t1 =>
      (pruneTracks (garb2 x Zs) cfg.trackT t1).bind fun p =>
        (pruneGM srt cfg.pruneT p.2).map fun t2 => (r.1 || p.1, t2, r.2.2)

/-- `RBCBMeMBerFilter`: `inv` is `inverseMeasure`, `lik` the value returned by `updateMap`. -/
def cbm {d : Nat} (cfg : Cfg K) (env : X → (Zs : List Z) → CBM.Env K d Zs.length) (lik : X → List Z → List (Track K d) → K) (inv : X → Z → Lm K d)
    (lstep : Lm K d → Lm K d) (maha : Lm K d → Lm K d → K) (srt : List (Gauss K d) → List (Gauss K d)) (garb garb2 : X → List Z → Nat → GMix K d) :
    Ops X (List (Track K d)) Z Nat K where
  upd := cbmUpd cfg env maha srt garb garb2
  lik := lik
  idx := id
  born x _ z m := m ++ [⟨cfg.birthPE, 0, addGaussian empty (inv x z) 1⟩]
  still := stillTracks lstep
  minUpd := cfg.minUpd

/-! ### The LMB filter -/

/-- Members of `Config` (include/RBLMBFilter.hpp 84-125) used outside `updateMap`. -/
structure LCfg where
  mergeT : ℝ
  mergeF : ℝ
  pruneT : ℝ
  trackT : ℝ
  minUpd : Nat

/-- `updateMap`, `mergeGM`, `pruneTracks`, `pruneGM` of one particle, RBLMBFilter.hpp 456-491. `run x Zs` is `LMB.updateMap` for the particle. -/
noncomputable def lmbUpd {d : Nat} (cfg : LCfg) (run : X → (Zs : List Z) → List (Track ℝ d) → Option (List (Track ℝ d) × List (Fin Zs.length × ℝ) × ℝ))
    (maha : Lm ℝ d → Lm ℝ d → ℝ) (srt : List (Gauss ℝ d) → List (Gauss ℝ d)) (garb : X → List Z → Nat → GMix ℝ d) (x : X) (Zs : List Z)
    (ts : List (Track ℝ d)) : Option (Bool × List (Track ℝ d) × List (Nat × ℝ)) :=
  (run x Zs ts).bind fun r =>
    (mergeGM maha cfg.mergeT cfg.mergeF r.1).bind fun t1 =>
      (pruneTracks (garb x Zs) cfg.trackT t1).bind fun p =>
        (pruneGM srt cfg.pruneT p.2).map fun t2 => (p.1, t2, r.2.1.map fun b => (b.1.1, b.2))

/-- `RBLMBFilter`: an entry of `unused_measurements_` with the entry of `birthPe_` behind it. -/
noncomputable def lmb {d : Nat} (cfg : LCfg) (run : X → (Zs : List Z) → List (Track ℝ d) → Option (List (Track ℝ d) × List (Fin Zs.length × ℝ) × ℝ))
    (inv : X → Z → Lm ℝ d) (lstep : Lm ℝ d → Lm ℝ d) (maha : Lm ℝ d → Lm ℝ d → ℝ) (srt : List (Gauss ℝ d) → List (Gauss ℝ d))
    (garb : X → List Z → Nat → GMix ℝ d) : Ops X (List (Track ℝ d)) Z (Nat × ℝ) ℝ where
  upd := lmbUpd cfg run maha srt garb
  lik x Zs ts := match run x Zs ts with
    | none => 1
    | some r => r.2.2
  idx := Prod.fst
  born x b z m := m ++ [⟨b.2, 0, addGaussian empty (inv x z) 1⟩]
  still := stillTracks lstep
  minUpd := cfg.minUpd

end MBF
end RFS
