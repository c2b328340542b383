import Verif.Model.FastSLAM

/-!
Model of `rfs::FastSLAM` as a whole (include/FastSLAM.hpp): constructor (309-351), `predict` (367-391), `update` (393-433) with the particles made of further
hypotheses, and `resampleWithMapCopy` (738-767); `updateMap` of one particle is `Verif.Model.FastSLAM`, `copyParticle` and `resample` are `Verif.Model.ParticleFilter`.

Simplifications: those of these two modules. The loop over the particles takes them in the order given with the scan: several threads take them in
any order, see `Verif.Model.FastThreads`. `nLandmarksInFOV_` has the length of `landmarkCandidates_`
(they are resized together) and is written before it is read for every particle, so only its length matters, which is that of `cands`. Counters have no upper
bound, and the `int` members of `Config` are natural numbers. The thresholds and the random number of `resample`, the measurement model, the Kalman filter, Murty's
algorithm and `prune` are arguments of the call. Access outside `particleSet_` or `landmarkCandidates_` is the outcome `index`, a `resample` that reads outside
its arrays is `sample`, what goes wrong in `updateMap` is `upd`.
-/

namespace RFS
namespace FastRuns
open FastSLAM
open Hungarian (Mat)

inductive RErr where
  | upd (e : Err)
  | index
  | sample
deriving DecidableEq

/-- Pose and map of a particle. -/
structure PState (X Lm : Type) where
  x : X
  map : List (Lm × ℝ)

/-- The filter: `particleSet_`, `landmarkCandidates_`, `resampleOccured_`, `nUpdatesSinceResample_`, `nMeasurementsSinceResample_`, `nParticles_init_`. -/
structure Filt (X Lm : Type) where
  parts : List (PF.Part (PState X Lm) ℝ)
  cands : List (List (Cand Lm))
  resampled : Bool
  nUpd : Nat
  nMeas : Nat
  nInit : Nat

/-- `minUpdatesBeforeResample_`, `minMeasurementsBeforeResample_`, `nParticlesMax_` of `Config`, with the rest. -/
structure RCfg where
  cfg : Cfg
  minUpd : Nat
  minMeas : Nat
  nMax : Nat

variable {X Lm : Type}

/-- The constructor, lines 309-351. `resampleOccured_` is not initialised: its value is the argument `b`. -/
noncomputable def ctor (n : Nat) (x0 : X) (b : Bool) : Filt X Lm := ⟨PF.addParticles [] n ⟨x0, []⟩ 1, List.replicate n [], b, 0, 0, n⟩

/-- What a scan brings: its length, the models for every pose, Murty's algorithm, `prune`, thresholds and random number of `resample`, and the order in which the
threads get through `n` particles. -/
structure Scan (X Lm : Type) where
  nZ : Nat
  env : X → Env Lm nZ
  murty : ∀ m, Mat ℝ m → List ((Fin m → Fin m) × ℝ)
  prune : List (Lm × ℝ) → List (Lm × ℝ)
  t : ℝ
  tp : ℝ
  r : ℝ
  order : Nat → List Nat

/-- `pi[h]`, lines 553-567: the particle of hypothesis `h` of particle `i`, when there are `n` particles after the copying. -/
def slot (i n h : Nat) : Nat := if h = 0 then i else n - h

/-- The results of the hypotheses are written to the particles `pi[h]`. -/
def putParts (i n : Nat) (out : List (Particle Lm × List (Cand Lm))) (P : List (PF.Part (PState X Lm) ℝ)) : List (PF.Part (PState X Lm) ℝ) :=
  out.zipIdx.foldl (fun P o => P.modify (slot i n o.2) fun q => { q with st := ⟨q.st.x, o.1.1.map⟩, w := o.1.1.w }) P

/-- The candidates of the hypotheses are written to `landmarkCandidates_[pi[h]]`. -/
def putCands (i n : Nat) (out : List (Particle Lm × List (Cand Lm))) (C : List (List (Cand Lm))) : List (List (Cand Lm)) :=
  out.zipIdx.foldl (fun C o => C.set (slot i n o.2) o.1.2) C

/-- Lines 556-562: the particle shares its weight with its copies. -/
noncomputable def split (P : List (PF.Part (PState X Lm) ℝ)) (i nH : Nat) (p : PF.Part (PState X Lm) ℝ) : Option (List (PF.Part (PState X Lm) ℝ)) :=
  if 1 < nH then PF.copyParticle (P.set i { p with w := p.w / nH }) i (nH - 1) (p.w / nH) else some P

/-- `updateMap(i)`, lines 435-736, on the filter. -/
noncomputable def updateOne (cfg : Cfg) (s : Scan X Lm) (f : Filt X Lm) (i : Nat) : Except RErr (Filt X Lm) :=
  match f.parts[i]? with
  | none => .error .index
  | some p =>
    match hypotheses cfg s.nZ s.murty (table (s.env p.st.x) cfg (inRange (s.env p.st.x) p.st.map)) with
    | .error e => .error (.upd e)
    | .ok das =>
      if ∃ h < das.length, f.cands.length ≤ slot i (f.parts.length + (das.length - 1)) h then .error .index
      else
        match updateMap (s.env p.st.x) cfg s.murty s.prune f.resampled ⟨p.w, p.st.map⟩ (fun h => (f.cands[slot i (f.parts.length + (das.length - 1)) h]?).getD []) with
        | .error e => .error (.upd e)
        | .ok out =>
          match split f.parts i das.length p with
          | none => .error .index
          | some P => .ok { f with parts := putParts i (f.parts.length + (das.length - 1)) out P, cands := putCands i (f.parts.length + (das.length - 1)) out f.cands }

/-- `resampleWithMapCopy`, lines 738-767. -/
noncomputable def resampleMove (cfg : RCfg) (s : Scan X Lm) (f : Filt X Lm) : Except RErr (Filt X Lm) :=
  let due := cfg.nMax < f.parts.length ∨ (cfg.minUpd ≤ f.nUpd ∧ cfg.minMeas ≤ f.nMeas)
  if due then
    match PF.resample f.parts f.nInit (decide (cfg.nMax < f.parts.length)) s.t s.tp s.r with
    | none => .error .sample
    | some (false, P) => .ok { f with parts := PF.normalizeWeights P, resampled := false }
    | some (true, P) =>
      match moveCands (P.map PF.Part.parent) f.cands with
      | none => .error .index
      | some C => .ok { f with parts := P, cands := C, resampled := true, nUpd := 0, nMeas := 0 }
  else .ok { f with parts := PF.normalizeWeights f.parts, resampled := false }

/-- `resize` of lines 398-401: it only grows. -/
def grow (n : Nat) (C : List (List (Cand Lm))) : List (List (Cand Lm)) := C ++ List.replicate (n - C.length) []

/-- `update`, lines 393-433. -/
noncomputable def update (cfg : RCfg) (s : Scan X Lm) (f : Filt X Lm) : Except RErr (Filt X Lm) :=
  let f0 : Filt X Lm := { f with cands := grow (f.parts.length * cfg.cfg.maxHyp) f.cands, nUpd := f.nUpd + 1 }
  if s.nZ = 0 then .ok f0
  else
    match (s.order f.parts.length).foldlM (updateOne cfg.cfg s) { f0 with nMeas := f.nMeas + s.nZ } with
    | .error e => .error e
    | .ok f1 => resampleMove cfg s f1

/-- The calls of the user: `predict` with the sampled motion of every particle and the motion of landmarks, `update` with a scan. -/
inductive Cmd (X Lm : Type)
  | predict (mx : Nat → X → X) (ml : Lm → Lm)
  | update (s : Scan X Lm)

/-- One call; `predict` is lines 367-391. -/
noncomputable def step (cfg : RCfg) (f : Filt X Lm) : Cmd X Lm → Except RErr (Filt X Lm)
  | .predict mx ml => .ok { f with parts := f.parts.zipIdx.map fun q => { q.1 with st := ⟨mx q.2 q.1.st.x, q.1.st.map.map fun c => (ml c.1, c.2)⟩ } }
  | .update s => update cfg s f

/-- A sequence of calls. -/
noncomputable def exec (cfg : RCfg) : List (Cmd X Lm) → Filt X Lm → Except RErr (Filt X Lm)
  | [], f => .ok f
  | c :: cs, f =>
    match step cfg f c with
    | .error e => .error e
    | .ok f' => exec cfg cs f'

end FastRuns
end RFS
