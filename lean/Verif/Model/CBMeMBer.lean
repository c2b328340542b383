import Verif.Model.GMBernoulli
import Verif.Model.RFSLikelihood

/-!
Model of `RBCBMeMBerFilter::updateMap`, `addBirthTracks` (include/RBCBMeMBerFilter.hpp 304-332, 513-647) for one particle.

Exact arithmetic over an ordered field (`x / 0 = 0`, where C++ gives inf or NaN; theorems assume existence probabilities below one and positive clutter).
The measurement model and the Kalman filter are parameters: `pd` is `probabilityOfDetection` at the particle's pose, `corr z` is `correct` with measurement
`z` (new landmark and likelihood, `none` if it returned `false`), `clut` is `clutterIntensity`. The flags of landmarks close to the sensing limit are
collected by the code but never used. `none` is an access outside a container or through a null pointer.
-/

namespace RFS
namespace CBM
open GM GMB

/-- Measurement model and Kalman filter at the particle's pose. -/
structure Env (K : Type*) (d nZ : Nat) where
  pd : Lm K d → K
  corr : Fin nZ → Lm K d → Option (Lm K d × K)
  clut : Fin nZ → K

variable {K : Type*} [Field K] [LinearOrder K] {d nZ : Nat}

/-- The Gaussians `g < getGaussianCount()` of a mixture, weight and landmark; `none` if an index is out of range or a landmark pointer is null. -/
def comps (m : GMix K d) : Option (List (K × Lm K d)) :=
  (List.range m.n.toNat).mapM fun i => (m.g[i]?).bind fun e => e.lm.map fun l => (e.w, l)

/-- `Pd` of a track, lines 561-570. -/
def trackPd (env : Env K d nZ) (c : List (K × Lm K d)) : K := (c.map fun x => x.1 * env.pd x.2).sum

/-- Lines 577-579: the legacy track. -/
def legacy (env : Env K d nZ) (t : Track K d) (c : List (K × Lm K d)) : Track K d :=
  { t with P := t.P * (1 - trackPd env c) / (1 - t.P * trackPd env c), prevP := t.P }

/-- A track as the loop over the measurements sees it: `prevP`, components, `Pd`. -/
structure Seen (K : Type*) (d : Nat) where
  p : K
  c : List (K × Lm K d)
  pd : K

/-- Lines 598-611: pairs of corrected landmark and `innovationLikelihood * weight * Pd`, for the Gaussians that `correct` accepts. -/
def accepted (env : Env K d nZ) (z : Fin nZ) (s : Seen K d) : List (Lm K d × K) :=
  s.c.filterMap fun x => (env.corr z x.2).map fun r => (r.1, r.2 * x.1 * s.pd)

/-- `rho`, line 604. -/
def rho (env : Env K d nZ) (z : Fin nZ) (s : Seen K d) : K := ((accepted env z s).map Prod.snd).sum

/-- State of the loop over the tracks, lines 593-619: mixture of the new track, `num`, `denom`. -/
structure Acc (K : Type*) (d : Nat) where
  gm : GMix K d
  num : K
  denom : K

/-- One pass of the loop of lines 593-619. -/
def seenStep (env : Env K d nZ) (z : Fin nZ) (a : Acc K d) (s : Seen K d) : Acc K d :=
  ⟨(accepted env z s).foldl (fun m x => addGaussian m x.1 (x.2 * s.p / (1 - s.p))) a.gm,
   a.num + rho env z s * s.p * (1 - s.p) / (1 - s.p * s.pd) ^ 2,
   a.denom + rho env z s * s.p / (1 - s.p * s.pd)⟩

/-- Lines 589-624: the track made from measurement `z`. -/
def updated (env : Env K d nZ) (seen : List (Seen K d)) (z : Fin nZ) : Option (Track K d) :=
  let a := seen.foldl (seenStep env z) ⟨empty, 0, 0⟩
  (normalizeWeights a.gm).map fun gm => ⟨a.num / (a.denom + env.clut z), 0, gm⟩

/-- One pass of the compaction loop, lines 632-639, at measurement `z`: `pruned` counts `num_unused`. -/
def compactStep (garb : Nat → GMix K d) (nM nZ : Nat) (s : PSt K d × List Nat) (z : Nat) : Option (PSt K d × List Nat) :=
  match s.1.tracks[nM + z]? with
  | none => none
  | some t =>
    if t.P = 0 then
      (copyTrack (garb z) s.1 (nM + nZ - 1 - s.1.pruned) (nM + z)).map fun s' => ({ s' with pruned := s'.pruned + 1 }, s.2 ++ [z])
    else some s

/-- Lines 629-640: flag (freed memory was read), tracks, unused measurements. `garb` gives what copies onto themselves leave behind. -/
def compact (garb : Nat → GMix K d) (nM nZ : Nat) (tracks : List (Track K d)) : Option (Bool × List (Track K d) × List Nat) :=
  match (List.range nZ).foldlM (compactStep garb nM nZ) (⟨0, tracks, false⟩, []) with
  | none => none
  | some s => some (s.1.ub, s.1.tracks.take (nM + nZ - s.1.pruned), s.2)

/-- The tracks with `Pd > 0`, lines 571-575, as the measurement loop sees them. -/
def seenOf (env : Env K d nZ) (x : Track K d × List (K × Lm K d)) : Option (Seen K d) :=
  if 0 < trackPd env x.2 then some ⟨x.1.P, x.2, trackPd env x.2⟩ else none

/-- Lines 559-624: legacy tracks and updated tracks, before the compaction. -/
def updateTracks (env : Env K d nZ) (tracks : List (Track K d)) : Option (List (Track K d)) := do
  let cs ← tracks.mapM fun t => (comps t.gm).map fun c => (t, c)
  let up ← (List.finRange nZ).mapM (updated env (cs.filterMap (seenOf env)))
  return cs.map (fun x => legacy env x.1 x.2) ++ up

/-- `updateMap` without the importance weight, lines 513-640: flag, tracks, unused measurements. -/
def updateMap (env : Env K d nZ) (garb : Nat → GMix K d) (tracks : List (Track K d)) : Option (Bool × List (Track K d) × List Nat) :=
  if tracks.length = 0 then some (false, tracks, List.range nZ)
  else (updateTracks env tracks).bind (compact garb tracks.length nZ)

/-- `addBirthTracks` for one particle, lines 304-332: takes the unused measurements from the back. `inv z` is `inverseMeasure`; the outer `none` is an
index outside `measurements_`. -/
def addBirths (pe : K) (inv : Nat → Option (Lm K d)) (unused : List Nat) (tracks : List (Track K d)) : Option (List (Track K d)) :=
  unused.reverse.foldlM (fun ts z => (inv z).map fun l => ts ++ [⟨pe, 0, addGaussian empty l 1⟩]) tracks

/-- The likelihood table of lines 585-619: rows are the tracks in view. `thr` is `importanceWeightingMeasurementLikelihoodThreshold_`. -/
def table (env : Env K d nZ) (thr : K) (seen : List (Seen K d)) (m : Fin seen.length) (z : Fin nZ) : K :=
  if thr < rho env z seen[m] then rho env z seen[m] else 0

/-- The value returned by `updateMap`, lines 527-534 and 642-646, with which the particle weight is multiplied (1 for a particle without tracks). The
likelihood is `rfsMeasurementLikelihood`, lines 651-800, whose text is that of `RBPHDFilter::rfsMeasurementLikelihood`. -/
noncomputable def importance {d nZ : Nat} (env : Env ℝ d nZ) (thr integral : ℝ) (tracks : List (Track ℝ d × List (ℝ × Lm ℝ d)))
    (murty : ∀ n, List (Fin n) → List (Fin nZ) → Option ℝ) (fuel ncc : Nat) (lab : ∀ n, Fin n ⊕ Fin nZ → Nat) : Option ℝ :=
  if tracks.length = 0 then some 1
  else
    let seen := tracks.filterMap (seenOf env)
    RFSLik.rfsLik (table env thr seen) (fun m => seen[m].pd) env.clut integral (murty _) fuel ncc (lab _)

end CBM
end RFS
