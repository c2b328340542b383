import Verif.Model.PHD
import Verif.Model.GaussianMixture

/-!
Model of whole runs of `rfs::RBPHDFilter`: sequences of `predict` (include/RBPHDFilter.hpp 416-443) and `update` (lines 446-542) with the merging and pruning of `GaussianMixture` (lines 503-517).

Built from `Verif.Model.PHD` (map update, births, resampling) and `Verif.Model.GaussianMixture` (`merge`, `prune`). The models, the weight of a particle and the sampled motion may be different at every call. `order` is what
`importanceWeighting` does to the order of the Gaussians before they are merged (`sortByWeight`, line 748, or nothing). A map with a null pointer after pruning would be read by the next call: undefined (`.error .index`).
-/

namespace RFS
namespace PHDR
open GM PHD

variable {K : Type*} [Field K] [LinearOrder K] {X Z : Type*} {d : Nat}

/-- Members of `config` (lines 129-136): `gaussianMergingThreshold_`, `gaussianMergingCovarianceInflationFactor_`, `gaussianPruningThreshold_`. -/
structure TCfg (K : Type*) where
  mergeT : K
  mergeF : K
  pruneT : K

/-- A map as a `GaussianMixture` (no null pointers). -/
def toMix (map : List (Comp (Lm K d) K)) : GMix K d := ⟨map.length, map.map fun c => ⟨some c.lm, c.w, c.wp⟩, false⟩

/-- A `GaussianMixture` as a map; `none`: there is a null pointer. -/
def ofMix (m : GMix K d) : Option (List (Comp (Lm K d) K)) := m.g.mapM fun e => e.lm.map fun l => ⟨l, e.w, e.wp⟩

/-- Merging and pruning of one map, lines 503-517. -/
def tidy (maha : Lm K d → Lm K d → K) (srt : List (Gauss K d) → List (Gauss K d)) (tc : TCfg K) (map : List (Comp (Lm K d) K)) : Option (List (Comp (Lm K d) K)) :=
  (merge maha tc.mergeT tc.mergeF (toMix map)).bind fun r => (prune srt tc.pruneT r.2).bind fun q => ofMix q.2

/-- The calls of the user. `predict`: the models used for births, the motion of particle `i`, the motion of landmarks (`staticStep`), `birthGaussianCheck`. `update`: the sensor models, the weight of a particle from the
particle before and after its map update, `order`, the thresholds and the random number of `resample`, the scan. -/
inductive Cmd (X Z K : Type*) (d : Nat)
  | predict (b : X → BSensor (Lm K d) Z) (mx : Nat → X → X) (ml : Lm K d → Lm K d) (check : Bool)
  | update (s : X → Sensor (Lm K d) Z K) (weigh : PF.Part (PState X (Lm K d) K) K → PF.Part (PState X (Lm K d) K) K → K) (order : List (Comp (Lm K d) K) → List (Comp (Lm K d) K)) (t tp r : K) (Zs : List Z)

/-- Lines 430-440: the motion of a particle and its landmarks. -/
def moved (mx : Nat → X → X) (ml : Lm K d → Lm K d) (i : Nat) (p : PState X (Lm K d) K) : PState X (Lm K d) K := ⟨mx i p.x, p.map.map fun c => ⟨ml c.lm, c.w, c.wp⟩⟩

/-- One call. -/
def step (cfg : Cfg K) (tc : TCfg K) (maha : Lm K d → Lm K d → K) (srt : List (Gauss K d) → List (Gauss K d)) (f : Filt X (Lm K d) Z K) : Cmd X Z K d → Except Err (Filt X (Lm K d) Z K)
  | .predict b mx ml check => predict cfg b (moved mx ml) check f
  | .update s weigh order t tp r Zs =>
    if Zs.length ≠ 0 ∧ ∃ p ∈ f.parts, tidy maha srt tc (order (updateMap (s p.st.x) cfg.mdThr cfg.birthW p.st.map Zs).map) = none then .error .index
    else update cfg s weigh (fun m => (tidy maha srt tc (order m)).getD []) t tp r Zs f

/-- A sequence of calls. -/
def exec (cfg : Cfg K) (tc : TCfg K) (maha : Lm K d → Lm K d → K) (srt : List (Gauss K d) → List (Gauss K d)) : List (Cmd X Z K d) → Filt X (Lm K d) Z K → Except Err (Filt X (Lm K d) Z K)
  | [], f => .ok f
  | c :: cs, f =>
    match step cfg tc maha srt f c with
    | .error e => .error e
    | .ok f' => exec cfg tc maha srt cs f'

end PHDR
end RFS
